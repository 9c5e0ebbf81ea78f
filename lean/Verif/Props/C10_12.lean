import Verif.Spec.Layer
import Verif.Lemmas.LayerLoop
import Verif.Lemmas.Detector
import Verif.Props.C03_07

/- C10-C12: passive layers. -/
namespace Tomopt

noncomputable section
open Real

variable {α : Type}

namespace C10

/-- **C10.** Whatever the material, the draws and the entry heights: if the traversal returns, every surviving muon is exactly at the bottom
face, and no muon was created or lost. -/
theorem delivers (L : PassiveLayer) (rng : Nat → Nat → Draw) (fuel : Nat) (b b' : Batch α)
    (h : L.forward rng fuel b = .ok (some b')) :
    (∀ m ∈ b'.muons, m.z = L.z - L.size) ∧ Conserves b b' ∧ b'.hist = b.hist := by
  obtain ⟨b2, hl, rfl⟩ := PassiveLayer.forward_inv L rng fuel b b' h
  obtain ⟨hc, hh⟩ := PassiveLayer.loop_conserves L rng fuel 0
    { b with muons := b.muons.map fun m => Batch.propDzRow m (m.z - L.z) } b2 (fun _ => true) (by simpa [List.map_const'] using hl)
  refine ⟨?_, ?_, ?_⟩
  · intro m hm
    simp only [List.mem_map] at hm
    obtain ⟨m0, _, rfl⟩ := hm
    simp [Batch.propDzRow]
  · refine (conserves_map b (fun m => Batch.propDzRow m (m.z - L.z)) (fun m => rfl)).trans (hc.trans
      (conserves_map b2 (fun m => Batch.propDzRow m (m.z - (L.z - L.size))) (fun m => rfl)))
  · simpa using hh

/-- Without material the muons are moved on straight lines: the result is the straight-line extrapolation of every incoming muon to
the bottom face, whatever the step size and however many steps were needed. -/
theorem empty_layer_straight (L : PassiveLayer) (hL : L.radLength = none) (rng : Nat → Nat → Draw) (fuel : Nat)
    (b b' : Batch α) (hc : ∀ m ∈ b.muons, cos m.th ≠ 0) (h : L.forward rng fuel b = .ok (some b')) :
    b'.muons = b.muons.map (atHeight (L.z - L.size)) ∧ b'.removed = b.removed ∧ b'.hits = b.hits := by
  obtain ⟨b2, hl, rfl⟩ := PassiveLayer.forward_inv L rng fuel b b' h
  have key := PassiveLayer.loop_empty L hL rng fuel 0
    { b with muons := b.muons.map fun m => Batch.propDzRow m (m.z - L.z) } b2 (fun _ => true)
    (by intro m hm; simp only [List.mem_map] at hm; obtain ⟨m0, h0, rfl⟩ := hm; exact hc m0 h0)
    (by simpa [List.map_const'] using hl)
  obtain ⟨k1, k2, k3⟩ := key
  refine ⟨?_, k2, k3⟩
  simp only
  rw [k1]
  simp only [List.map_map]
  apply List.map_congr_left
  intro m _
  simp only [Function.comp]
  rw [C06.propDz_add, ← propDz_atHeight]
  congr 1
  simp only [Batch.propDzRow]; ring

end C10

namespace C11

/-- **C11, without material**: with every direction at least `c > 0` steep, `n ≥ size/(step*c)` passes are enough. -/
theorem empty_terminates (L : PassiveLayer) (hL : L.radLength = none) (rng : Nat → Nat → Draw) (b : Batch α) (c : ℝ) (n : Nat)
    (hs : 0 < L.size) (hst : 0 < L.stepSz) (hc : ∀ m ∈ b.muons, c ≤ cos m.th) (hn : L.size ≤ n * (L.stepSz * c)) :
    ∃ b', L.forward rng n b = .ok (some b') := by
  apply PassiveLayer.forward_returns
  refine PassiveLayer.loop_returns L rng (L.stepSz * c) n 0 _ (fun _ => true) ?_ ?_ ?_ ?_ ?_
  · intro k b p
    exact ⟨_, PassiveLayer.pass_empty L hL (rng k) b p⟩
  · apply PassiveLayer.progresses_empty L hL rng hst.le
    intro m hm
    simp only [List.mem_map] at hm
    obtain ⟨m0, h0, rfl⟩ := hm
    exact hc m0 h0
  · intro m hm _
    simp only [List.mem_map] at hm
    obtain ⟨m0, h0, rfl⟩ := hm
    simp only [Batch.propDzRow]
    linarith
  · intro m hm _
    simp only [List.mem_map] at hm
    obtain ⟨m0, h0, rfl⟩ := hm
    simp only [Batch.propDzRow]
    linarith
  · intro m _ h; simp at h

/-- Non-vacuity (C10 and C11): a layer without material, a vertical muon above it; the traversal returns. -/
example : ∃ b', (⟨(1, 1), 1, 1, 2, "pdg", none⟩ : PassiveLayer).forward (fun _ _ => ⟨0, 0, 0, 0⟩) 5
    (⟨[⟨0, 0.5, 0.5, 3, 1, 0, 0⟩], [], [], []⟩ : Batch Nat) = .ok (some b') :=
  empty_terminates _ rfl _ _ 1 5 (by norm_num) (by norm_num) (by simp) (by norm_num)

/-- **C11, with material**: if in every pass each tracked muon loses at least `δ > 0` of height, `n ≥ size/δ` passes are enough and the
traversal raises nothing. -/
theorem terminates (L : PassiveLayer) (nx ny : Nat) (cube : List (List ℝ)) (hL : WellShaped L nx ny cube)
    (hpdg : L.scatterModel = "pdg") (rng : Nat → Nat → Draw) (b : Batch α) (δ : ℝ) (n : Nat) (hn : L.size ≤ n * δ)
    (hp : Progresses L rng δ n 0 { b with muons := b.muons.map fun m => Batch.propDzRow m (m.z - L.z) }
      (List.replicate b.muons.length true)) :
    ∃ b', L.forward rng n b = .ok (some b') := by
  have hs := hL.size_pos
  apply PassiveLayer.forward_returns
  refine PassiveLayer.loop_returns L rng δ n 0 _ (fun _ => true) ?_ ?_ ?_ ?_ ?_
  · intro k b p
    exact PassiveLayer.pass_total L nx ny cube hL hpdg (rng k) b p
  · simpa [List.map_const'] using hp
  · intro m hm _
    simp only [List.mem_map] at hm
    obtain ⟨m0, h0, rfl⟩ := hm
    simp only [Batch.propDzRow]
    linarith
  · intro m hm _
    simp only [List.mem_map] at hm
    obtain ⟨m0, h0, rfl⟩ := hm
    simp only [Batch.propDzRow]
    linarith
  · intro m _ h; simp at h

/-- Non-vacuity: a layer half a metre thick with a step of a metre and draws of zero; a muon at 60 degrees loses half a metre in the first pass. -/
example : Progresses (⟨(1, 1), 1, 0.5, 1, "pdg", some [[0.01, 0.01], [0.01, 0.01]]⟩ : PassiveLayer) (fun _ _ => ⟨0, 0, 0, 0⟩) 0.5 1 0
    (⟨[⟨0, 0.5, 0.5, 1, 1, π / 3, 0⟩], [], [], []⟩ : Batch Nat) [true] := by
  refine ⟨?_, fun _ _ => trivial⟩
  intro m hm
  simp only [pick_true, pick_nil_left, List.mem_singleton] at hm
  subst hm
  have hdz : ∀ x0 th ph tx ty mom st, (pdgScatter x0 th ph tx ty mom st ⟨0, 0, 0, 0⟩).dz = 0 := by
    intro x0 th ph tx ty mom st; simp [pdgScatter, pdgDzVol, pdgDxy]
  unfold heightChange
  simp only
  split
  · rename_i s _ hs
    simp only [PassiveLayer.scatterOf] at hs
    split at hs
    · simp at hs
    · simp only [Except.ok.injEq] at hs
      rw [← hs, hdz, cos_pi_div_three]; norm_num
  · rw [cos_pi_div_three]; norm_num

end C11

namespace C12

/-- **C12, index.** A position within a side of `n` voxels has an index in range, and lies within that voxel. -/
theorem index_correct (L : PassiveLayer) (hs : 0 < L.size) (n : Nat) (x : ℝ) (h0 : 0 ≤ x) (h1 : x < n * L.size) :
    0 ≤ L.abs2idx x ∧ L.abs2idx x < n ∧ (L.abs2idx x : ℝ) * L.size ≤ x ∧ x < (L.abs2idx x + 1) * L.size :=
  PassiveLayer.index_bounds L hs n x h0 h1

/-- **C12, look-up.** For a muon over the footprint the X0 read is that of the voxel the muon is in. -/
theorem lookup_correct (L : PassiveLayer) (nx ny : Nat) (cube : List (List ℝ)) (hL : WellShaped L nx ny cube) (m : Muon) (hm : Over L m) :
    ∃ (i j : Nat) (col : List ℝ) (v : ℝ), i < nx ∧ j < ny ∧ cube[i]? = some col ∧ col[j]? = some v ∧ L.lookupX0 cube m = .ok v ∧
      i * L.size ≤ m.x ∧ m.x < (i + 1) * L.size ∧ j * L.size ≤ m.y ∧ m.y < (j + 1) * L.size :=
  PassiveLayer.lookup_ok L nx ny cube hL m hm

/-- **C12, outside.** A muon that is not over the footprint is not scattered: in a pass it keeps its direction and moves on its line, down by
`step * cos theta` but not below the bottom face. -/
theorem outside_not_scattered (L : PassiveLayer) (cube : List (List ℝ)) (hc : L.radLength = some cube)
    (draw : Nat → Draw) (b b' : Batch α) (p : Muon → Bool) (h : L.pass draw b (b.muons.map p) = .ok b')
    (m : Muon) (hm : m ∈ b.muons) (hout : ¬ Over L m) (hd : Downward m) (hp : p m = true) :
    ∃ m' ∈ b'.muons, m'.id = m.id ∧ m'.th = m.th ∧ m'.ph = m.ph ∧ m'.p = m.p ∧
      m'.z = max (L.z - L.size) (m.z - L.stepSz * cos m.th) ∧
      m'.x = m.x + (m.z - m'.z) * (tan m.th * cos m.ph) ∧ m'.y = m.y + (m.z - m'.z) * (tan m.th * sin m.ph) := by
  have hb' := PassiveLayer.pass_rows L cube hc draw b b' p h
  have hf : L.footprint m = false := by
    by_contra hcon
    simp only [Bool.not_eq_false] at hcon
    exact hout ((PassiveLayer.footprint_iff L m).mp hcon)
  have hcos : 0 < cos m.th := cos_pos_of_mem_Ioo ⟨by have := hd.1; have := pi_pos; linarith, hd.2.1⟩
  obtain ⟨hmu, -⟩ := removeUpwards_spec b (b.muons.map fun m => L.rowPass (L.footprint m && p m) (p m) (L.scatVal cube draw m) m)
  have hrow : L.rowPass (L.footprint m && p m) (p m) (L.scatVal cube draw m) m = (L.rowPos false true (L.scatVal cube draw m) m).toRaw := by
    simp [PassiveLayer.rowPass, hf, hp]
  have hpos : (L.rowPos false true (L.scatVal cube draw m) m).th = m.th := by
    unfold PassiveLayer.rowPos; simp only [Bool.false_eq_true, if_false, if_true]; split <;> rfl
  refine ⟨L.rowPos false true (L.scatVal cube draw m) m, ?_, ?_⟩
  · rw [hb', hmu]
    apply List.mem_filterMap.mpr
    refine ⟨_, List.mem_filter.mpr ⟨List.mem_map.mpr ⟨m, hm, rfl⟩, ?_⟩, ?_⟩
    · rw [hrow]; simp [Batch.keepRow, MuonOf.toRaw, hpos, hd.2.1]
    · rw [hrow]; exact toMuon?_toRaw _
  · have ht : tan m.th = sin m.th / cos m.th := tan_eq_sin_div_cos _
    unfold PassiveLayer.rowPos
    simp only [Bool.false_eq_true, if_false, if_true, Bool.and_true, Batch.propDRow, decide_eq_true_eq]
    split
    · rename_i hlt
      refine ⟨rfl, rfl, rfl, rfl, ?_, ?_, ?_⟩
      · simp only [Batch.propDzRow]
        rw [max_eq_left (by linarith)]; ring
      · simp only [Batch.propDzRow]; rw [ht]; field_simp; ring
      · simp only [Batch.propDzRow]; rw [ht]; field_simp; ring
    · rename_i hlt
      refine ⟨rfl, rfl, rfl, rfl, ?_, ?_, ?_⟩
      · rw [max_eq_right (by linarith)]
      · simp only; rw [ht]; field_simp; ring
      · simp only; rw [ht]; field_simp; ring

/-- Muons over the footprint that are tracked never make a pass fail. -/
theorem pass_never_fails (L : PassiveLayer) (nx ny : Nat) (cube : List (List ℝ)) (hL : WellShaped L nx ny cube)
    (hpdg : L.scatterModel = "pdg") (draw : Nat → Draw) (b : Batch α) (p : Muon → Bool) :
    ∃ b', L.pass draw b (b.muons.map p) = .ok b' :=
  PassiveLayer.pass_total L nx ny cube hL hpdg draw b p

/-- Non-vacuity: a 2 by 1 voxel layer. -/
example : WellShaped ⟨(1, 0.5), 1, 0.5, 0.01, "pdg", some [[1], [2]]⟩ 2 1 [[1], [2]] ∧
    Over ⟨(1, 0.5), 1, 0.5, 0.01, "pdg", some [[1], [2]]⟩ ⟨0, 0.75, 0.25, 1, 1, 0, 0⟩ := by
  refine ⟨⟨by norm_num, by norm_num, by norm_num, rfl, rfl, by simp⟩, ?_⟩
  simp only [Over]; norm_num

end C12

end

end Tomopt
