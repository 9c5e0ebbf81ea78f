import Verif.Spec.Crossing
import Verif.Spec.Detector
import Verif.Props.C10_12

/- C157: how much material of a layer scatters a muon. -/
namespace Tomopt.C157

noncomputable section
open Real Crossing

variable {α : Type}

theorem cos_pos {m : Muon} (h : Downward m) : 0 < cos m.th :=
  cos_pos_of_mem_Ioo ⟨by have := h.1; have := pi_pos; linarith, h.2.1⟩

theorem within_iff {L : PassiveLayer} (hst : 0 < L.stepSz) {m : Muon} (hd : Downward m) (hz : L.z - L.size < m.z) (s : ℝ) :
    Within L m s ↔ s = min L.stepSz ((m.z - (L.z - L.size)) / cos m.th) := by
  have hc := cos_pos hd
  have hq : 0 < (m.z - (L.z - L.size)) / cos m.th := div_pos (by linarith) hc
  simp only [Within, onward]
  constructor
  · rintro ⟨_, h1, h2, h3⟩
    rcases lt_or_eq_of_le h1 with h | h
    · have e : s = (m.z - (L.z - L.size)) / cos m.th := by rw [eq_div_iff hc.ne']; linarith [h3 h]
      rw [← e, min_eq_right h1]
    · rw [← h, min_eq_left]
      rw [le_div_iff₀ hc]; linarith
  · rintro rfl
    have e : (m.z - (L.z - L.size)) / cos m.th * cos m.th = m.z - (L.z - L.size) := div_mul_cancel₀ _ hc.ne'
    refine ⟨lt_min hst hq, min_le_left _ _, ?_, fun h => ?_⟩
    · have := mul_le_mul_of_nonneg_right (min_le_right L.stepSz ((m.z - (L.z - L.size)) / cos m.th)) hc.le
      linarith
    · rw [min_eq_right (by by_contra hn; rw [min_eq_left (by linarith)] at h; exact lt_irrefl _ h), e]; ring

theorem scatterStep_eq (L : PassiveLayer) (m : Muon) : L.scatterStep m = min L.stepSz ((m.z - (L.z - L.size)) / cos m.th) := by
  unfold PassiveLayer.scatterStep
  simp only
  split
  · rename_i h; rw [min_eq_right h.le]
  · rename_i h; rw [min_eq_left (not_lt.mp h)]

/-- **C157: step.** A muon in a layer is scattered as by the material of the voxel it is in, over the part of its next step that is within the layer. -/
theorem step (L : PassiveLayer) (nx ny : Nat) (cube : List (List ℝ)) (hL : WellShaped L nx ny cube) (hst : 0 < L.stepSz) (draw : Nat → Draw) (m : Muon)
    (hd : Downward m) (ho : Over L m) (hz : L.z - L.size < m.z) :
    ∃ (i j : Nat) (col : List ℝ) (x0 s : ℝ), cube[i]? = some col ∧ col[j]? = some x0 ∧
      (i * L.size ≤ m.x ∧ m.x < (i + 1) * L.size ∧ j * L.size ≤ m.y ∧ m.y < (j + 1) * L.size) ∧ (∀ s', Within L m s' ↔ s' = s) ∧
      L.scatterOf cube draw m = .ok (pdgScatter x0 m.th m.ph (some (arctan (tan m.th * cos m.ph))) (some (arctan (tan m.th * sin m.ph))) m.p s (draw m.id)) := by
  obtain ⟨i, j, col, v, -, -, h1, h2, h3, h4⟩ := C12.lookup_correct L nx ny cube hL m ho
  refine ⟨i, j, col, v, _, h1, h2, h4, fun s' => within_iff hst hd hz s', ?_⟩
  have hn : ¬ m.th ≥ π / 2 := not_le.mpr hd.2.1
  simp only [PassiveLayer.scatterOf, h3, scatterStep_eq, thetaXFromThetaPhi, thetaYFromThetaPhi, hn, if_false]

theorem imp_of_mem {β γ : Type} {R S : β → γ → Prop} {xs : List β} {ys : List γ} (h : List.Forall₂ R xs ys) (hi : ∀ x y, x ∈ xs → R x y → S x y) : List.Forall₂ S xs ys := by
  induction h with
  | nil => exact .nil
  | cons h1 _ ih => exact .cons (hi _ _ List.mem_cons_self h1) (ih fun x y hx => hi x y (List.mem_cons_of_mem _ hx))

/-- no deflection and no displacement -/
def still : Draw := ⟨0, 0, 0, 0⟩

theorem scatter_still (x0 mom s : ℝ) (m : Muon) (hd : Downward m) :
    pdgScatter x0 m.th m.ph (thetaXFromThetaPhi m.th m.ph) (thetaYFromThetaPhi m.th m.ph) mom s still = ⟨0, 0, 0, some 0, some 0⟩ := by
  have hn : ¬ m.th ≥ π / 2 := not_le.mpr hd.2.1
  have h0 : ∀ t, pdgDtheta 0 t = 0 := by
    intro t; unfold pdgDtheta; rw [zero_mul]; exact min_eq_left (by have := pi_pos; positivity)
  simp only [pdgScatter, still, h0, pdgDxy, thetaXFromThetaPhi, thetaYFromThetaPhi, hn, if_false, pdgDOut, tan_zero, tan_arctan]
  simp [pdgDxVol, pdgDyVol, pdgDzVol, arctanDiv]

theorem row_still (L : PassiveLayer) (sc : Bool) (v : Scat) (hv : sc = true → v = ⟨0, 0, 0, some 0, some 0⟩) (m : Muon) (hd : Downward m) (hv0 : 0 < m.th) :
    L.rowPass sc true v m = (onward m (min L.stepSz ((m.z - (L.z - L.size)) / cos m.th))).toRaw := by
  have hc := cos_pos hd
  have e1 : (if sc then shiftXYZ m v.dx v.dy v.dz else m) = m := by
    cases sc
    · rfl
    · rw [hv rfl]; simp [shiftXYZ]
  have e2 : L.rowPos sc true v m = onward m (min L.stepSz ((m.z - (L.z - L.size)) / cos m.th)) := by
    unfold PassiveLayer.rowPos
    simp only [e1, if_true, Bool.and_true, decide_eq_true_eq]
    split
    · rename_i h
      simp only [Batch.propDRow] at h
      have hlt : (m.z - (L.z - L.size)) / cos m.th < L.stepSz := by rw [div_lt_iff₀ hc]; linarith
      rw [min_eq_right hlt.le]
      simp only [Batch.propDzRow, Batch.propDRow, onward, MuonOf.mk.injEq, true_and, and_true]
      refine ⟨?_, ?_, ?_⟩ <;> field_simp <;> ring
    · rename_i h
      simp only [Batch.propDRow] at h
      have hle : L.stepSz ≤ (m.z - (L.z - L.size)) / cos m.th := by rw [le_div_iff₀ hc]; linarith
      rw [min_eq_left hle]
      simp only [Batch.propDRow, onward, MuonOf.mk.injEq, true_and, and_true]
      refine ⟨?_, ?_⟩ <;> ring
  unfold PassiveLayer.rowPass
  rw [e2]
  cases sc
  · rfl
  · rw [hv rfl]
    exact C05.zero_scatter_identity _ hd hv0

theorem idle (L : PassiveLayer) (v : Scat) (m : Muon) : L.rowPass false false v m = m.toRaw := by
  simp [PassiveLayer.rowPass, PassiveLayer.rowPos]

/-- a pass without any deflection -/
theorem pass_still (L : PassiveLayer) (nx ny : Nat) (cube : List (List ℝ)) (hL : WellShaped L nx ny cube) (hpdg : L.scatterModel = "pdg")
    (b : Batch α) (hd : ∀ m ∈ b.muons, Downward m ∧ 0 < m.th) (p : Muon → Bool) :
    ∃ b', L.pass (fun _ => still) b (b.muons.map p) = .ok b' ∧
      b'.muons = b.muons.map fun m => if p m then onward m (min L.stepSz ((m.z - (L.z - L.size)) / cos m.th)) else m := by
  obtain ⟨b', hb⟩ := PassiveLayer.pass_total L nx ny cube hL hpdg (fun _ => still) b p
  refine ⟨b', hb, ?_⟩
  rw [PassiveLayer.pass_rows L cube hL.loaded _ b b' p hb, (removeUpwards_spec _ _).1]
  have e : (b.muons.map fun m => L.rowPass (L.footprint m && p m) (p m) (L.scatVal cube (fun _ => still) m) m) =
      b.muons.map fun m => (if p m then onward m (min L.stepSz ((m.z - (L.z - L.size)) / cos m.th)) else m).toRaw := by
    apply List.map_congr_left
    intro m hm
    cases hpm : p m
    · simp only [Bool.and_false, Bool.false_eq_true, if_false]
      exact idle L _ m
    · simp only [Bool.and_true, if_true]
      refine row_still L _ _ (fun hf => ?_) m (hd m hm).1 (hd m hm).2
      obtain ⟨_, _, _, v, -, -, -, -, h3, -⟩ := C12.lookup_correct L nx ny cube hL m ((PassiveLayer.footprint_iff L m).mp hf)
      simp only [PassiveLayer.scatVal, PassiveLayer.scatterOf, h3]
      exact scatter_still _ _ _ m (hd m hm).1
  rw [e]
  have hk : ∀ m ∈ b.muons, Batch.keepRow (if p m then onward m (min L.stepSz ((m.z - (L.z - L.size)) / cos m.th)) else m).toRaw = true := by
    intro m hm
    have := (hd m hm).1.2.1
    cases p m <;> simp [Batch.keepRow, MuonOf.toRaw, onward, this]
  rw [List.filter_eq_self.mpr (by
    intro r hr
    obtain ⟨m, hm, rfl⟩ := List.mem_map.mp hr
    exact hk m hm), List.filterMap_map]
  simp only [Function.comp_def, toMuon?_toRaw, List.filterMap_eq_map']

theorem cross_len {L : PassiveLayer} {m m' : Muon} {d : ℝ} (h : Crosses L m m' d) :
    m'.z = L.z - L.size ∧ m.z - (L.z - L.size) = d * cos m.th ∧ m'.th = m.th ∧ m'.ph = m.ph := by
  induction h with
  | there m h => exact ⟨h, by rw [h]; ring, rfl, rfl⟩
  | step m m' s d hz hw _ ih =>
    obtain ⟨h1, h2, h3, h4⟩ := ih
    simp only [onward] at h2 h3 h4
    exact ⟨h1, by linarith, h3, h4⟩

theorem loop_still (L : PassiveLayer) (nx ny : Nat) (cube : List (List ℝ)) (hL : WellShaped L nx ny cube) (hpdg : L.scatterModel = "pdg") (hst : 0 < L.stepSz)
    (c : ℝ) (hc : 0 < c) : ∀ (fuel k : Nat) (b : Batch α) (p : Muon → Bool), (∀ m ∈ b.muons, Downward m ∧ 0 < m.th ∧ c ≤ cos m.th) →
      (∀ m ∈ b.muons, L.z - L.size ≤ m.z ∧ m.z ≤ L.z ∧ m.z - (L.z - L.size) ≤ fuel * (L.stepSz * c)) → (∀ m ∈ b.muons, p m = true ↔ L.z - L.size < m.z) →
      ∃ b', L.loop (fun _ _ => still) fuel k b (b.muons.map p) = .ok (some b') ∧ List.Forall₂ (fun m m' => ∃ d, Crosses L m m' d) b.muons b'.muons := by
  intro fuel
  induction fuel with
  | zero =>
    intro k b p hd hz hp
    refine ⟨b, ?_, ?_⟩
    · unfold PassiveLayer.loop
      rw [if_neg]
      rw [hasAny_map]
      rintro ⟨m, hm, h⟩
      have h1 := (hp m hm).mp h
      have h2 := (hz m hm).2.2
      simp at h2
      linarith
    · refine List.forall₂_same.mpr fun m hm => ⟨0, .there m ?_⟩
      have h1 := hz m hm
      simp at h1
      linarith [h1.1, h1.2.2]
  | succ n ih =>
    intro k b p hd hz hp
    unfold PassiveLayer.loop
    by_cases ha : (b.muons.map p).any id = true
    · rw [if_pos ha]
      obtain ⟨b1, e1, e2⟩ := pass_still L nx ny cube hL hpdg b (fun m hm => ⟨(hd m hm).1, (hd m hm).2.1⟩) p
      have inv : ∀ m ∈ b.muons, p m = true → Within L m (min L.stepSz ((m.z - (L.z - L.size)) / cos m.th)) := fun m hm h =>
        (within_iff hst (hd m hm).1 ((hp m hm).mp h) _).mpr rfl
      have inv2 : ∀ m ∈ b1.muons, L.z - L.size ≤ m.z ∧ m.z ≤ L.z ∧ m.z - (L.z - L.size) ≤ n * (L.stepSz * c) := by
        intro m1 hm1
        rw [e2] at hm1
        obtain ⟨m, hm, rfl⟩ := List.mem_map.mp hm1
        have hzm := hz m hm
        have hn : (0 : ℝ) ≤ n * (L.stepSz * c) := by positivity
        cases hpm : p m
        · simp only [Bool.false_eq_true, if_false]
          have : ¬ L.z - L.size < m.z := fun h => by have := (hp m hm).mpr h; rw [hpm] at this; simp at this
          refine ⟨hzm.1, hzm.2.1, by linarith⟩
        · simp only [if_true]
          obtain ⟨w1, w2, w3, w4⟩ := inv m hm hpm
          have hcm := (hd m hm).2.2
          refine ⟨w3, ?_, ?_⟩
          · have : 0 ≤ min L.stepSz ((m.z - (L.z - L.size)) / cos m.th) * cos m.th := by
              apply mul_nonneg w1.le; linarith
            simp only [onward]; linarith
          · rcases lt_or_eq_of_le w2 with h | h
            · rw [w4 h]; linarith
            · rw [h]
              have := hzm.2.2
              push_cast at this
              have h2 : L.stepSz * c ≤ L.stepSz * cos m.th := mul_le_mul_of_nonneg_left hcm hst.le
              simp only [onward]
              linarith
      obtain ⟨b', f1, f2⟩ := ih (k + 1) b1 L.inside (by
          intro m1 hm1
          rw [e2] at hm1
          obtain ⟨m, hm, rfl⟩ := List.mem_map.mp hm1
          have := hd m hm
          cases p m <;> simpa [Downward, onward] using this) inv2 (by
          intro m hm
          have := (inv2 m hm).2.1
          simp [PassiveLayer.inside, this])
      refine ⟨b', ?_, ?_⟩
      · simp only [bind, Except.bind, e1]
        exact f1
      · rw [e2, List.forall₂_map_left_iff] at f2
        refine imp_of_mem f2 ?_
        intro m m' hm ⟨d, h⟩
        cases hpm : p m
        · rw [hpm] at h
          exact ⟨d, h⟩
        · rw [hpm] at h
          exact ⟨_, .step m m' _ d ((hp m hm).mp hpm) (inv m hm hpm) h⟩
    · rw [if_neg ha]
      refine ⟨b, rfl, List.forall₂_same.mpr fun m hm => ⟨0, .there m ?_⟩⟩
      have : ¬ L.z - L.size < m.z := fun h => ha ((hasAny_map p b.muons).mpr ⟨m, hm, (hp m hm).mpr h⟩)
      linarith [(hz m hm).1]

/-- **C157: total.** Muons that are not deflected cross a layer in steps within it whose lengths add up to its thickness over the cosine of the angle, whatever the step
length, voxels and material; they arrive on their lines at the bottom face. -/
theorem total (L : PassiveLayer) (nx ny : Nat) (cube : List (List ℝ)) (hL : WellShaped L nx ny cube) (hpdg : L.scatterModel = "pdg") (hst : 0 < L.stepSz)
    (c : ℝ) (hc : 0 < c) (b : Batch α) (hd : ∀ m ∈ b.muons, Downward m ∧ 0 < m.th ∧ c ≤ cos m.th) (n : Nat) (hn : L.size ≤ n * (L.stepSz * c)) :
    ∃ b', L.forward (fun _ _ => still) n b = .ok (some b') ∧
      List.Forall₂ (fun m m' => Crosses L (atHeight L.z m) m' (L.size / cos m.th)) b.muons b'.muons := by
  have hs := hL.size_pos
  have ea : ∀ m ∈ b.muons, Batch.propDzRow m (m.z - L.z) = atHeight L.z m := by
    intro m hm
    have hcm := cos_pos (hd m hm).1
    simp only [Batch.propDzRow, atHeight, crossing, MuonOf.mk.injEq, true_and, and_true, tan_eq_sin_div_cos]
    refine ⟨?_, ?_, by ring⟩ <;> field_simp
  obtain ⟨b2, h1, h2⟩ := loop_still L nx ny cube hL hpdg hst c hc n 0 { b with muons := b.muons.map fun m => Batch.propDzRow m (m.z - L.z) } (fun _ => true)
    (by intro m0 hm0
        obtain ⟨m, hm, rfl⟩ := List.mem_map.mp hm0
        exact hd m hm)
    (by intro m0 hm0
        obtain ⟨m, hm, rfl⟩ := List.mem_map.mp hm0
        simp only [Batch.propDzRow]
        refine ⟨?_, ?_, ?_⟩ <;> linarith)
    (by intro m0 hm0
        obtain ⟨m, hm, rfl⟩ := List.mem_map.mp hm0
        simp only [Batch.propDzRow, true_iff]
        linarith)
  refine ⟨_, PassiveLayer.forward_returns_of L _ n b (b2 := b2) (by simpa [List.map_const'] using h1), ?_⟩
  rw [List.forall₂_map_left_iff] at h2
  rw [List.forall₂_map_right_iff]
  refine imp_of_mem h2 ?_
  intro m m' hm ⟨d, h⟩
  have hcm := cos_pos (hd m hm).1
  obtain ⟨l1, l2, -, -⟩ := cross_len h
  have e : d = L.size / cos m.th := by
    rw [eq_div_iff hcm.ne']
    simp only [Batch.propDzRow] at l2
    linarith
  rw [l1, sub_self, C06.propDz_zero, ← ea m hm, ← e]
  exact h

/-- Non-vacuity: a muon at 60 degrees, a layer of half a metre, steps of 0.3 m: four passes are enough, and the muon meets a metre of material. -/
example : ∃ b', (⟨(1, 1), 1, 0.5, 0.3, "pdg", some [[0.01, 0.02], [0.03, 0.04]]⟩ : PassiveLayer).forward (fun _ _ => still) 4
      (⟨[⟨0, 0.5, 0.5, 1, 1, π / 3, 0⟩], [], [], []⟩ : Batch Nat) = .ok (some b') ∧ ∃ m', b'.muons = [m'] ∧
      Crosses ⟨(1, 1), 1, 0.5, 0.3, "pdg", some [[0.01, 0.02], [0.03, 0.04]]⟩ (atHeight 1 ⟨0, 0.5, 0.5, 1, 1, π / 3, 0⟩) m' 1 := by
  have hpi := pi_pos
  obtain ⟨b', h1, h2⟩ := total (α := Nat) ⟨(1, 1), 1, 0.5, 0.3, "pdg", some [[0.01, 0.02], [0.03, 0.04]]⟩ 2 2 [[0.01, 0.02], [0.03, 0.04]]
    ⟨by norm_num, by norm_num, by norm_num, rfl, rfl, by simp⟩ rfl (by norm_num) 0.5 (by norm_num) ⟨[⟨0, 0.5, 0.5, 1, 1, π / 3, 0⟩], [], [], []⟩
    (by intro m hm
        simp only [List.mem_singleton] at hm
        subst hm
        refine ⟨⟨by positivity, by simp only; linarith, le_refl _, by simp only; linarith⟩, by positivity, ?_⟩
        simp only [cos_pi_div_three]; norm_num) 4 (by norm_num)
  refine ⟨b', h1, ?_⟩
  simp only [cos_pi_div_three, List.forall₂_cons_left_iff, List.forall₂_nil_left_iff] at h2
  obtain ⟨m', u, hm', rfl, h3⟩ := h2
  refine ⟨m', h3, ?_⟩
  have e : (0.5 : ℝ) / (1 / 2) = 1 := by norm_num
  rw [e] at hm'
  exact hm'

/-- a layer of two voxels of a metre, the first of X0 one metre -/
def pair (x0 : ℝ) : PassiveLayer := ⟨(2, 1), 1, 1, 1, "pdg", some [[1], [x0]]⟩

/-- **C157, violated across voxels.** A step that leaves its voxel sideways is scattered as if all of it were in the voxel it starts in: here most of the step is in the
second voxel, and the scattering is the same whatever the second voxel is made of. -/
theorem sideways_violated : ∃ m : Muon, Downward m ∧ (∀ x0, Over (pair x0) m ∧ Within (pair x0) m 1) ∧ (∀ s, 0.2 ≤ s → s ≤ 1 → 1 < (onward m s).x ∧ (onward m s).x < 2) ∧
    ∀ x0 draw, (pair x0).scatterOf [[1], [x0]] draw m = (pair 1).scatterOf [[1], [1]] draw m ∧ ∃ v, (pair x0).scatterOf [[1], [x0]] draw m = .ok v := by
  have hpi := pi_pos
  have h3 : sqrt 3 < 2 := by rw [sqrt_lt' (by norm_num)]; norm_num
  have h3' : 1.7 < sqrt 3 := by rw [lt_sqrt (by norm_num)]; norm_num
  have hd : Downward (⟨0, 0.9, 0.5, 1, 1, π / 3, 0⟩ : Muon) := ⟨by positivity, by simp only; linarith, le_refl _, by simp only; linarith⟩
  have hl : ∀ x0, (pair x0).lookupX0 [[1], [x0]] ⟨0, 0.9, 0.5, 1, 1, π / 3, 0⟩ = .ok 1 := by
    intro x0
    have e1 : ⌊(0.9 : ℝ)⌋ = 0 := by norm_num
    have e2 : ⌊(0.5 : ℝ)⌋ = 0 := by norm_num
    simp [PassiveLayer.lookupX0, PassiveLayer.abs2idx, pair, getIdx, e1, e2]
  refine ⟨⟨0, 0.9, 0.5, 1, 1, π / 3, 0⟩, hd, fun x0 => ⟨by simp only [Over, pair]; norm_num, ?_⟩, fun s h0 h1 => ?_, fun x0 draw => ⟨?_, ?_⟩⟩
  · simp only [Within, onward, pair, cos_pi_div_three]; norm_num
  · simp only [onward, sin_pi_div_three, cos_zero, mul_one]
    constructor <;> nlinarith
  · simp only [PassiveLayer.scatterOf, hl]; rfl
  · simp only [PassiveLayer.scatterOf, hl]; exact ⟨_, rfl⟩

end

end Tomopt.C157
