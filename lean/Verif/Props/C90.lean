import Verif.Model.Benchmarks
import Verif.Spec.Stack
import Mathlib.Tactic.Ring
import Mathlib.Tactic.FieldSimp
import Mathlib.Tactic.Linarith
import Mathlib.Tactic.NormNum
import Mathlib.Algebra.Order.Floor.Ring

/- C90: the volumes of the benchmarks. -/
namespace Tomopt

open Benchmarks Spec

noncomputable section

namespace C90

theorem round2_cent (n : ℤ) : round2 ((n : ℝ) / 100) = n / 100 := by
  unfold round2
  have e : 100 * ((n : ℝ) / 100) = n := by ring
  rw [e]
  have : pyRound (n : ℝ) = n := by
    unfold pyRound
    simp
  rw [this]

/-- a stack of `n` passive layers of the same size on top of `rest` -/
theorem stacked_passives (lw : ℝ × ℝ) (s : ℝ) (hs : 0 < s) (rest : List AnyLayer) : ∀ (n : Nat) (t : ℝ) (f : Nat → ℝ), (∀ k, k < n → f k = t - k * s) →
    (Stacked t ((List.range n).map (fun k => passive lw s (f k)) ++ rest) ↔ Stacked (t - n * s) rest)
  | 0, t, f, _ => by simp
  | n + 1, t, f, hf => by
    have hsucc : (List.range (n + 1)).map (fun k => passive lw s (f k)) = passive lw s (f 0) :: (List.range n).map fun k => passive lw s (f (k + 1)) := by
      rw [List.range_succ_eq_map, List.map_cons, List.map_map]
      rfl
    rw [hsucc, List.cons_append]
    have ih := stacked_passives lw s hs rest n (t - s) (fun k => f (k + 1)) (by
      intro k hk
      rw [hf (k + 1) (by omega)]
      push_cast
      ring)
    have h0 := hf 0 (by omega)
    simp only [Nat.cast_zero, zero_mul, sub_zero] at h0
    show (f 0 = t ∧ 0 < s ∧ Stacked (t - s) _) ↔ _
    rw [ih]
    have e : t - s - n * s = t - ((n + 1 : ℕ) : ℝ) * s := by push_cast; ring
    rw [e]
    tauto

theorem make_gauss {res eff : ℝ} (hr : 0 < res) (he : 0 < eff) (xyz : ℝ × ℝ × ℝ) (span : ℝ × ℝ) :
    Panel.make .gauss res eff xyz span 1 none true = .ok ⟨.gauss, res, eff, 1, (xyz.1, xyz.2.1), xyz.2.2, span, 1, true, true⟩ := by
  unfold Panel.make
  rw [if_neg (not_le.mpr hr), if_neg (not_le.mpr he)]
  rfl

theorem make_sigmoid {s res eff : ℝ} (hs : 0 < s) (hr : 0 < res) (he : 0 < eff) (xyz : ℝ × ℝ × ℝ) (span : ℝ × ℝ) :
    Panel.make (.sigmoid s) res eff xyz span 1 none true = .ok ⟨.sigmoid s, res, eff, 1, (xyz.1, xyz.2.1), xyz.2.2, span, 1, true, true⟩ := by
  have hc : Panel.checkSmooth (.sigmoid s) = .ok () := by
    unfold Panel.checkSmooth
    exact if_neg (not_not.mpr hs)
  unfold Panel.make
  rw [if_neg (not_le.mpr hr), if_neg (not_le.mpr he), hc]
  rfl

/-- the detector layer that is built -/
def detector (pos : String) (lw : ℝ × ℝ) (span res eff det z : ℝ) : DetLayer :=
  ⟨pos, lw, z, det, (List.range 4).map fun (i : Nat) => .panel ⟨.gauss, res, eff, 1, (lw.1 / 2, lw.2 / 2), z - i * det / 4, (span * lw.1, span * lw.2), 1, true, true⟩⟩

theorem wallDetector_eq {res eff : ℝ} (hr : 0 < res) (he : 0 < eff) (pos : String) (lw : ℝ × ℝ) (span det z : ℝ) :
    wallDetector pos lw span res eff det z = .ok (.detector (detector pos lw span res eff det z)) := by
  have h : ∀ is : List Nat, mapE (wallPanel lw span res eff det z) is = .ok (is.map fun (i : Nat) =>
      AnyPanel.panel ⟨.gauss, res, eff, 1, (lw.1 / 2, lw.2 / 2), z - i * det / 4, (span * lw.1, span * lw.2), 1, true, true⟩) := by
    intro is
    induction is with
    | nil => rfl
    | cons i is ih =>
      have hp : wallPanel lw span res eff det z i = .ok (.panel ⟨.gauss, res, eff, 1, (lw.1 / 2, lw.2 / 2), z - i * det / 4, (span * lw.1, span * lw.2), 1, true, true⟩) := by
        unfold wallPanel
        rw [make_gauss hr he]
      simp only [mapE, hp, ih, List.map_cons]
  unfold wallDetector
  rw [h]
  rfl

theorem smallWalls_eq {res eff : ℝ} (hr : 0 < res) (he : 0 < eff) (size : ℝ) (lw : ℝ × ℝ) (h span det : ℝ) :
    smallWalls size lw h span res eff det = .ok (.detector (detector "above" lw span res eff det (h + 2 * det)) ::
      (List.range ⌈(h - 0) / size⌉.toNat).map (fun (k : Nat) => passive lw size (round2 (h - k * size) + det)) ++ [.detector (detector "below" lw span res eff det det)]) := by
  unfold smallWalls
  simp only [wallDetector_eq hr he, bind, Except.bind, arangeDown, List.map_map]
  rfl

theorem detector_inside {pos : String} {lw : ℝ × ℝ} {span res eff det z : ℝ} (hd : 0 ≤ det) : ∀ p ∈ (detector pos lw span res eff det z).panels, z - det ≤ p.z ∧ p.z ≤ z := by
  intro p hp
  simp only [detector, List.mem_map, List.mem_range] at hp
  obtain ⟨i, hi, rfl⟩ := hp
  show z - det ≤ z - i * det / 4 ∧ z - i * det / 4 ≤ z
  have h1 : (0 : ℝ) ≤ i := Nat.cast_nonneg i
  have h2 : (i : ℝ) ≤ 4 := by exact_mod_cast hi.le
  constructor
  · nlinarith
  · have := mul_nonneg h1 hd
    linarith

theorem detector_are {pos : String} {lw : ℝ × ℝ} {span res eff det z : ℝ} : ∀ p ∈ (detector pos lw span res eff det z).panels, ∃ q, p = .panel q ∧ q.res = res ∧ q.eff = eff := by
  intro p hp
  simp only [detector, List.mem_map, List.mem_range] at hp
  obtain ⟨i, hi, rfl⟩ := hp
  exact ⟨_, rfl, rfl, rfl⟩

theorem mem_smallWalls {D A B : DetLayer} {fs : Nat → ℝ} {lw : ℝ × ℝ} {s : ℝ} {n : Nat}
    (h : AnyLayer.detector D ∈ AnyLayer.detector A :: (List.range n).map (fun k => passive lw s (fs k)) ++ [.detector B]) : D = A ∨ D = B := by
  simp only [List.cons_append, List.mem_cons, List.mem_append, List.mem_map, List.not_mem_nil, or_false, AnyLayer.detector.injEq] at h
  rcases h with h | ⟨k, -, h⟩ | h
  · exact Or.inl h
  · simp [passive] at h
  · exact Or.inr h

/-- **C90, small walls.** If the voxel size is a whole number of centimetres and divides the height, the layers are stacked without gap down to the ground, with as many passive
layers as fit, and the panels lie in their layers and have the resolution and efficiency asked for. Missing: other sizes, see `uneven_violated` and `rounded_violated`. -/
theorem walls_partial (a n : Nat) (ha : 0 < a) (lw : ℝ × ℝ) (span res eff det : ℝ) (hd : 0 < det) (hr : 0 < res) (he : 0 < eff) :
    ∃ ls, smallWalls ((a : ℝ) / 100) lw (n * ((a : ℝ) / 100)) span res eff det = .ok ls ∧ Stacked (n * ((a : ℝ) / 100) + 2 * det) ls ∧ ls.length = n + 2 ∧
      PanelsInside ls ∧ PanelsAre res eff ls := by
  have hs : (0 : ℝ) < (a : ℝ) / 100 := by positivity
  refine ⟨_, smallWalls_eq hr he _ lw _ span det, ?_, ?_, ?_, ?_⟩
  · have hn : ⌈((n : ℝ) * ((a : ℝ) / 100) - 0) / ((a : ℝ) / 100)⌉.toNat = n := by
      rw [sub_zero, mul_div_assoc, div_self hs.ne', mul_one]
      simp
    rw [hn, List.cons_append]
    refine ⟨rfl, hd, ?_⟩
    rw [stacked_passives lw _ hs]
    · refine ⟨?_, hd, ?_⟩
      · show det = _
        simp only [AnyLayer.size, detector]
        ring
      · show _ - _ = (0 : ℝ)
        simp only [AnyLayer.size, detector]
        ring
    · intro k _
      have : (n : ℝ) * ((a : ℝ) / 100) - k * ((a : ℝ) / 100) = ((((n : ℤ) - k) * a : ℤ) : ℝ) / 100 := by push_cast; ring
      rw [this, round2_cent]
      simp only [AnyLayer.size, detector]
      push_cast
      ring
  · have hn : ⌈((n : ℝ) * ((a : ℝ) / 100) - 0) / ((a : ℝ) / 100)⌉.toNat = n := by
      rw [sub_zero, mul_div_assoc, div_self hs.ne', mul_one]
      simp
    rw [hn]
    simp
  · intro D hD p hp
    rcases mem_smallWalls hD with rfl | rfl
    · exact detector_inside hd.le p hp
    · exact detector_inside hd.le p hp
  · intro D hD p hp
    rcases mem_smallWalls hD with rfl | rfl
    · exact detector_are p hp
    · exact detector_are p hp

theorem wallPanel_error {res eff : ℝ} (h : res ≤ 0 ∨ eff ≤ 0) (lw : ℝ × ℝ) (span det z : ℝ) (i : Nat) : wallPanel lw span res eff det z i = .error .valueError := by
  unfold wallPanel Panel.make
  by_cases hr : res ≤ 0
  · rw [if_pos hr]
  · rw [if_neg hr, if_pos (h.resolve_left hr)]

/-- **C90: rejected settings.** A resolution or an efficiency that is not positive is refused. -/
theorem walls_rejected (size : ℝ) (lw : ℝ × ℝ) (h span res eff det : ℝ) (hre : res ≤ 0 ∨ eff ≤ 0) : smallWalls size lw h span res eff det = .error .valueError := by
  have : ∀ pos z, wallDetector pos lw span res eff det z = .error .valueError := by
    intro pos z
    unfold wallDetector
    have : mapE (wallPanel lw span res eff det z) (List.range 4) = .error .valueError := by
      rw [List.range_succ_eq_map]
      simp only [mapE, wallPanel_error hre]
    rw [this]
  unfold smallWalls
  simp only [this, bind, Except.bind]

/-- the height of a stack is the sum of the sizes -/
theorem stacked_sum : ∀ (ls : List AnyLayer) (t : ℝ), Stacked t ls → t = (ls.map AnyLayer.size).sum
  | [], t, h => h
  | l :: ls, t, h => by
    have := stacked_sum ls _ h.2.2
    rw [List.map_cons, List.sum_cons]
    linarith

/-- **C90 (violated): sizes that do not divide the height.** The volume is built all the same, and its layers overlap. -/
theorem uneven_violated (size : ℝ) (hs : 0 < size) (lw : ℝ × ℝ) (h span res eff det : ℝ) (hr : 0 < res) (he : 0 < eff) (hh : ¬ ∃ n : Nat, h = n * size) :
    ∃ ls, smallWalls size lw h span res eff det = .ok ls ∧ ¬ Stacked (h + 2 * det) ls := by
  refine ⟨_, smallWalls_eq hr he _ lw _ span det, ?_⟩
  intro hst
  have := stacked_sum _ _ hst
  simp only [List.cons_append, List.map_cons, List.map_append, List.map_map, List.sum_cons, List.sum_append, List.map_nil, List.sum_nil] at this
  have e : (List.map (AnyLayer.size ∘ fun (k : Nat) => passive lw size (round2 (h - ↑k * size) + det)) (List.range ⌈(h - 0) / size⌉.toNat)).sum = ⌈(h - 0) / size⌉.toNat * size := by
    have : (AnyLayer.size ∘ fun (k : Nat) => passive lw size (round2 (h - ↑k * size) + det)) = fun _ => size := by funext k; rfl
    rw [this]
    simp
  rw [e] at this
  simp only [AnyLayer.size, detector] at this
  exact hh ⟨⌈(h - 0) / size⌉.toNat, by linarith⟩

/-- **C90 (violated): thirds.** Heights are rounded to centimetres: three layers of a third of a metre leave a gap. -/
theorem rounded_violated (lw : ℝ × ℝ) (span res eff det : ℝ) (hr : 0 < res) (he : 0 < eff) :
    ∃ ls, smallWalls (1 / 3) lw 1 span res eff det = .ok ls ∧ ¬ Stacked (1 + 2 * det) ls := by
  refine ⟨_, smallWalls_eq hr he _ lw _ span det, ?_⟩
  have hn : ⌈((1 : ℝ) - 0) / (1 / 3)⌉.toNat = 3 := by
    have : ((1 : ℝ) - 0) / (1 / 3) = ((3 : ℤ) : ℝ) := by norm_num
    rw [this, Int.ceil_intCast]
    rfl
  rw [hn, show List.range 3 = [0, 1, 2] from rfl]
  rintro ⟨-, -, -, -, h, -⟩
  have hr2 : pyRound (100 * ((1 : ℝ) - ((1 : ℕ) : ℝ) * (1 / 3))) = 67 := by
    have hf : ⌊(100 * ((1 : ℝ) - ((1 : ℕ) : ℝ) * (1 / 3)))⌋ = 66 := by rw [Int.floor_eq_iff]; norm_num
    unfold pyRound
    simp only [hf]
    norm_num
  simp only [AnyLayer.z, AnyLayer.size, passive, detector, round2, hr2] at h
  norm_num at h
  linarith

/-! ### Furnace -/

theorem furnace_eq (xy : ℝ × ℝ) (za zb : Fin 4 → ℝ) (res eff span : ℝ) (hr : 0 < res) (he : 0 < eff) :
    let mk := fun s e z => AnyPanel.panel ⟨.sigmoid s, res, e, 1, (xy.1, xy.2), z, (span, span), 1, true, true⟩
    furnace xy za zb res eff span = .ok (.detector ⟨"above", (1, 1), 1.8, 0.4, [mk 1 eff (za 0), mk 0.1 eff (za 1), mk 1 eff (za 2), mk 1 eff (za 3)]⟩ ::
      (List.range 10).map (fun (k : Nat) => passive (1, 1) 0.1 (round2 ((1.8 - 0.4) - k * 0.1))) ++
      [.detector ⟨"below", (1, 1), 0.4, 0.4, [mk 1 eff (zb 0), mk 1 1 (zb 1), mk 1 eff (zb 2), mk 1 eff (zb 3)]⟩]) := by
  intro mk
  have hp : ∀ s e z, 0 < s → 0 < e → furnacePanel xy res span ⟨s, e, z⟩ = .ok (mk s e z) := by
    intro s e z hs he'
    unfold furnacePanel
    rw [make_sigmoid hs hr he']
  have h1 : (0 : ℝ) < 1 := one_pos
  have h01 : (0 : ℝ) < 0.1 := by norm_num
  have hn : ⌈((1.8 : ℝ) - 0.4 - 0.4) / 0.1⌉.toNat = 10 := by
    have : ((1.8 : ℝ) - 0.4 - 0.4) / 0.1 = ((10 : ℤ) : ℝ) := by norm_num
    rw [this, Int.ceil_intCast]
    rfl
  unfold furnace
  simp only [mapE, hp _ _ _ h1 he, hp _ _ _ h01 he, hp _ _ _ h1 h1, bind, Except.bind, arangeDown, hn, List.map_map]
  rfl

/-- **C90, furnace.** Wherever the panels are, the layers of the furnace are stacked without gap down to the ground: ten passive layers between two detectors. -/
theorem furnace_stacked (xy : ℝ × ℝ) (za zb : Fin 4 → ℝ) (res eff span : ℝ) (hr : 0 < res) (he : 0 < eff) :
    ∃ ls, furnace xy za zb res eff span = .ok ls ∧ Stacked 1.8 ls ∧ ls.length = 12 := by
  refine ⟨_, furnace_eq xy za zb res eff span hr he, ?_, by simp⟩
  rw [List.cons_append]
  refine ⟨rfl, by norm_num [AnyLayer.size], ?_⟩
  rw [stacked_passives (1, 1) 0.1 (by norm_num)]
  · refine ⟨?_, by norm_num [AnyLayer.size], ?_⟩
    · simp only [AnyLayer.z, AnyLayer.size]; norm_num
    · show _ - _ = (0 : ℝ)
      simp only [AnyLayer.size]; norm_num
  · intro k _
    have : (1.8 - 0.4 - (k : ℝ) * 0.1) = (((140 - 10 * k : ℤ)) : ℝ) / 100 := by push_cast; ring
    rw [this, round2_cent]
    simp only [AnyLayer.size]
    push_cast
    ring

theorem furnace_inside {xy : ℝ × ℝ} {za zb : Fin 4 → ℝ} {res eff span : ℝ} (hr : 0 < res) (he : 0 < eff) (ha : ∀ i, 1.4 ≤ za i ∧ za i ≤ 1.8)
    (hb : ∀ i, 0 ≤ zb i ∧ zb i ≤ 0.4) {ls : List AnyLayer} (h : furnace xy za zb res eff span = .ok ls) : PanelsInside ls := by
  rw [furnace_eq xy za zb res eff span hr he] at h
  simp only [Except.ok.injEq] at h
  subst h
  intro D hD p hp
  rcases mem_smallWalls hD with rfl | rfl
  · simp only [List.mem_cons, List.not_mem_nil, or_false] at hp
    rcases hp with rfl | rfl | rfl | rfl
    all_goals simp only [AnyPanel.z]
    · have := ha 0; constructor <;> linarith [this.1, this.2]
    · have := ha 1; constructor <;> linarith [this.1, this.2]
    · have := ha 2; constructor <;> linarith [this.1, this.2]
    · have := ha 3; constructor <;> linarith [this.1, this.2]
  · simp only [List.mem_cons, List.not_mem_nil, or_false] at hp
    rcases hp with rfl | rfl | rfl | rfl
    all_goals simp only [AnyPanel.z]
    · have := hb 0; constructor <;> linarith [this.1, this.2]
    · have := hb 1; constructor <;> linarith [this.1, this.2]
    · have := hb 2; constructor <;> linarith [this.1, this.2]
    · have := hb 3; constructor <;> linarith [this.1, this.2]

/-- **C90, furnace detectors.** All three have their panels inside their layers. -/
theorem detectors_inside (res eff span : ℝ) (hr : 0 < res) (he : 0 < eff) :
    (∃ ls, initialDetector res eff span = .ok ls ∧ Stacked 1.8 ls ∧ PanelsInside ls) ∧ (∃ ls, baselineDetector1 res eff span = .ok ls ∧ Stacked 1.8 ls ∧ PanelsInside ls) ∧
      ∃ ls, baselineDetector2 res eff span = .ok ls ∧ Stacked 1.8 ls ∧ PanelsInside ls := by
  have key : ∀ xy za zb, (∀ i, 1.4 ≤ za i ∧ za i ≤ (1.8 : ℝ)) → (∀ i, 0 ≤ zb i ∧ zb i ≤ (0.4 : ℝ)) → ∃ ls, furnace xy za zb res eff span = .ok ls ∧ Stacked 1.8 ls ∧ PanelsInside ls := by
    intro xy za zb ha hb
    obtain ⟨ls, h, h2, -⟩ := furnace_stacked xy za zb res eff span hr he
    exact ⟨ls, h, h2, furnace_inside hr he ha hb h⟩
  refine ⟨key _ _ _ ?_ ?_, key _ _ _ ?_ ?_, key _ _ _ ?_ ?_⟩ <;> (intro i; fin_cases i <;> norm_num)

/-- **C90 (violated): furnace efficiency.** In every furnace detector one panel is fully efficient whatever efficiency was asked for. -/
theorem efficiency_violated (xy : ℝ × ℝ) (za zb : Fin 4 → ℝ) (res eff span : ℝ) (hr : 0 < res) (he : 0 < eff) (h1 : eff ≠ 1) :
    ∃ ls, furnace xy za zb res eff span = .ok ls ∧ ¬ PanelsAre res eff ls := by
  refine ⟨_, furnace_eq xy za zb res eff span hr he, ?_⟩
  intro h
  obtain ⟨q, e, -, hq⟩ := h ⟨"below", (1, 1), 0.4, 0.4, _⟩ (by simp only [List.cons_append, List.mem_cons, List.mem_append, List.not_mem_nil, or_false]; exact Or.inr (Or.inr rfl))
    (.panel ⟨.sigmoid 1, res, 1, 1, (xy.1, xy.2), zb 1, (span, span), 1, true, true⟩) (by simp)
  simp only [AnyPanel.panel.injEq] at e
  rw [← e] at hq
  exact h1 hq.symm

/-! ### Examples -/

/-- the default volume of small walls -/
example : ∃ ls, smallWalls 1 (10, 10) 10 4 10000 1 1 = .ok ls ∧ Stacked 12 ls ∧ ls.length = 12 := by
  obtain ⟨ls, h1, h2, h3, -⟩ := walls_partial 100 10 (by norm_num) (10, 10) 4 10000 1 1 one_pos (by norm_num) one_pos
  norm_num at h1 h2
  exact ⟨ls, h1, h2, h3⟩

/-- voxels of 30 cm in a metre -/
example : ∃ ls, smallWalls 0.3 (3, 3) 1 4 10000 1 1 = .ok ls ∧ ¬ Stacked (1 + 2 * 1) ls :=
  uneven_violated 0.3 (by norm_num) (3, 3) 1 4 10000 1 1 (by norm_num) one_pos (by
    rintro ⟨n, hn⟩
    have : (n : ℝ) * 3 = 10 := by linarith
    have : n * 3 = 10 := by exact_mod_cast this
    omega)

end C90

end

end Tomopt
