import Verif.Props.C112
import Mathlib.Analysis.Real.Pi.Bounds

/- C114: heights of muons in a passive layer, with floating-point rounding. -/
namespace Tomopt

noncomputable section
open Floats Real

namespace C114

/-- **C114: arrival.** A muon whose height is within a factor of two of the face it is moved to, or which is moved to height zero, is afterwards exactly at that height: no layer is entered above its top, none is
left above its bottom. -/
theorem arrives (p : Nat) (fl : ℝ → ℝ) (hf : Nearest p fl) (z t : ℝ) (hz : IsFloat p z) (ht : IsFloat p t) (h : t = 0 ∨ z ≤ 2 * t ∧ t ≤ 2 * z) : moveToFl fl z t = t := by
  unfold moveToFl
  rcases h with rfl | ⟨h1, h2⟩
  · rw [sub_zero, nearest_self p fl hf z hz, sub_self]
    exact nearest_self p fl hf 0 (isFloat_zero p)
  · rw [nearest_self p fl hf _ (sterbenz p z t hz ht h1 h2), sub_sub_cancel]
    exact nearest_self p fl hf t ht

/-- what one pass takes off the height, as a rounded number -/
def drop (fl : ℝ → ℝ) (L : PassiveLayer) (th : ℝ) : ℝ := fl (L.stepSz * fl (cos th))

variable (p : Nat) (hp : 1 ≤ p) (fl : ℝ → ℝ) (hf : Nearest p fl) (L : PassiveLayer) (th : ℝ)

include hp hf

/-- **C114: the end.** A muon that is not scattered, in a layer above height zero, which takes off at least `2^(1-p)` of the height of the top with every step: the loop ends, after no more than `2 * top / drop + 1`
passes, with the muon at or below the bottom. -/
theorem ends (hz : 0 ≤ L.z) (hb : 0 ≤ fl (L.z - L.size)) (hd : 0 < drop fl L th) (hc : 2 * L.z ≤ 2 ^ p * drop fl L th) (n : Nat) (hn : 2 * L.z ≤ n * drop fl L th) :
    ∃ z, PassiveLayer.sinkFl fl L th (n + 1) L.z = some z ∧ z ≤ fl (L.z - L.size) := by
  have hpp : (0 : ℝ) < 2 ^ p := by positivity
  -- a pass from a height `z` of the layer takes off at least half of the drop, or ends at or below zero
  have one : ∀ z, 0 ≤ z → z ≤ L.z → PassiveLayer.stepFl fl L th z ≤ z - drop fl L th / 2 ∨ PassiveLayer.stepFl fl L th z ≤ 0 := by
    intro z z0 z1
    unfold PassiveLayer.stepFl
    change fl (z - drop fl L th) ≤ _ ∨ fl (z - drop fl L th) ≤ _
    rcases le_or_gt (z - drop fl L th) 0 with h | h
    · exact Or.inr (nearest_le p fl hf _ 0 (isFloat_zero p) h)
    · left
      have he := nearest_error p hp fl hf _ h
      have h1 : |z - drop fl L th - fl (z - drop fl L th)| ≤ drop fl L th / 2 := by
        have : 2 ^ p * |z - drop fl L th - fl (z - drop fl L th)| ≤ 2 ^ p * (drop fl L th / 2) := by linarith
        exact le_of_mul_le_mul_left this hpp
      have := neg_abs_le (z - drop fl L th - fl (z - drop fl L th))
      linarith
  have key : ∀ (n : Nat) (z : ℝ), 0 ≤ z → z ≤ L.z → 2 * z ≤ n * drop fl L th → ∃ z', PassiveLayer.sinkFl fl L th (n + 1) z = some z' ∧ z' ≤ fl (L.z - L.size) := by
    intro n
    induction n with
    | zero =>
      intro z z0 z1 hn
      have hz0 : z = 0 := by
        simp at hn
        linarith
      have hle : PassiveLayer.stepFl fl L th z ≤ 0 := by
        rcases one z z0 z1 with h | h
        · rw [hz0] at h ⊢; linarith
        · exact h
      refine ⟨PassiveLayer.stepFl fl L th z, ?_, le_trans hle hb⟩
      simp only [PassiveLayer.sinkFl]
      rw [if_neg]
      rintro ⟨h, -⟩
      linarith
    | succ n ih =>
      intro z z0 z1 hn
      by_cases hi : PassiveLayer.insideFl fl L (PassiveLayer.stepFl fl L th z)
      · have hpos : 0 < PassiveLayer.stepFl fl L th z := lt_of_le_of_lt hb hi.1
        obtain ⟨z', e, h⟩ := ih (PassiveLayer.stepFl fl L th z) hpos.le hi.2 (by
          rcases one z z0 z1 with h | h
          · push_cast at hn
            linarith
          · linarith)
        refine ⟨z', ?_, h⟩
        rw [PassiveLayer.sinkFl, if_pos hi]
        exact e
      · refine ⟨PassiveLayer.stepFl fl L th z, ?_, ?_⟩
        · rw [PassiveLayer.sinkFl, if_neg hi]
        · by_contra h
          push Not at h
          refine hi ⟨h, ?_⟩
          rcases one z z0 z1 with h' | h'
          · linarith
          · linarith
  exact key n L.z hz (le_refl _) hn

omit hp hf p fl L th in
/-- **C114: where it hangs.** Single precision, as in the code: a layer of a tenth of a metre whose top is at 0.9 m, steps of a centimetre, and any muon that flies downwards, but at less than a millionth of a
radian from the horizontal. The height of the muon does not change and the loop never ends. -/
theorem stuck_violated (fl : ℝ → ℝ) (hf : Nearest 24 fl) (L : PassiveLayer) (hL : L.z = fl 0.9) (hS : L.size = fl 0.1) (hT : L.stepSz = fl 0.01) (th : ℝ) (h1 : π / 2 - 2 ^ (-20 : ℤ) ≤ th) (h2 : th < π / 2) (n : Nat) :
    PassiveLayer.sinkFl fl L th n L.z = none := by
  have hz : fl 0.9 = 15099494 * (2 : ℝ) ^ (-24 : ℤ) := by
    have := nearest_eq 24 (by norm_num) fl hf (-1) 15099494 0.9 (by norm_num) (by norm_num) (by norm_num)
    simpa using this
  have hs : fl 0.1 = 13421773 * (2 : ℝ) ^ (-27 : ℤ) := by
    have := nearest_eq 24 (by norm_num) fl hf (-4) 13421773 0.1 (by norm_num) (by norm_num) (by norm_num)
    simpa using this
  have hst : fl 0.01 = 10737418 * (2 : ℝ) ^ (-30 : ℤ) := by
    have := nearest_eq 24 (by norm_num) fl hf (-7) 10737418 0.01 (by norm_num) (by norm_num) (by norm_num)
    simpa using this
  have hcos : cos th ≤ 2 ^ (-20 : ℤ) ∧ 0 ≤ cos th := by
    rw [← sin_pi_div_two_sub]
    refine ⟨le_trans (sin_le (by linarith)) (by linarith), sin_nonneg_of_nonneg_of_le_pi (by linarith) ?_⟩
    have : (2 : ℝ) ^ (-20 : ℤ) ≤ 1 := by norm_num
    linarith [pi_gt_three]
  have hc : fl (cos th) ≤ 2 ^ (-20 : ℤ) ∧ 0 ≤ fl (cos th) :=
    ⟨nearest_le 24 fl hf _ _ ⟨1, -20, by norm_num, by norm_num⟩ hcos.1, nearest_ge 24 fl hf _ _ (isFloat_zero 24) hcos.2⟩
  have hd : fl (L.stepSz * fl (cos th)) ≤ 10737418 * (2 : ℝ) ^ (-50 : ℤ) ∧ 0 ≤ fl (L.stepSz * fl (cos th)) := by
    rw [hT, hst]
    refine ⟨nearest_le 24 fl hf _ _ ⟨10737418, -50, by norm_num, by norm_num⟩ ?_, nearest_ge 24 fl hf _ _ (isFloat_zero 24) (mul_nonneg (by positivity) hc.2)⟩
    refine le_trans (mul_le_mul_of_nonneg_left hc.1 (by positivity)) (by norm_num)
  have hstep : PassiveLayer.stepFl fl L th L.z = L.z := by
    unfold PassiveLayer.stepFl
    generalize fl (L.stepSz * fl (cos th)) = d at hd
    rw [hL, hz]
    obtain ⟨d1, d0⟩ := hd
    norm_num at d1
    have := nearest_eq 24 (by norm_num) fl hf (-1) 15099494 (15099494 * (2 : ℝ) ^ (-24 : ℤ) - d) (by norm_num; linarith) (by norm_num) (by
      norm_num
      rw [abs_of_nonneg d0]
      linarith)
    rw [this]
    norm_num
  have hin : PassiveLayer.insideFl fl L L.z := by
    refine ⟨?_, le_refl _⟩
    rw [hL, hS]
    have hb : fl (fl 0.9 - fl 0.1) ≤ 13421773 * (2 : ℝ) ^ (-24 : ℤ) := by
      refine nearest_le 24 fl hf _ _ ⟨13421773, -24, by norm_num, by norm_num⟩ ?_
      rw [hz, hs]
      norm_num
    refine lt_of_le_of_lt hb ?_
    rw [hz]
    norm_num
  induction n with
  | zero => rfl
  | succ n ih =>
    rw [PassiveLayer.sinkFl, hstep, if_pos hin]
    exact ih

/-- A vertical muon in a layer of an eighth of a metre below 0.5 m in single precision: the conditions of `ends` hold with steps of 2^-7 m and 128 passes, those of `arrives` for a move from 0.75 m to 0.5 m. -/
example : ∃ fl, Nearest 24 fl ∧ ∃ L : PassiveLayer, L.z = 1 / 2 ∧ 0 ≤ fl (L.z - L.size) ∧ 0 < drop fl L 0 ∧ 2 * L.z ≤ 2 ^ 24 * drop fl L 0 ∧ 2 * L.z ≤ (128 : ℕ) * drop fl L 0 ∧
    IsFloat 24 (1 / 2 : ℝ) ∧ (3 / 4 : ℝ) ≤ 2 * (1 / 2) ∧ (1 / 2 : ℝ) ≤ 2 * (3 / 4) := by
  obtain ⟨fl, hf⟩ := rounding_exists 24 (by norm_num)
  let L : PassiveLayer := ⟨(1, 1), 1 / 2, 1 / 8, 2 ^ (-7 : ℤ), "pdg", none⟩
  have h1 : fl 1 = 1 := by
    have := isFloat_int 24 1 (by norm_num)
    exact nearest_self 24 fl hf 1 (by simpa using this)
  have hd : drop fl L 0 = 2 ^ (-7 : ℤ) := by
    unfold drop
    rw [cos_zero, h1, mul_one]
    exact nearest_self 24 fl hf _ ⟨1, -7, by norm_num, by simp [L]⟩
  refine ⟨fl, hf, L, rfl, ?_, by rw [hd]; norm_num, by rw [hd]; norm_num [L], by rw [hd]; norm_num [L], ⟨1, -1, by norm_num, by norm_num⟩, by norm_num, by norm_num⟩
  exact nearest_ge 24 fl hf _ 0 (isFloat_zero 24) (by norm_num [L])

/-- Such a layer and such an angle exist: the single precision number 13176787 * 2^-23 is one. -/
example : ∃ fl, Nearest 24 fl ∧ ∃ L : PassiveLayer, L.z = fl 0.9 ∧ L.size = fl 0.1 ∧ L.stepSz = fl 0.01 ∧ π / 2 - 2 ^ (-20 : ℤ) ≤ 13176787 * (2 : ℝ) ^ (-23 : ℤ) ∧ 13176787 * (2 : ℝ) ^ (-23 : ℤ) < π / 2 ∧
    IsFloat 24 (13176787 * (2 : ℝ) ^ (-23 : ℤ)) := by
  obtain ⟨fl, hf⟩ := rounding_exists 24 (by norm_num)
  refine ⟨fl, hf, ⟨(1, 1), fl 0.9, fl 0.1, fl 0.01, "pdg", none⟩, rfl, rfl, rfl, ?_, ?_, 13176787, -23, by norm_num, by norm_num⟩
  · have := pi_lt_d20
    norm_num at this ⊢
    linarith
  · have := pi_gt_d20
    norm_num at this ⊢
    linarith

end C114

end

end Tomopt
