import Verif.Props.C113
import Verif.Props.C60

/- C116: classes of fill levels, with floating-point rounding. -/
namespace Tomopt

noncomputable section
open Floats Ladle

namespace C116

/-- **C116: classes.** The class of a fill level whose distance to the boundaries of its layer is at least `3 * (c + 2) / 2^p` of the layers' size is the position of this layer, although the size and the height
above the bottom are rounded. -/
theorem classes_partial (p : Nat) (hp : 2 ≤ p) (fl : ℝ → ℝ) (hf : Nearest p fl) (z0 s t : ℝ) (hs : 0 < s) (c : ℤ) (hc : -1 ≤ c) (h1 : z0 + (c + 1 + 3 * (c + 2) / 2 ^ p) * s ≤ t)
    (h2 : t ≤ z0 + (c + 2 - 3 * (c + 2) / 2 ^ p) * s) : targ2intFl fl z0 (fl s) t = c := by
  have hc' : (-1 : ℝ) ≤ c := by exact_mod_cast hc
  have hr := nearest_rel p p (by omega) (le_refl _) fl hf s
  have hd := nearest_rel p p (by omega) (le_refl _) fl hf (t - z0)
  set ε : ℝ := 1 / 2 ^ p with hε
  have e0 : 0 < ε := by positivity
  have e4 : ε ≤ 1 / 4 := by
    rw [hε]
    refine one_div_le_one_div_of_le (by norm_num) ?_
    calc (4 : ℝ) = 2 ^ 2 := by norm_num
      _ ≤ 2 ^ p := pow_le_pow_right₀ (by norm_num) hp
  have ee : 3 * ((c : ℝ) + 2) / 2 ^ p = 3 * (c + 2) * ε := by rw [hε]; ring
  rw [ee] at h1 h2
  set k : ℝ := (c : ℝ) + 1 with hk
  have hk0 : 0 ≤ k := by linarith
  have g1 : (k + 3 * (k + 1) * ε) * s ≤ t - z0 := by
    have : (c : ℝ) + 2 = k + 1 := by rw [hk]; ring
    rw [this] at h1
    linarith
  have g2 : t - z0 ≤ (k + 1 - 3 * (k + 1) * ε) * s := by
    have : (c : ℝ) + 2 = k + 1 := by rw [hk]; ring
    rw [this] at h2
    linarith
  have hn : 0 ≤ t - z0 := le_trans (by positivity) g1
  rw [abs_of_pos hs, abs_le] at hr
  rw [abs_of_nonneg hn, abs_le] at hd
  have t0 : 0 < fl s := by
    have := mul_le_mul_of_nonneg_right e4 hs.le
    linarith [hr.1]
  have hfl : ⌊fl (t - z0) / fl s⌋ = c + 1 := by
    rw [Int.floor_eq_iff]
    push_cast
    rw [← hk, le_div_iff₀ t0, div_lt_iff₀ t0]
    constructor
    · have a1 : k * fl s ≤ k * (s * (1 + ε)) := mul_le_mul_of_nonneg_left (by linarith [hr.2]) hk0
      have a2 : (k + 3 * (k + 1) * ε) * s * (1 - ε) ≤ (t - z0) * (1 - ε) := mul_le_mul_of_nonneg_right g1 (by linarith)
      have a3 : k * (1 + ε) ≤ (k + 3 * (k + 1) * ε) * (1 - ε) := by
        have b1 : (k + 1) * ε * ε ≤ (k + 1) * ε * (1 / 4) := mul_le_mul_of_nonneg_left e4 (by positivity)
        have b2 : 0 ≤ k * ε := by positivity
        linarith
      have a4 := mul_le_mul_of_nonneg_right a3 hs.le
      linarith [hd.1]
    · have a1 : (k + 1) * (s * (1 - ε)) ≤ (k + 1) * fl s := mul_le_mul_of_nonneg_left (by linarith [hr.1]) (by linarith)
      have a2 : (t - z0) * (1 + ε) ≤ (k + 1 - 3 * (k + 1) * ε) * s * (1 + ε) := mul_le_mul_of_nonneg_right g2 (by linarith)
      have a3 : (k + 1 - 3 * (k + 1) * ε) * (1 + ε) < (k + 1) * (1 - ε) := by
        have b1 : 0 < (k + 1) * ε * ε := by positivity
        have b2 : 0 < (k + 1) * ε := by positivity
        linarith
      have a4 := mul_lt_mul_of_pos_right a3 hs
      linarith [hd.2]
  unfold targ2intFl
  rw [hfl]
  ring

/-- **C116: exact sizes.** If the height of the layer above the bottom and its height are floating-point numbers — as for sizes and bottoms that are binary fractions — a class is converted to a height and back
without a change. -/
theorem round_trip_partial (p : Nat) (fl : ℝ → ℝ) (hf : Nearest p fl) (z0 s : ℝ) (hs : 0 < s) (c : ℤ) (h1 : IsFloat p ((c + 1) * s)) (h2 : IsFloat p ((c + 1) * s + z0)) :
    targ2intFl fl z0 s (class2floatFl fl z0 s c) = c := by
  unfold targ2intFl class2floatFl
  rw [nearest_self p fl hf _ h1, nearest_self p fl hf _ h2, add_sub_cancel_right, nearest_self p fl hf _ h1, mul_div_assoc, div_self hs.ne', mul_one]
  have : ((c : ℝ) + 1) = ((c + 1 : ℤ) : ℝ) := by push_cast; ring
  rw [this, Int.floor_intCast]
  ring

/-- **C116: levels at a boundary.** Single precision, layers of 0.1 m from height zero: class 4 is the height of 0.5 m, the class of which is 3. In a furnace that was filled up to this height the layer that ends
there, which is number 4, is filled. -/
theorem round_trip_violated (fl : ℝ → ℝ) (hf : Nearest 24 fl) :
    class2floatFl fl 0 (fl 0.1) 4 = 0.5 ∧ targ2intFl fl 0 (fl 0.1) 0.5 = 3 ∧
      ∀ (g : Gen) (slagZ : ℝ), g.z0 = 0 → g.s = fl 0.1 → g.layerFl fl 0.5 slagZ (fl (5 * 0.1)) = g.fill := by
  have hs : fl 0.1 = 13421773 * (2 : ℝ) ^ (-27 : ℤ) := by
    have := nearest_eq 24 (by norm_num) fl hf (-4) 13421773 0.1 (by norm_num) (by norm_num) (by norm_num)
    simpa using this
  have hh : fl 0.5 = 0.5 := nearest_self 24 fl hf _ ⟨1, -1, by norm_num, by norm_num⟩
  have h5 : fl (5 * (13421773 * (2 : ℝ) ^ (-27 : ℤ))) = 0.5 := by
    have := nearest_eq 24 (by norm_num) fl hf (-1) 8388608 (5 * (13421773 * (2 : ℝ) ^ (-27 : ℤ))) (by norm_num) (by norm_num) (by norm_num)
    rw [this]
    norm_num
  refine ⟨?_, ?_, fun g slagZ h0 h1 => ?_⟩
  · unfold class2floatFl
    rw [hs]
    norm_num at h5 hh ⊢
    rw [h5, hh]
  · unfold targ2intFl
    rw [sub_zero, hh, hs]
    have : ⌊(0.5 : ℝ) / (13421773 * (2 : ℝ) ^ (-27 : ℤ))⌋ = 4 := by
      rw [Int.floor_eq_iff]
      norm_num
    rw [this]
    norm_num
  · unfold Gen.layerFl
    have e : (5 * 0.1 : ℝ) = 0.5 := by norm_num
    rw [e, hh, h0, h1, zero_add, nearest_self 24 fl hf _ (hf 0.1).1, hs]
    rw [if_neg (by norm_num), if_pos (le_refl _)]

/-- **C116: drawn levels.** Eight layers of an eighth of a metre from 3 m, and the largest number below one that the random generator returns in single precision: the drawn fill level is the top of the furnace,
and its class is 7, although the seven layers above the bottom of the furnace have the classes 0 to 6. -/
theorem drawn_violated (fl : ℝ → ℝ) (hf : Nearest 24 fl) (g : Gen) (h0 : g.z0 = 3) (h1 : g.z1 = 4) (hs : g.s = 1 / 8) :
    g.matZFl fl (1 - 1 / 2 ^ 24) = 4 ∧ targ2intFl fl g.z0 g.s (g.matZFl fl (1 - 1 / 2 ^ 24)) = 7 := by
  have a : fl (3 + 1 / 8) = 3 + 1 / 8 := nearest_self 24 fl hf _ ⟨25, -3, by norm_num, by norm_num⟩
  have b : fl (1 / 8 + (3 + 1 / 8)) = 13 / 4 := by
    rw [nearest_self 24 fl hf _ ⟨13, -2, by norm_num, by norm_num⟩]
    norm_num
  have c : fl (3 + 1 / 8 + 1 / 8) = 13 / 4 := by
    rw [nearest_self 24 fl hf _ ⟨13, -2, by norm_num, by norm_num⟩]
    norm_num
  have d : fl (4 - 13 / 4) = 3 / 4 := by
    rw [nearest_self 24 fl hf _ ⟨3, -2, by norm_num, by norm_num⟩]
    norm_num
  have e : fl (3 / 4 * (1 - 1 / 2 ^ 24)) = 3 / 4 - 1 / 2 ^ 24 := by
    have := nearest_eq 24 (by norm_num) fl hf (-1) 12582911 (3 / 4 * (1 - 1 / 2 ^ 24)) (by norm_num) (by norm_num) (by norm_num)
    rw [this]
    norm_num
  have f : fl (13 / 4 + (3 / 4 - 1 / 2 ^ 24)) = 4 := by
    have := nearest_eq 24 (by norm_num) fl hf 1 16777216 (13 / 4 + (3 / 4 - 1 / 2 ^ 24)) (by norm_num) (by norm_num) (by norm_num)
    rw [this]
    norm_num
  have hm : g.matZFl fl (1 - 1 / 2 ^ 24) = 4 := by
    unfold Gen.matZFl
    rw [h0, h1, hs, a, b, c, d, e, f]
  refine ⟨hm, ?_⟩
  unfold targ2intFl
  have h : fl (4 - 3) = 1 := by
    rw [nearest_self 24 fl hf _ ⟨1, 0, by norm_num, by norm_num⟩]
    norm_num
  rw [hm, h0, hs, h]
  have : ⌊(1 : ℝ) / (1 / 8)⌋ = 8 := by
    rw [Int.floor_eq_iff]
    norm_num
  rw [this]
  norm_num

/-- A level in the middle of layer 4 in single precision, and sizes that are binary fractions. -/
example : ∃ fl, Nearest 24 fl ∧ (0 : ℝ) + ((4 : ℤ) + 1 + 3 * ((4 : ℤ) + 2) / 2 ^ 24) * 0.1 ≤ 0.55 ∧ (0.55 : ℝ) ≤ 0 + ((4 : ℤ) + 2 - 3 * ((4 : ℤ) + 2) / 2 ^ 24) * 0.1 ∧ IsFloat 24 (((4 : ℤ) + 1) * (1 / 8) : ℝ) ∧
    IsFloat 24 (((4 : ℤ) + 1) * (1 / 8) + 3 : ℝ) := by
  obtain ⟨fl, hf⟩ := rounding_exists 24 (by norm_num)
  exact ⟨fl, hf, by norm_num, by norm_num, ⟨5, -3, by norm_num, by norm_num⟩, ⟨29, -3, by norm_num, by norm_num⟩⟩

/-- The furnaces of the witnesses. -/
example : ∃ fl, Nearest 24 fl ∧ (∃ g : Gen, g.z0 = 0 ∧ g.s = fl 0.1) ∧ ∃ g : Gen, g.z0 = 3 ∧ g.z1 = 4 ∧ g.s = 1 / 8 := by
  obtain ⟨fl, hf⟩ := rounding_exists 24 (by norm_num)
  exact ⟨fl, hf, ⟨⟨(1, 1), 0, 1, fl 0.1, 1, 2, 3, 4⟩, rfl, rfl⟩, ⟨(1, 1), 3, 4, 1 / 8, 1, 2, 3, 4⟩, rfl, rfl, rfl⟩

end C116

end

end Tomopt
