import Verif.Props.C112

/- C113: numbers of voxels, with floating-point rounding. -/
namespace Tomopt

noncomputable section
open Floats

namespace C113

/-- the error of rounding to at least `p` digits, relative to a positive number -/
theorem rel (p p' : Nat) (hp : 1 ≤ p) (h : p ≤ p') (fl : ℝ → ℝ) (hf : Nearest p' fl) (x : ℝ) (hx : 0 < x) : x * (1 - 1 / 2 ^ p) ≤ fl x ∧ fl x ≤ x * (1 + 1 / 2 ^ p) := by
  have h1 := nearest_error p' (le_trans hp h) fl hf x hx
  have h2 : (2 : ℝ) ^ p ≤ 2 ^ p' := pow_le_pow_right₀ (by norm_num) h
  have h3 : |x - fl x| ≤ x * (1 / 2 ^ p) := by
    rw [mul_one_div, le_div_iff₀ (by positivity)]
    have := mul_le_mul_of_nonneg_right h2 (abs_nonneg (x - fl x))
    linarith
  rw [abs_le] at h3
  constructor <;> linarith [h3.1, h3.2]

variable (p pw ps pq : Nat) (hw : p ≤ pw) (hs : p ≤ ps) (hq : p ≤ pq) (flw fls fl : ℝ → ℝ) (fw : Nearest pw flw) (fs : Nearest ps fls) (fq : Nearest pq fl) (d : ℝ) (hd : 0 < d) (n : Nat) (hn : 1 ≤ n) (hb : 8 * n ≤ 2 ^ p)

include hw hs hq fw fs fq hd hn hb

theorem quotient : 0 < fls d ∧ (n : ℝ) - 1 / 2 < fl (flw (n * d) / fls d) ∧ fl (flw (n * d) / fls d) < n + 1 / 2 := by
  have hn' : (1 : ℝ) ≤ n := by exact_mod_cast hn
  have hp : 1 ≤ p := by
    by_contra h
    have : p = 0 := by omega
    rw [this] at hb
    omega
  have hb' : (8 : ℝ) * n ≤ 2 ^ p := by exact_mod_cast hb
  set ε : ℝ := 1 / 2 ^ p with hε
  have e0 : 0 < ε := by positivity
  have en : n * ε ≤ 1 / 8 := by
    rw [hε, mul_one_div, div_le_iff₀ (by positivity)]
    linarith
  have e8 : ε ≤ 1 / 8 := by nlinarith
  obtain ⟨w1, w2⟩ := rel p pw hp hw flw fw (n * d) (by positivity)
  obtain ⟨s1, s2⟩ := rel p ps hp hs fls fs d hd
  rw [← hε] at w1 w2 s1 s2
  have hs0 : 0 < fls d := lt_of_lt_of_le (by nlinarith) s1
  have hw0 : 0 < flw (n * d) := lt_of_lt_of_le (mul_pos (by positivity) (by linarith)) w1
  have hq0 : 0 < flw (n * d) / fls d := by positivity
  obtain ⟨q1, q2⟩ := rel p pq hp hq fl fq _ hq0
  rw [← hε] at q1 q2
  set q := flw (n * d) / fls d with hqd
  have hqs : q * fls d = flw (n * d) := by rw [hqd]; field_simp
  have a1 : q * (1 - ε) ≤ n * (1 + ε) := by
    have : q * (d * (1 - ε)) ≤ q * fls d := mul_le_mul_of_nonneg_left s1 hq0.le
    have : d * (q * (1 - ε)) ≤ d * (n * (1 + ε)) := by linarith
    exact le_of_mul_le_mul_left this hd
  have a2 : n * (1 - ε) ≤ q * (1 + ε) := by
    have : q * fls d ≤ q * (d * (1 + ε)) := mul_le_mul_of_nonneg_left s2 hq0.le
    have : d * (n * (1 - ε)) ≤ d * (q * (1 + ε)) := by linarith
    exact le_of_mul_le_mul_left this hd
  have b1 : fl q * (1 - ε) ≤ n * (1 + ε) * (1 + ε) := by
    calc fl q * (1 - ε) ≤ q * (1 + ε) * (1 - ε) := mul_le_mul_of_nonneg_right q2 (by linarith)
      _ = q * (1 - ε) * (1 + ε) := by ring
      _ ≤ n * (1 + ε) * (1 + ε) := mul_le_mul_of_nonneg_right a1 (by linarith)
  have b2 : n * (1 - ε) * (1 - ε) ≤ fl q * (1 + ε) := by
    calc n * (1 - ε) * (1 - ε) ≤ q * (1 + ε) * (1 - ε) := mul_le_mul_of_nonneg_right a2 (by linarith)
      _ = q * (1 - ε) * (1 + ε) := by ring
      _ ≤ fl q * (1 + ε) := mul_le_mul_of_nonneg_right q1 (by linarith)
  have hne : n * ε * ε ≤ 1 / 8 * (1 / 8) := mul_le_mul en e8 e0.le (by norm_num)
  refine ⟨hs0, ?_, ?_⟩
  · by_contra h
    push Not at h
    have := mul_le_mul_of_nonneg_right h (show 0 ≤ 1 + ε by linarith)
    have : 0 ≤ n * ε * ε := by positivity
    nlinarith
  · by_contra h
    push Not at h
    have := mul_le_mul_of_nonneg_right h (show 0 ≤ 1 - ε by linarith)
    nlinarith

/-- **C113: the grid.** A side of `n` voxels of size `d`, as a length and a size that were rounded on their own to at least `p` digits, and a quotient that is rounded again: the number of voxels of the volume's
grid and of predictions is `n`, for all `n` up to an eighth of `2^p`. -/
theorem grid : gridCount fl (flw (n * d)) (fls d) = n := by
  obtain ⟨-, h1, h2⟩ := quotient p pw ps pq hw hs hq flw fls fl fw fs fq d hd n hn hb
  unfold gridCount pyRound
  rcases le_or_gt (n : ℝ) (fl (flw (n * d) / fls d)) with h | h
  · have hf : ⌊fl (flw (n * d) / fls d)⌋ = n := by
      rw [Int.floor_eq_iff]
      push_cast
      exact ⟨h, by linarith⟩
    simp only [hf]
    rw [if_pos (by push_cast; linarith)]
  · have hf : ⌊fl (flw (n * d) / fls d)⌋ = n - 1 := by
      rw [Int.floor_eq_iff]
      push_cast
      exact ⟨by linarith, by linarith⟩
    simp only [hf]
    rw [if_neg (by push_cast; linarith), if_pos (by push_cast; linarith)]
    ring

/-- **C113: layouts.** The number of voxels of a generated layout is `n` or `n - 1`. It is `n` if the rounded length is not shorter than `n` times the rounded size. -/
theorem filled_partial : (filledCount fl (flw (n * d)) (fls d) = n ∨ filledCount fl (flw (n * d)) (fls d) = n - 1) ∧
    (n * fls d ≤ flw (n * d) → filledCount fl (flw (n * d)) (fls d) = n) := by
  obtain ⟨h0, h1, h2⟩ := quotient p pw ps pq hw hs hq flw fls fl fw fs fq d hd n hn hb
  unfold filledCount
  constructor
  · rcases le_or_gt (n : ℝ) (fl (flw (n * d) / fls d)) with h | h
    · left
      rw [Int.floor_eq_iff]
      push_cast
      exact ⟨h, by linarith⟩
    · right
      rw [Int.floor_eq_iff]
      push_cast
      exact ⟨by linarith, by linarith⟩
  · intro hle
    rw [Int.floor_eq_iff]
    push_cast
    refine ⟨?_, by linarith⟩
    have hnb : |(n : ℤ)| ≤ 2 ^ pq := by
      rw [abs_of_nonneg (by omega)]
      have : 2 ^ p ≤ 2 ^ pq := Nat.pow_le_pow_right (by norm_num) hq
      have : n ≤ 2 ^ pq := by omega
      exact_mod_cast this
    have := nearest_ge pq fl fq (flw (n * d) / fls d) ((n : ℤ) : ℝ) (isFloat_int pq n hnb) (by rw [le_div_iff₀ h0]; exact_mod_cast hle)
    exact_mod_cast this

omit hw hs hq flw fls fw fs fq hd hb in
/-- **C113: exact sizes.** If the rounded length is exactly `n` times the rounded size — as for lengths and sizes that are binary fractions — grid, layouts and look-up agree: `n` voxels each, and every position
before the end is in one of them. -/
theorem exact_sizes (hp : 1 ≤ p) (fq : Nearest p fl) (hb : 8 * n ≤ 2 ^ p) (L : PassiveLayer) (w : ℝ) (hs : 0 < L.size) (hw : IsFloat p w) (he : w = n * L.size) :
    gridCount fl w L.size = n ∧ filledCount fl w L.size = n ∧ ∀ x, IsFloat p x → 0 ≤ x → x < w → 0 ≤ L.abs2idxFl fl x ∧ L.abs2idxFl fl x < n := by
  have hnb : n < 2 ^ p := by omega
  have hnf : IsFloat p ((n : ℤ) : ℝ) := isFloat_int p n (by
    rw [abs_of_nonneg (by omega)]
    exact_mod_cast hnb.le)
  have hfl : fl (w / L.size) = n := by
    have e : w / L.size = ((n : ℤ) : ℝ) := by rw [he]; push_cast; field_simp
    rw [e]
    have := le_antisymm (nearest_le p fl fq _ _ hnf (le_refl _)) (nearest_ge p fl fq _ _ hnf (le_refl _))
    rw [this]
    norm_cast
  refine ⟨?_, ?_, fun x hx h0 hlt => C112.inside p hp fl fq L hs n hnb x w hx hw h0 hlt he.le⟩
  · unfold gridCount pyRound
    simp [hfl]
  · unfold filledCount
    simp [hfl]

omit hw hs hq flw fls fl fw fs fq hd hn hb p pw ps pq d n in
/-- **C113: where layouts fall short.** Single precision, as in the code: a volume of 1.3 m by 1.3 m with voxels of 0.1 m. Its grid has 13 by 13 voxels, layouts have 12 by 12, and a muon anywhere over the last
0.09 m of the footprint in x makes the look-up in such a layout raise an `IndexError`. -/
theorem filled_violated (fl : ℝ → ℝ) (hf : Nearest 24 fl) (cube : List (List ℝ)) :
    let L : PassiveLayer := ⟨(fl 1.3, fl 1.3), 1, fl 0.1, 0.01, "pdg", some cube⟩
    gridCount fl L.lw.1 L.size = 13 ∧ filledCount fl L.lw.1 L.size = 12 ∧
      (cube.length = 12 → ∀ m : Muon, 1.21 ≤ m.x → Over L m → L.lookupX0Fl fl cube m = .error .indexError) := by
  intro L
  have hs : fl 0.1 = 13421773 * (2 : ℝ) ^ (-27 : ℤ) := by
    have := nearest_eq 24 (by norm_num) fl hf (-4) 13421773 0.1 (by norm_num) (by norm_num) (by norm_num)
    simpa using this
  have hw : fl 1.3 = 10905190 * (2 : ℝ) ^ (-23 : ℤ) := by
    have := nearest_eq 24 (by norm_num) fl hf 0 10905190 1.3 (by norm_num) (by norm_num) (by norm_num)
    simpa using this
  have hx : fl (fl 1.3 / fl 0.1) = 13631487 * (2 : ℝ) ^ (-20 : ℤ) := by
    rw [hs, hw]
    have := nearest_eq 24 (by norm_num) fl hf 3 13631487 (10905190 * (2 : ℝ) ^ (-23 : ℤ) / (13421773 * (2 : ℝ) ^ (-27 : ℤ))) (by norm_num) (by norm_num) (by norm_num)
    rw [this]
    norm_num
  have hfl : ⌊(13631487 * (2 : ℝ) ^ (-20 : ℤ))⌋ = 12 := by
    rw [Int.floor_eq_iff]
    norm_num
  refine ⟨?_, ?_, fun hc m h1 hm => ?_⟩
  · unfold gridCount pyRound
    simp only [L, hx, hfl]
    norm_num
  · unfold filledCount
    simp only [L, hx, hfl]
  · have hidx : 12 ≤ L.abs2idxFl fl m.x := by
      unfold PassiveLayer.abs2idxFl
      rw [Int.le_floor]
      refine nearest_ge 24 fl hf _ _ (isFloat_int 24 12 (by norm_num)) ?_
      show _ ≤ m.x / fl 0.1
      rw [hs, le_div_iff₀ (by positivity)]
      refine le_trans ?_ h1
      norm_num
    unfold PassiveLayer.lookupX0Fl
    have hn : ¬ L.abs2idxFl fl m.x < 0 := by omega
    have hget : getIdx cube (L.abs2idxFl fl m.x) = .error .indexError := by
      unfold getIdx
      simp only [hn, if_false]
      rw [List.getElem?_eq_none (by omega)]
    rw [hget]

/-- Single precision throughout, thirteen voxels of 0.1 m; and eight voxels of an eighth of a metre, which are exact. -/
example : (∃ fl, Nearest 24 fl ∧ (0 : ℝ) < 0.1 ∧ 8 * 13 ≤ 2 ^ 24) ∧ ∃ L : PassiveLayer, 0 < L.size ∧ IsFloat 24 (1 : ℝ) ∧ (1 : ℝ) = (8 : ℕ) * L.size := by
  obtain ⟨fl, hf⟩ := rounding_exists 24 (by norm_num)
  refine ⟨⟨fl, hf, by norm_num, by norm_num⟩, ⟨(1, 1), 1, 1 / 8, 0.01, "pdg", none⟩, by norm_num, ?_, by norm_num⟩
  have := isFloat_int 24 1 (by norm_num)
  simpa using this

/-- A muon over the strip of `filled_violated`. -/
example : ∃ fl, Nearest 24 fl ∧ ∃ m : Muon, 1.21 ≤ m.x ∧ Over ⟨(fl 1.3, fl 1.3), 1, fl 0.1, 0.01, "pdg", none⟩ m := by
  obtain ⟨fl, hf⟩ := rounding_exists 24 (by norm_num)
  have hw : fl 1.3 = 10905190 * (2 : ℝ) ^ (-23 : ℤ) := by
    have := nearest_eq 24 (by norm_num) fl hf 0 10905190 1.3 (by norm_num) (by norm_num) (by norm_num)
    simpa using this
  refine ⟨fl, hf, { x := 1.25, y := 1, z := 1, p := 1, th := 0, ph := 0, id := 0 }, by norm_num, by norm_num, ?_, by norm_num, ?_⟩ <;> show _ < fl 1.3 <;> rw [hw] <;> norm_num

end C113

end

end Tomopt
