import Verif.Lemmas.RoundedProb

/-
Property theorems: C137, the probabilities of voxels in floating point.
-/
namespace Tomopt

noncomputable section

namespace C137

open Real ProbabilityTheory Infer Floats C135

/-- the error function, by the normal distribution -/
def erf (x : ℝ) : ℝ := 2 * normalCdf (√2 * x) - 1

/-- The error function in floating point: a growing function with values of `p` digits between -1 and 1, and an absolute error of at most `δ`. -/
structure ErrorFunction (p : Nat) (δ : ℝ) (erfFl : ℝ → ℝ) : Prop where
  mono : Monotone erfFl
  float : ∀ x, IsFloat p (erfFl x)
  range : ∀ x, -1 ≤ erfFl x ∧ erfFl x ≤ 1
  near : ∀ x, |erfFl x - erf x| ≤ δ

/-- the distribution function of a normal distribution -/
def normal (loc scale value : ℝ) : ℝ := normalCdf ((value - loc) / scale)

/-- the probability that one coordinate of a PoCA is between `low` and `high`, in exact arithmetic -/
def axis (loc unc low high : ℝ) : ℝ := normal loc (unc + 1e-7) high - normal loc (unc + 1e-7) low

/-- the probability of the box between two corners, in exact arithmetic -/
def box (r : MuRow) (low high : ℝ × ℝ × ℝ) : ℝ :=
  axis r.poca.1 r.pocaUnc.1 low.1 high.1 * axis r.poca.2.1 r.pocaUnc.2.1 low.2.1 high.2.1 * axis r.poca.2.2 r.pocaUnc.2.2 low.2.2 high.2.2

/-- the uncertainties of a PoCA are not negative -/
def Certain (r : MuRow) : Prop := 0 ≤ r.pocaUnc.1 ∧ 0 ≤ r.pocaUnc.2.1 ∧ 0 ≤ r.pocaUnc.2.2

variable {p : Nat} {fl erfFl : ℝ → ℝ} {δ : ℝ}

theorem erf_mono : Monotone erf := fun a b h => by
  have := normalCdf_mono (mul_le_mul_of_nonneg_left h (Real.sqrt_nonneg 2))
  unfold erf
  linarith

theorem erf_neg (x : ℝ) : erf (-x) = -erf x := by
  unfold erf
  rw [mul_neg, normalCdf_neg]
  ring

theorem erf_range (x : ℝ) : -1 ≤ erf x ∧ erf x ≤ 1 := by
  have h1 := normalCdf_nonneg (√2 * x)
  have h2 := normalCdf_le_one (√2 * x)
  unfold erf
  constructor <;> linarith

/-! ### Helpers -/

theorem tiny_pos (hp : 1 ≤ p) (hf : Nearest p fl) {x : ℝ} (h : 0 < x) : 0 < fl x := Within.fl_pos (nearest_rounds hp hf) h

theorem scale_pos (hp : 1 ≤ p) (hf : Nearest p fl) {u : ℝ} (hu : 0 ≤ u) : 0 < scaleFl fl u :=
  tiny_pos hp hf (add_pos_of_nonneg_of_pos hu (tiny_pos hp hf (by norm_num)))

/-- what the error function is applied to -/
def argFl (fl : ℝ → ℝ) (loc scale value : ℝ) : ℝ := fl (fl (fl (value - loc) * fl (1 / scale)) / fl (√2))

theorem arg_mono (hp : 1 ≤ p) (hf : Nearest p fl) (loc : ℝ) {scale : ℝ} (hs : 0 < scale) : Monotone (argFl fl loc scale) := by
  intro a b h
  have h1 : 0 ≤ fl (1 / scale) := (tiny_pos hp hf (by positivity)).le
  have h2 : 0 < fl (√2) := tiny_pos hp hf (by positivity)
  exact nearest_mono hf (div_le_div_of_nonneg_right (nearest_mono hf (mul_le_mul_of_nonneg_right (nearest_mono hf (by linarith)) h1)) h2.le)

theorem cdf_mono (hp : 1 ≤ p) (hf : Nearest p fl) (he : ErrorFunction p δ erfFl) (loc : ℝ) {scale : ℝ} (hs : 0 < scale) : Monotone (cdfFl fl erfFl loc scale) := by
  intro a b h
  have := nearest_mono hf (add_le_add_right (he.mono (arg_mono hp hf loc hs h)) 1)
  exact nearest_mono hf (mul_le_mul_of_nonneg_left this (by norm_num))

/-- a distribution function is half a multiple of `2^-p` between zero and one -/
theorem cdf_grid (hp : 1 ≤ p) (hf : Nearest p fl) (he : ErrorFunction p δ erfFl) (loc scale value : ℝ) :
    ∃ j : ℤ, cdfFl fl erfFl loc scale value = j / 2 ^ (p + 1) ∧ cdfFl fl erfFl loc scale value = 1 / 2 * fl (1 + erfFl (argFl fl loc scale value)) ∧
      0 ≤ cdfFl fl erfFl loc scale value ∧ cdfFl fl erfFl loc scale value ≤ 1 := by
  have hr := he.range (argFl fl loc scale value)
  have e : cdfFl fl erfFl loc scale value = 1 / 2 * fl (1 + erfFl (argFl fl loc scale value)) := nearest_self p fl hf _ (isFloat_half (hf _).1)
  obtain ⟨j, hj⟩ := one_add hp hf (he.float (argFl fl loc scale value)) hr.1 hr.2
  have h0 : 0 ≤ fl (1 + erfFl (argFl fl loc scale value)) := nearest_nonneg hf (by linarith [hr.1])
  have two : IsFloat p 2 := ⟨1, 1, by simpa using one_le_pow₀ (by norm_num), by norm_num⟩
  have h1 : fl (1 + erfFl (argFl fl loc scale value)) ≤ 2 := nearest_le p fl hf _ _ two (by linarith [hr.2])
  refine ⟨j, ?_, e, ?_, ?_⟩
  · rw [e, hj, pow_succ]; field_simp
  · rw [e]; linarith
  · rw [e]; linarith

theorem axis_range (hp : 1 ≤ p) (hf : Nearest p fl) (he : ErrorFunction p δ erfFl) (loc : ℝ) {u low high : ℝ} (hu : 0 ≤ u) (h : low ≤ high) :
    0 ≤ axisFl fl erfFl loc u low high ∧ axisFl fl erfFl loc u low high ≤ 1 := by
  have hm := cdf_mono hp hf he loc (scale_pos hp hf hu) h
  obtain ⟨_, _, _, h1, _⟩ := cdf_grid hp hf he loc (scaleFl fl u) low
  obtain ⟨_, _, _, _, h2⟩ := cdf_grid hp hf he loc (scaleFl fl u) high
  exact ⟨nearest_nonneg hf (by linarith), nearest_le p fl hf _ _ (isFloat_one hp) (by linarith)⟩

theorem mul_range (hp : 1 ≤ p) (hf : Nearest p fl) {a b : ℝ} (ha : 0 ≤ a ∧ a ≤ 1) (hb : 0 ≤ b ∧ b ≤ 1) : 0 ≤ fl (a * b) ∧ fl (a * b) ≤ 1 :=
  ⟨nearest_nonneg hf (mul_nonneg ha.1 hb.1), nearest_le p fl hf _ _ (isFloat_one hp) (by nlinarith [ha.1, ha.2, hb.1, hb.2])⟩

theorem high_ge (hf : Nearest p fl) {low size : ℝ} (hl : IsFloat p low) (hs : 0 ≤ size) : low ≤ fl (low + size) := nearest_ge p fl hf _ _ hl (by linarith)

/-- the corners of a voxel are numbers of `p` digits -/
def Corner (p : Nat) (low : ℝ × ℝ × ℝ) : Prop := IsFloat p low.1 ∧ IsFloat p low.2.1 ∧ IsFloat p low.2.2

/-- the upper corner of a voxel, as computed -/
def upper (fl : ℝ → ℝ) (size : ℝ) (low : ℝ × ℝ × ℝ) : ℝ × ℝ × ℝ := (fl (low.1 + size), fl (low.2.1 + size), fl (low.2.2 + size))

theorem prob_range (hp : 1 ≤ p) (hf : Nearest p fl) (he : ErrorFunction p δ erfFl) (size : ℝ) (hs : 0 ≤ size) (r : MuRow) (hr : Certain r) (low : ℝ × ℝ × ℝ) (hl : Corner p low) :
    0 ≤ voxelProbFl fl erfFl size r low ∧ voxelProbFl fl erfFl size r low ≤ 1 :=
  mul_range hp hf (mul_range hp hf (axis_range hp hf he _ hr.1 (high_ge hf hl.1 hs)) (axis_range hp hf he _ hr.2.1 (high_ge hf hl.2.1 hs))) (axis_range hp hf he _ hr.2.2 (high_ge hf hl.2.2 hs))

theorem tiny (hp : 1 ≤ p) (hf : Nearest p fl) : 0 < fl 1e-15 ∧ fl 1e-15 ≤ 2e-15 ∧ |fl 1e-15 - 1e-15| ≤ 1 / 2 ^ p * (1 / 100) := by
  have h1 := nearest_rel p p hp le_rfl fl hf 1e-15
  have h2 : (1 : ℝ) / 2 ^ p ≤ 1 / 2 := eps_le hp
  have h3 : (0 : ℝ) < 1 / 2 ^ p := by positivity
  have h4 : |(1e-15 : ℝ)| = 1e-15 := abs_of_pos (by norm_num)
  rw [h4] at h1
  refine ⟨tiny_pos hp hf (by norm_num), ?_, le_trans h1 (mul_le_mul_of_nonneg_left (by norm_num) h3.le)⟩
  have h5 : (1 : ℝ) / 2 ^ p * 1e-15 ≤ 1 / 2 * 1e-15 := mul_le_mul_of_nonneg_right h2 (by norm_num)
  rw [abs_le] at h1
  have h6 : (1 : ℝ) / 2 * 1e-15 + 1e-15 ≤ 2e-15 := by norm_num
  linarith [h1.2]

theorem round_one_add (hp : 1 ≤ p) (hf : Nearest p fl) {t : ℝ} (h0 : 0 ≤ t) (h : t < 1 / 2 ^ p) : fl (1 + t) = 1 := by
  have e : (((2 ^ (p - 1) : ℤ) : ℝ)) * (2 : ℝ) ^ ((0 : ℤ) + 1 - p) = 1 := by
    push_cast
    rw [← zpow_natCast, ← zpow_add₀ (by norm_num)]
    rw [show ((p - 1 : ℕ) : ℤ) + (1 - p) = 0 by omega, zpow_zero]
  have u : (1 : ℝ) / 2 * (2 : ℝ) ^ ((0 : ℤ) + 1 - p) = 1 / 2 ^ p := by
    rw [show (0 : ℤ) + 1 - p = 1 + -p by ring, zpow_add₀ (by norm_num), zpow_neg, zpow_natCast, zpow_one]
    ring
  have := nearest_eq p hp fl hf 0 (2 ^ (p - 1)) (1 + t) (by simpa using h0) (by rw [abs_of_pos (by positivity)]; exact pow_le_pow_right₀ (by norm_num) (by omega))
    (by rw [e, u, add_sub_cancel_left, abs_of_nonneg h0]; exact h)
  rw [this, e]

/-! ### Weights are positive and not above one -/

/-- **C137: range.** With up to 48 digits the weight of a muon for a voxel is positive, at least the number added in the code, and at most one. -/
theorem weights (hp : 1 ≤ p) (hp' : p ≤ 48) (hf : Nearest p fl) (he : ErrorFunction p δ erfFl) (size : ℝ) (hs : 0 ≤ size) (r : MuRow) (hr : Certain r) (low : ℝ × ℝ × ℝ) (hl : Corner p low) :
    0 < fl 1e-15 ∧ fl 1e-15 ≤ voxelWeightFl fl erfFl size r low ∧ voxelWeightFl fl erfFl size r low ≤ 1 := by
  have h := prob_range hp hf he size hs r hr low hl
  refine ⟨tiny_pos hp hf (by norm_num), nearest_ge p fl hf _ _ (hf _).1 (by linarith [h.1]), ?_⟩
  have h3 : (1 : ℝ) / 2 ^ 48 ≤ 1 / 2 ^ p := one_div_le_one_div_of_le (by positivity) (pow_le_pow_right₀ (by norm_num) hp')
  have h4 : fl 1e-15 < 1 / 2 ^ p := by
    have : (2e-15 : ℝ) < 1 / 2 ^ 48 := by norm_num
    linarith [(tiny hp hf).2.1]
  calc voxelWeightFl fl erfFl size r low ≤ fl (1 + fl 1e-15) := nearest_mono hf (by linarith [h.2])
    _ = 1 := round_one_add hp hf (tiny_pos hp hf (by norm_num)).le h4

/-! ### Steps -/

/-- **C137: steps.** The probability of one coordinate is a multiple of 2 to the power of -(p+1), so it is zero or at least that, whatever the width of the distribution. -/
theorem steps (hp : 1 ≤ p) (hf : Nearest p fl) (he : ErrorFunction p δ erfFl) (loc u low high : ℝ) (hu : 0 ≤ u) (h : low ≤ high) :
    ∃ n : Nat, axisFl fl erfFl loc u low high = n / 2 ^ (p + 1) ∧ n ≤ 2 ^ (p + 1) := by
  have hm := cdf_mono hp hf he loc (scale_pos hp hf hu) h
  obtain ⟨i, hi, _⟩ := cdf_grid hp hf he loc (scaleFl fl u) low
  obtain ⟨j, hj, _⟩ := cdf_grid hp hf he loc (scaleFl fl u) high
  rw [hi, hj, div_le_div_iff_of_pos_right (by positivity)] at hm
  have hij : i ≤ j := by exact_mod_cast hm
  obtain ⟨n, hn⟩ := diff_grid hp hf (j - i) (by omega)
  have e : axisFl fl erfFl loc u low high = n / 2 ^ (p + 1) := by
    rw [axisFl, hi, hj, ← hn]
    congr 1
    push_cast
    ring
  refine ⟨n, e, ?_⟩
  have := (axis_range hp hf he loc hu h).2
  rw [e, div_le_one (by positivity)] at this
  exact_mod_cast this

/-! ### Accuracy -/

/-- the argument is right up to seven roundings -/
theorem arg_near (hp : 1 ≤ p) (hf : Nearest p fl) (loc value : ℝ) {u : ℝ} (hu : 0 ≤ u) :
    ∃ F, argFl fl loc (scaleFl fl u) value = (value - loc) / (u + 1e-7) / √2 * F ∧ 0 < F ∧ Within (1 / 2 ^ p) 7 F 1 := by
  have hr := nearest_rounds hp hf
  obtain ⟨d1, e1, p1, w1⟩ := factor hr (value - loc)
  obtain ⟨d2, e2, p2, w2⟩ := factor hr (1 / scaleFl fl u)
  obtain ⟨d3, e3, p3, w3⟩ := factor hr (fl (value - loc) * fl (1 / scaleFl fl u))
  obtain ⟨d4, e4, p4, w4⟩ := factor hr (√2)
  obtain ⟨d5, e5, p5, w5⟩ := factor hr (fl (fl (value - loc) * fl (1 / scaleFl fl u)) / fl (√2))
  have hσ : 0 < u + 1e-7 := by norm_num at *; linarith
  have wσ : Within (1 / 2 ^ p) 2 (scaleFl fl u) (u + 1e-7) := by
    have a1 : Within (1 / 2 ^ p) 1 (u + fl 1e-7) (u + 1e-7) := Within.add (Within.refl hr 1 hu) (Within.round_one hr (by norm_num))
    exact Within.round (fl := fl) hr (add_nonneg hu (tiny_pos hp hf (by norm_num)).le) a1
  have hs := scale_pos hp hf (fl := fl) hu
  have wG : Within (1 / 2 ^ p) 2 ((u + 1e-7) / scaleFl fl u) 1 := by
    have := Within.div hr hσ.le hσ.le hs hσ (Within.refl hr 0 hσ.le) wσ
    rw [div_self hσ.ne'] at this
    exact this
  have hG : 0 < (u + 1e-7) / scaleFl fl u := div_pos hσ hs
  have w4' : Within (1 / 2 ^ p) 1 (d4⁻¹) 1 := by
    have := Within.inv hr p4 one_pos w4
    rwa [inv_one] at this
  refine ⟨d1 * d2 * d3 * d4⁻¹ * d5 * ((u + 1e-7) / scaleFl fl u), ?_, by positivity, ?_⟩
  · unfold argFl
    rw [e5, e3, e4, e2, e1]
    have : √2 ≠ 0 := by positivity
    field_simp
  · have m1 := Within.mul hr p1.le one_pos.le p2.le one_pos.le w1 w2
    have m2 := Within.mul hr (mul_pos p1 p2).le (by norm_num) p3.le one_pos.le m1 w3
    have m3 := Within.mul hr (mul_pos (mul_pos p1 p2) p3).le (by norm_num) (inv_pos.mpr p4).le one_pos.le m2 w4'
    have m4 := Within.mul hr (by positivity) (by norm_num) p5.le one_pos.le m3 w5
    have m5 := Within.mul hr (by positivity) (by norm_num) hG.le one_pos.le m4 wG
    simpa using m5

/-- seven roundings are small -/
theorem small (hp : 8 ≤ p) : (7 : ℝ) * (1 / 2 ^ p) ≤ 1 / 20 := by
  have : (1 : ℝ) / 2 ^ p ≤ 1 / 2 ^ 8 := one_div_le_one_div_of_le (by positivity) (pow_le_pow_right₀ (by norm_num) hp)
  norm_num at this ⊢
  linarith

theorem cdf_accuracy (hp : 8 ≤ p) (hf : Nearest p fl) (he : ErrorFunction p δ erfFl) (loc value : ℝ) {u : ℝ} (hu : 0 ≤ u) :
    |cdfFl fl erfFl loc (scaleFl fl u) value - normal loc (u + 1e-7) value| ≤ 18 / 5 * (1 / 2 ^ p) + δ / 2 := by
  have hp1 : 1 ≤ p := by omega
  have hr := nearest_rounds hp1 hf
  obtain ⟨F, eF, hF, wF⟩ := arg_near hp1 hf loc value hu
  have hε : (0 : ℝ) < 1 / 2 ^ p := by positivity
  have hs := small hp
  have h1 := Within.error hr (by exact_mod_cast hs) one_pos.le wF
  have h2 := cdf_rel ((value - loc) / (u + 1e-7)) F (11 / 10 * (7 * (1 / 2 ^ p))) (by push_cast at h1; linarith) (by linarith)
  have h3 := he.near (argFl fl loc (scaleFl fl u) value)
  obtain ⟨_, _, e, _⟩ := cdf_grid hp1 hf he loc (scaleFl fl u) value
  have h4 : |fl (1 + erfFl (argFl fl loc (scaleFl fl u) value)) - (1 + erfFl (argFl fl loc (scaleFl fl u) value))| ≤ 1 / 2 ^ p * 2 := by
    refine le_trans (hr.rel _) (mul_le_mul_of_nonneg_left ?_ hε.le)
    have := he.range (argFl fl loc (scaleFl fl u) value)
    rw [abs_le]; constructor <;> linarith
  have e2 : erf (argFl fl loc (scaleFl fl u) value) = 2 * normalCdf ((value - loc) / (u + 1e-7) * F) - 1 := by
    rw [erf, eF]
    have : √2 ≠ 0 := by positivity
    congr 3
    field_simp
  rw [e2] at h3
  rw [e, normal]
  rw [abs_le] at *
  constructor <;> linarith [h2.1, h2.2, h3.1, h3.2, h4.1, h4.2]

theorem axis_accuracy (hp : 8 ≤ p) (hf : Nearest p fl) (he : ErrorFunction p δ erfFl) (loc : ℝ) {u low high : ℝ} (hu : 0 ≤ u) (h : low ≤ high) :
    |axisFl fl erfFl loc u low high - axis loc u low high| ≤ 41 / 5 * (1 / 2 ^ p) + δ := by
  have hp1 : 1 ≤ p := by omega
  have hr := nearest_rounds hp1 hf
  have h1 := cdf_accuracy hp hf he loc low hu
  have h2 := cdf_accuracy hp hf he loc high hu
  have hm := cdf_mono hp1 hf he loc (scale_pos hp1 hf hu) h
  obtain ⟨_, _, _, h3, _⟩ := cdf_grid hp1 hf he loc (scaleFl fl u) low
  obtain ⟨_, _, _, _, h4⟩ := cdf_grid hp1 hf he loc (scaleFl fl u) high
  have h5 := hr.rel (cdfFl fl erfFl loc (scaleFl fl u) high - cdfFl fl erfFl loc (scaleFl fl u) low)
  rw [abs_of_nonneg (show 0 ≤ cdfFl fl erfFl loc (scaleFl fl u) high - cdfFl fl erfFl loc (scaleFl fl u) low by linarith)] at h5
  have h6 : (1 : ℝ) / 2 ^ p * (cdfFl fl erfFl loc (scaleFl fl u) high - cdfFl fl erfFl loc (scaleFl fl u) low) ≤ 1 / 2 ^ p * 1 := mul_le_mul_of_nonneg_left (by linarith) (by positivity)
  unfold axisFl axis
  rw [abs_le] at *
  constructor <;> linarith [h1.1, h1.2, h2.1, h2.2, h5.1, h5.2]

theorem exact_range (loc : ℝ) {u low high : ℝ} (hu : 0 ≤ u) (h : low ≤ high) : 0 ≤ axis loc u low high ∧ axis loc u low high ≤ 1 := by
  have hσ : 0 < u + 1e-7 := by norm_num at *; linarith
  have h1 : normal loc (u + 1e-7) low ≤ normal loc (u + 1e-7) high := normalCdf_mono (div_le_div_of_nonneg_right (by linarith) hσ.le)
  have h2 := normalCdf_nonneg ((low - loc) / (u + 1e-7))
  have h3 := normalCdf_le_one ((high - loc) / (u + 1e-7))
  unfold axis
  unfold normal at *
  constructor <;> linarith

theorem mul_near {a b a' b' x y : ℝ} (ha : 0 ≤ a ∧ a ≤ 1) (hb' : 0 ≤ b' ∧ b' ≤ 1) (h : |a - a'| ≤ x) (h' : |b - b'| ≤ y) : |a * b - a' * b'| ≤ x + y := by
  have e : a * b - a' * b' = a * (b - b') + (a - a') * b' := by ring
  rw [e]
  refine le_trans (abs_add_le _ _) ?_
  rw [abs_mul, abs_mul, abs_of_nonneg ha.1, abs_of_nonneg hb'.1]
  have := abs_nonneg (b - b')
  have := abs_nonneg (a - a')
  nlinarith [ha.2, hb'.2]

theorem fl_near {ε : ℝ} (hr : Rounds ε fl) {x y e : ℝ} (h : |x - y| ≤ e) (hx : 0 ≤ x ∧ x ≤ 1) : |fl x - y| ≤ e + ε := by
  have h1 := hr.rel x
  have h2 := mul_le_mul_of_nonneg_left hx.2 hr.nonneg
  rw [abs_of_nonneg hx.1] at h1
  calc |fl x - y| = |(fl x - x) + (x - y)| := by ring_nf
    _ ≤ |fl x - x| + |x - y| := abs_add_le _ _
    _ ≤ e + ε := by linarith

/-- **C137: accuracy.** The weight of a muon for a voxel is the probability of the box between the corners of the voxel, as computed, plus the number added in the code, up to an absolute error of
28 roundings and three errors of the error function, whatever the position of the PoCA and its uncertainty. -/
theorem accuracy (hp : 8 ≤ p) (hf : Nearest p fl) (he : ErrorFunction p δ erfFl) (size : ℝ) (hs : 0 ≤ size) (r : MuRow) (hr : Certain r) (low : ℝ × ℝ × ℝ) (hl : Corner p low) :
    |voxelWeightFl fl erfFl size r low - (box r low (upper fl size low) + 1e-15)| ≤ 28 * (1 / 2 ^ p) + 3 * δ := by
  have hp1 : 1 ≤ p := by omega
  have hR := nearest_rounds hp1 hf
  have bx := high_ge hf hl.1 hs
  have by' := high_ge hf hl.2.1 hs
  have bz := high_ge hf hl.2.2 hs
  have rx := axis_range hp1 hf he r.poca.1 hr.1 bx
  have ry := axis_range hp1 hf he r.poca.2.1 hr.2.1 by'
  have rz := axis_range hp1 hf he r.poca.2.2 hr.2.2 bz
  have rxy := mul_range hp1 hf rx ry
  have n1 := fl_near hR (mul_near rx (exact_range r.poca.2.1 hr.2.1 by') (axis_accuracy hp hf he r.poca.1 hr.1 bx) (axis_accuracy hp hf he r.poca.2.1 hr.2.1 by'))
    ⟨mul_nonneg rx.1 ry.1, by nlinarith [rx.1, rx.2, ry.1, ry.2]⟩
  have n2 := fl_near hR (mul_near rxy (exact_range r.poca.2.2 hr.2.2 bz) n1 (axis_accuracy hp hf he r.poca.2.2 hr.2.2 bz))
    ⟨mul_nonneg rxy.1 rz.1, by nlinarith [rxy.1, rxy.2, rz.1, rz.2]⟩
  have pr := prob_range hp1 hf he size hs r hr low hl
  obtain ⟨t0, t1, t3⟩ := tiny hp1 hf
  have t2 := hR.rel (voxelProbFl fl erfFl size r low + fl 1e-15)
  have hε : (0 : ℝ) < 1 / 2 ^ p := by positivity
  rw [abs_of_nonneg (add_nonneg pr.1 t0.le)] at t2
  have t5 : voxelProbFl fl erfFl size r low + fl 1e-15 ≤ 11 / 10 := by
    have : (2e-15 : ℝ) ≤ 1 / 10 := by norm_num
    linarith [pr.2]
  have t6 := mul_le_mul_of_nonneg_left t5 hε.le
  change |voxelProbFl fl erfFl size r low - box r low (upper fl size low)| ≤ _ at n2
  unfold voxelWeightFl
  rw [abs_le] at *
  constructor <;> linarith [t3.1, t3.2, t2.1, t2.2, n2.1, n2.2]

/-- how much rounding the upper edge of a voxel moves the probability of one coordinate -/
def edgeError (p : Nat) (u low size : ℝ) : ℝ := 2 / 5 * (1 / 2 ^ p) * |low + size| / (u + 1e-7)

theorem edge (hp : 1 ≤ p) (hf : Nearest p fl) (loc : ℝ) {u : ℝ} (low size : ℝ) (hu : 0 ≤ u) : |axis loc u low (fl (low + size)) - axis loc u low (low + size)| ≤ edgeError p u low size := by
  have hσ : 0 < u + 1e-7 := by norm_num at *; linarith
  have h := cdf_abs ((fl (low + size) - loc) / (u + 1e-7)) ((low + size - loc) / (u + 1e-7))
  have h1 := (nearest_rounds hp hf).rel (low + size)
  rw [show (fl (low + size) - loc) / (u + 1e-7) - (low + size - loc) / (u + 1e-7) = (fl (low + size) - (low + size)) / (u + 1e-7) by ring, abs_div, abs_of_pos hσ] at h
  have e : axis loc u low (fl (low + size)) - axis loc u low (low + size) = normalCdf ((fl (low + size) - loc) / (u + 1e-7)) - normalCdf ((low + size - loc) / (u + 1e-7)) := by
    unfold axis normal; ring
  rw [e]
  refine le_trans h ?_
  unfold edgeError
  rw [mul_assoc (2 / 5 : ℝ), mul_div_assoc]
  exact mul_le_mul_of_nonneg_left (div_le_div_of_nonneg_right h1 hσ.le) (by norm_num)

/-- **C137: accuracy, with edges.** Compared with the exact probability of the voxel there is a further error, since the upper edges are rounded: it is proportional to the distance of the edge from
the origin in units of the uncertainty. -/
theorem accuracy_edges (hp : 8 ≤ p) (hf : Nearest p fl) (he : ErrorFunction p δ erfFl) (size : ℝ) (hs : 0 ≤ size) (r : MuRow) (hr : Certain r) (low : ℝ × ℝ × ℝ) (hl : Corner p low) :
    |voxelWeightFl fl erfFl size r low - (voxelProb normal size r low + 1e-15)| ≤
      28 * (1 / 2 ^ p) + 3 * δ + (edgeError p r.pocaUnc.1 low.1 size + edgeError p r.pocaUnc.2.1 low.2.1 size + edgeError p r.pocaUnc.2.2 low.2.2 size) := by
  have hp1 : 1 ≤ p := by omega
  have h := accuracy hp hf he size hs r hr low hl
  have rx := exact_range r.poca.1 hr.1 (high_ge hf hl.1 hs)
  have ry := exact_range r.poca.2.1 hr.2.1 (high_ge hf hl.2.1 hs)
  have sy := exact_range r.poca.2.1 (low := low.2.1) (high := low.2.1 + size) hr.2.1 (by linarith)
  have sz := exact_range r.poca.2.2 (low := low.2.2) (high := low.2.2 + size) hr.2.2 (by linarith)
  have n1 := mul_near rx sy (edge hp1 hf r.poca.1 low.1 size hr.1) (edge hp1 hf r.poca.2.1 low.2.1 size hr.2.1)
  have n2 := mul_near ⟨mul_nonneg rx.1 ry.1, by nlinarith [rx.1, rx.2, ry.1, ry.2]⟩ sz n1 (edge hp1 hf r.poca.2.2 low.2.2 size hr.2.2)
  have e : voxelProb normal size r low = axis r.poca.1 r.pocaUnc.1 low.1 (low.1 + size) * axis r.poca.2.1 r.pocaUnc.2.1 low.2.1 (low.2.1 + size) *
      axis r.poca.2.2 r.pocaUnc.2.2 low.2.2 (low.2.2 + size) := rfl
  rw [e]
  change |box r low (upper fl size low) - _| ≤ _ at n2
  rw [abs_le] at *
  constructor <;> linarith [h.1, h.2, n2.1, n2.2]

/-- **C137: single precision.** In single precision, with an error function right to two thirds of a digit, weights are right to two parts in a million if edges are numbers of 24 digits. -/
theorem single (hf : Nearest 24 fl) (he : ErrorFunction 24 4e-8 erfFl) (size : ℝ) (hs : 0 ≤ size) (r : MuRow) (hr : Certain r) (low : ℝ × ℝ × ℝ) (hl : Corner 24 low)
    (hu : IsFloat 24 (low.1 + size) ∧ IsFloat 24 (low.2.1 + size) ∧ IsFloat 24 (low.2.2 + size)) :
    |voxelWeightFl fl erfFl size r low - (voxelProb normal size r low + 1e-15)| ≤ 2 / 1000000 := by
  have h := accuracy (by norm_num) hf he size hs r hr low hl
  have e : upper fl size low = (low.1 + size, low.2.1 + size, low.2.2 + size) := by
    unfold upper
    rw [nearest_self _ fl hf _ hu.1, nearest_self _ fl hf _ hu.2.1, nearest_self _ fl hf _ hu.2.2]
  rw [e] at h
  refine le_trans h ?_
  norm_num

/-! ### Far from the PoCA -/

/-- the interval is at least six uncertainties away from the PoCA -/
def Far (loc unc low high : ℝ) : Prop := 6 * (unc + 1e-7) ≤ low - loc ∨ 6 * (unc + 1e-7) ≤ loc - high

theorem erf_tail : 1 - 13 / 1000000000 ≤ erf (106 / 25) := by
  have h2 : √2 ^ 2 = 2 := Real.sq_sqrt (by norm_num)
  have h3 : (1 : ℝ) ≤ √2 := Real.one_le_sqrt.mpr (by norm_num)
  have h := tail (√2 * (106 / 25)) (by linarith)
  rw [pdf_eq, show -(√2 * (106 / 25)) ^ 2 / 2 = -(18 - 14 / 625) by rw [mul_pow, h2]; norm_num, Real.exp_neg, Real.exp_sub] at h
  have e1 : (2.718 : ℝ) ^ 18 ≤ rexp 18 := by
    rw [show (18 : ℝ) = ((18 : ℕ) : ℝ) * 1 by norm_num, Real.exp_nat_mul]
    exact pow_le_pow_left₀ (by norm_num) (by linarith [Real.exp_one_gt_d9]) 18
  have e2 : rexp (14 / 625) ≤ 1 / (1 - 14 / 625) := by
    have := Real.one_sub_le_exp_neg (14 / 625)
    rw [Real.exp_neg] at this
    rw [le_div_iff₀ (by norm_num)]
    have hp := Real.exp_pos (14 / 625)
    calc rexp (14 / 625) * (1 - 14 / 625) ≤ rexp (14 / 625) * (rexp (14 / 625))⁻¹ := mul_le_mul_of_nonneg_left this hp.le
      _ = 1 := mul_inv_cancel₀ hp.ne'
  have e3 : (rexp 18 / rexp (14 / 625))⁻¹ ≤ 16 / 1000000000 := by
    rw [inv_div, div_le_iff₀ (Real.exp_pos _)]
    refine le_trans e2 (le_trans ?_ (mul_le_mul_of_nonneg_left e1 (by norm_num)))
    norm_num
  have e4 : (0 : ℝ) ≤ (rexp 18 / rexp (14 / 625))⁻¹ := by positivity
  have hc := coef_le
  have hc' : 0 ≤ (√(2 * π))⁻¹ := by positivity
  have : (√(2 * π))⁻¹ * (rexp 18 / rexp (14 / 625))⁻¹ ≤ 2 / 5 * (16 / 1000000000) := mul_le_mul hc e3 e4 (by norm_num)
  unfold erf
  linarith

/-- numbers of 24 digits next to one -/
theorem saturated {a : ℝ} (h : IsFloat 24 a) (h1 : a ≤ 1) (h2 : 1 - 1 / 2 ^ 24 < a) : a = 1 := by
  obtain ⟨j, rfl⟩ := multiple_half (by norm_num) h (by norm_num at h2 ⊢; linarith)
  have h3 : (2 ^ 24 - 1 : ℝ) < j := by
    rw [lt_div_iff₀ (by norm_num)] at h2
    norm_num at h2 ⊢
    linarith
  have h4 : (j : ℝ) ≤ 2 ^ 24 := by
    rw [div_le_one (by norm_num)] at h1
    exact h1
  have h5 : (2 ^ 24 - 1 : ℤ) < j := by exact_mod_cast h3
  have h6 : j ≤ 2 ^ 24 := by exact_mod_cast h4
  have : j = 2 ^ 24 := by omega
  rw [this]
  norm_num

theorem erf_one (he : ErrorFunction 24 4e-8 erfFl) {x : ℝ} (h : 106 / 25 ≤ x) : erfFl x = 1 := by
  have h1 := erf_mono h
  have h2 := erf_tail
  have h3 := he.near x
  rw [abs_le] at h3
  refine saturated (he.float x) (he.range x).2 ?_
  have : (4e-8 : ℝ) + 13 / 1000000000 < 1 / 2 ^ 24 := by norm_num
  linarith [h3.1]

theorem erf_minus_one (he : ErrorFunction 24 4e-8 erfFl) {x : ℝ} (h : x ≤ -(106 / 25)) : erfFl x = -1 := by
  have h1 := erf_mono h
  rw [erf_neg] at h1
  have h2 := erf_tail
  have h3 := he.near x
  rw [abs_le] at h3
  have : -erfFl x = 1 := by
    refine saturated (isFloat_neg _ _ (he.float x)) (by linarith [(he.range x).1]) ?_
    have : (4e-8 : ℝ) + 13 / 1000000000 < 1 / 2 ^ 24 := by norm_num
    linarith [h3.2]
  linarith

theorem arg_far (hf : Nearest 24 fl) (loc value : ℝ) {u : ℝ} (hu : 0 ≤ u) :
    (6 * (u + 1e-7) ≤ value - loc → 106 / 25 ≤ argFl fl loc (scaleFl fl u) value) ∧ (6 * (u + 1e-7) ≤ loc - value → argFl fl loc (scaleFl fl u) value ≤ -(106 / 25)) := by
  obtain ⟨F, eF, hF, wF⟩ := arg_near (by norm_num) hf loc value hu
  have hσ : 0 < u + 1e-7 := by norm_num at *; linarith
  have h2 : √2 ^ 2 = 2 := Real.sq_sqrt (by norm_num)
  have h0 : 0 < √2 := by positivity
  have h3 : √2 ≤ 141422 / 100000 := Real.sqrt_le_iff.mpr ⟨by norm_num, by norm_num⟩
  have hF1 : (1 - 1 / 1000000 : ℝ) ≤ F := by
    have := wF.1
    refine le_trans ?_ this
    norm_num
  have key : ∀ t : ℝ, 6 * (u + 1e-7) ≤ t → 106 / 25 ≤ t / (u + 1e-7) / √2 * F := by
    intro t ht
    have h4 : 6 ≤ t / (u + 1e-7) := by rwa [le_div_iff₀ hσ]
    have h5 : 42425 / 10000 ≤ t / (u + 1e-7) / √2 := by
      rw [le_div_iff₀ h0]
      nlinarith
    nlinarith
  constructor
  · intro h
    rw [eF]
    exact key _ h
  · intro h
    have := key _ h
    rw [eF, show value - loc = -(loc - value) by ring, neg_div, neg_div, neg_mul]
    linarith

theorem axis_far (hf : Nearest 24 fl) (he : ErrorFunction 24 4e-8 erfFl) (loc : ℝ) {u low high : ℝ} (hu : 0 ≤ u) (h : low ≤ high) (hfar : Far loc u low high) : axisFl fl erfFl loc u low high = 0 := by
  have z : fl 0 = 0 := nearest_self 24 fl hf 0 (isFloat_zero 24)
  have e : cdfFl fl erfFl loc (scaleFl fl u) high = cdfFl fl erfFl loc (scaleFl fl u) low := by
    obtain ⟨_, _, e1, _⟩ := cdf_grid (by norm_num) hf he loc (scaleFl fl u) low
    obtain ⟨_, _, e2, _⟩ := cdf_grid (by norm_num) hf he loc (scaleFl fl u) high
    rw [e1, e2]
    rcases hfar with hh | hh
    · rw [erf_one he ((arg_far hf loc low hu).1 hh), erf_one he ((arg_far hf loc high hu).1 (by linarith))]
    · rw [erf_minus_one he ((arg_far hf loc low hu).2 (by linarith)), erf_minus_one he ((arg_far hf loc high hu).2 hh)]
  rw [axisFl, e, sub_self, z]

/-- **C137: far voxels.** In single precision the weight of a voxel that is six uncertainties or more away from the PoCA along any axis is the number added in the code, whatever the distance. -/
theorem far (hf : Nearest 24 fl) (he : ErrorFunction 24 4e-8 erfFl) (size : ℝ) (hs : 0 ≤ size) (r : MuRow) (hr : Certain r) (low : ℝ × ℝ × ℝ) (hl : Corner 24 low)
    (hfar : Far r.poca.1 r.pocaUnc.1 low.1 (fl (low.1 + size)) ∨ Far r.poca.2.1 r.pocaUnc.2.1 low.2.1 (fl (low.2.1 + size)) ∨ Far r.poca.2.2 r.pocaUnc.2.2 low.2.2 (fl (low.2.2 + size))) :
    voxelWeightFl fl erfFl size r low = fl 1e-15 := by
  have z : fl 0 = 0 := nearest_self 24 fl hf 0 (isFloat_zero 24)
  have e : voxelProbFl fl erfFl size r low = 0 := by
    unfold voxelProbFl
    rcases hfar with h | h | h
    · rw [axis_far hf he _ hr.1 (high_ge hf hl.1 hs) h, zero_mul, z, zero_mul, z]
    · rw [axis_far hf he _ hr.2.1 (high_ge hf hl.2.1 hs) h, mul_zero, z, zero_mul, z]
    · rw [axis_far hf he _ hr.2.2 (high_ge hf hl.2.2 hs) h, mul_zero, z]
  rw [voxelWeightFl, e, zero_add]
  exact nearest_self 24 fl hf _ (hf _).1

/-! ### Non-vacuity -/

/-- rounding of the error function -/
theorem rounded_erf (hp : 1 ≤ p) (hf : Nearest p fl) : ErrorFunction p (1 / 2 ^ (p + 1)) fun x => fl (erf x) where
  mono := fun a b h => nearest_mono hf (erf_mono h)
  float := fun x => (hf _).1
  range := fun x => ⟨nearest_ge p fl hf _ _ (isFloat_neg p 1 (isFloat_one hp)) (erf_range x).1, nearest_le p fl hf _ _ (isFloat_one hp) (erf_range x).2⟩
  near := fun x => by
    have hP : (0 : ℝ) < 2 ^ p := by positivity
    have h1 : |((round (erf x * 2 ^ p) : ℤ) : ℝ)| ≤ 2 ^ p := by
      have h := erf_range x
      have a : (round (erf x * 2 ^ p)) ≤ (2 ^ p : ℤ) := by
        rw [← round_intCast (α := ℝ) (2 ^ p : ℤ)]
        rw [round_eq, round_eq]
        exact Int.floor_mono (by push_cast; nlinarith)
      have b : (-(2 ^ p) : ℤ) ≤ round (erf x * 2 ^ p) := by
        rw [← round_intCast (α := ℝ) (-(2 ^ p) : ℤ)]
        rw [round_eq, round_eq]
        exact Int.floor_mono (by push_cast; nlinarith)
      rw [abs_le]
      constructor
      · exact_mod_cast b
      · exact_mod_cast a
    have h2 := (hf (erf x)).2 _ (isFloat_grid (round (erf x * 2 ^ p)) p h1)
    rw [abs_sub_comm]
    refine le_trans h2 ?_
    have h3 := abs_sub_round (erf x * 2 ^ p)
    rw [show erf x - (round (erf x * 2 ^ p) : ℝ) / 2 ^ p = (erf x * 2 ^ p - round (erf x * 2 ^ p)) / 2 ^ p by field_simp, abs_div, abs_of_pos hP, pow_succ, div_le_iff₀ hP]
    refine le_trans h3 (le_of_eq ?_)
    field_simp

theorem single_erf (hf : Nearest 24 fl) : ErrorFunction 24 4e-8 fun x => fl (erf x) := by
  have h := rounded_erf (by norm_num) hf
  exact ⟨h.mono, h.float, h.range, fun x => le_trans (h.near x) (by norm_num)⟩

/-- a muon scattered at the origin, with an uncertainty of one -/
def atOrigin : MuRow := ⟨(0, 0, 0), (1, 1, 1), 1, 1, 1, 1, 1, 1, 1, 1⟩

/-- a voxel of size eight beside the PoCA -/
def beside : ℝ × ℝ × ℝ := (25 / 4, -4, -4)

theorem beside_corner : Corner 24 beside := by
  refine ⟨?_, ?_, ?_⟩
  · exact ⟨25, -2, by norm_num, by norm_num [beside]⟩
  · exact ⟨-4, 0, by norm_num, by norm_num [beside]⟩
  · exact ⟨-4, 0, by norm_num, by norm_num [beside]⟩

/-- Non-vacuity of `weights`, `steps`, `accuracy`, `accuracy_edges`, `single` and `far`: rounding to nearest, a rounded error function and a voxel beside the PoCA. -/
example : ∃ fl erfFl : ℝ → ℝ, Nearest 24 fl ∧ ErrorFunction 24 4e-8 erfFl ∧ Certain atOrigin ∧ Corner 24 beside ∧ Far atOrigin.poca.1 atOrigin.pocaUnc.1 beside.1 (fl (beside.1 + 8)) ∧
    (IsFloat 24 (beside.1 + 8) ∧ IsFloat 24 (beside.2.1 + 8) ∧ IsFloat 24 (beside.2.2 + 8)) := by
  obtain ⟨fl, hf⟩ := rounding_exists 24 (by norm_num)
  refine ⟨fl, _, hf, single_erf hf, ?_, beside_corner, Or.inl ?_, ?_, ?_, ?_⟩
  · norm_num [Certain, atOrigin]
  · norm_num [atOrigin, beside]
  · exact ⟨57, -2, by norm_num, by norm_num [beside]⟩
  · exact ⟨4, 0, by norm_num, by norm_num [beside]⟩
  · exact ⟨4, 0, by norm_num, by norm_num [beside]⟩

/-! ### What is lost -/

theorem exp_lower (n : Nat) : (1 / 2.7183 : ℝ) ^ n ≤ rexp (-n) := by
  rw [show (-(n : ℝ)) = (n : ℝ) * (-1) by ring, Real.exp_nat_mul]
  refine pow_le_pow_left₀ (by norm_num) ?_ n
  rw [Real.exp_neg, one_div]
  exact inv_anti₀ (Real.exp_pos 1) (by linarith [Real.exp_one_lt_d9])

/-- **C137 is violated: relative weights.** In single precision a muon scattered six uncertainties beside a voxel has the weight of one scattered anywhere further away, at most one
thousandth of the probability that it was scattered in the voxel. -/
theorem lost_violated : ∃ (r : MuRow) (low : ℝ × ℝ × ℝ) (size : ℝ), 0 ≤ size ∧ Certain r ∧ Corner 24 low ∧ 1 / 500000000000 ≤ voxelProb normal size r low ∧
    ∀ fl erfFl, Nearest 24 fl → ErrorFunction 24 4e-8 erfFl → voxelWeightFl fl erfFl size r low = fl 1e-15 ∧ voxelWeightFl fl erfFl size r low * 1000 ≤ voxelProb normal size r low := by
  have hpdf : ∀ (n : Nat) (x : ℝ), x ^ 2 ≤ 2 * n → 39 / 100 * (1 / 2.7183 : ℝ) ^ n ≤ gaussianPDFReal 0 1 x := by
    intro n x hx
    rw [pdf_eq]
    refine mul_le_mul coef_ge (le_trans (exp_lower n) (Real.exp_le_exp.mpr (by linarith))) (by positivity) (by positivity)
  have mid : 7 / 25 ≤ axis 0 1 (-4) (-4 + 8) := by
    have h1 := cdf_ge (-1) 1 (39 / 100 * (1 / 2.7183 : ℝ) ^ 1) (by norm_num) (fun x hx => hpdf 1 x (by have := hx.1; have := hx.2; push_cast; nlinarith))
    have h2 : normalCdf 1 ≤ normalCdf ((-4 + 8 - 0) / (1 + 1e-7)) := normalCdf_mono (by norm_num)
    have h3 : normalCdf ((-4 - 0) / (1 + 1e-7)) ≤ normalCdf (-1) := normalCdf_mono (by norm_num)
    unfold axis normal
    norm_num at h1 h2 h3 ⊢
    linarith
  have side : 27 / 1000000000000 ≤ axis 0 1 (25 / 4) (25 / 4 + 8) := by
    have h1 := cdf_ge (25 / 4) (13 / 2) (39 / 100 * (1 / 2.7183 : ℝ) ^ 22) (by norm_num) (fun x hx => hpdf 22 x (by have := hx.1; have := hx.2; push_cast; nlinarith))
    have h2 : normalCdf (13 / 2) ≤ normalCdf ((25 / 4 + 8 - 0) / (1 + 1e-7)) := normalCdf_mono (by norm_num)
    have h3 : normalCdf ((25 / 4 - 0) / (1 + 1e-7)) ≤ normalCdf (25 / 4) := normalCdf_mono (by norm_num)
    unfold axis normal
    norm_num at h1 h2 h3 ⊢
    linarith
  have hP : 1 / 500000000000 ≤ voxelProb normal 8 atOrigin beside := by
    have e : voxelProb normal 8 atOrigin beside = axis 0 1 (25 / 4) (25 / 4 + 8) * axis 0 1 (-4) (-4 + 8) * axis 0 1 (-4) (-4 + 8) := rfl
    rw [e]
    have a := mul_le_mul side mid (by norm_num) (le_trans (by norm_num) side)
    have b := mul_le_mul a mid (by norm_num) (le_trans (by norm_num) a)
    exact le_trans (by norm_num) b
  have hr : Certain atOrigin := by norm_num [Certain, atOrigin]
  refine ⟨atOrigin, beside, 8, by norm_num, hr, beside_corner, hP, fun fl erfFl hf he => ?_⟩
  have h := far hf he 8 (by norm_num) atOrigin hr beside beside_corner (Or.inl (Or.inl (by norm_num [atOrigin, beside])))
  refine ⟨h, ?_⟩
  rw [h]
  have := (tiny (by norm_num) hf).2.1
  have : (2e-15 : ℝ) * 1000 ≤ 1 / 500000000000 := by norm_num
  linarith

end C137

end

end Tomopt
