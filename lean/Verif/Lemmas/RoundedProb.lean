import Verif.Model.RoundedProb
import Verif.Lemmas.Floats
import Verif.Lemmas.Normal
import Verif.Lemmas.Within
import Verif.Lemmas.RoundedGen
import Mathlib.Analysis.Calculus.MeanValue
import Mathlib.MeasureTheory.Measure.Lebesgue.Integral
import Mathlib.Analysis.Complex.ExponentialBounds

/- The normal distribution and its tails; numbers of few digits; probabilities in floating point. -/
namespace Tomopt

noncomputable section

namespace C137

open Real Filter Topology MeasureTheory ProbabilityTheory Infer Floats C135

/-! ### The normal distribution -/

theorem pdf_eq (x : ℝ) : gaussianPDFReal 0 1 x = (√(2 * π))⁻¹ * rexp (-x ^ 2 / 2) := by
  simp [gaussianPDFReal_def]

theorem coef_le : (√(2 * π))⁻¹ ≤ 2 / 5 := by
  have h : (5 / 2 : ℝ) ≤ √(2 * π) := by
    apply Real.le_sqrt_of_sq_le
    have := Real.pi_gt_d2
    nlinarith
  calc (√(2 * π))⁻¹ ≤ (5 / 2 : ℝ)⁻¹ := inv_anti₀ (by norm_num) h
    _ = 2 / 5 := by norm_num

theorem coef_ge : 39 / 100 ≤ (√(2 * π))⁻¹ := by
  have h : √(2 * π) ≤ 100 / 39 := by
    apply Real.sqrt_le_iff.mpr
    have := Real.pi_lt_d2
    constructor <;> nlinarith
  calc (39 / 100 : ℝ) = (100 / 39 : ℝ)⁻¹ := by norm_num
    _ ≤ _ := inv_anti₀ (by positivity) h

theorem normalCdf_neg (x : ℝ) : normalCdf (-x) = 1 - normalCdf x := by
  have hi := integrable_gaussianPDFReal 0 1
  have h1 : normalCdf (-x) = ∫ t in Set.Ioi x, gaussianPDFReal 0 1 t := by
    unfold normalCdf
    rw [← integral_comp_neg_Ioi]
    simp only [pdf_eq, even_two.neg_pow]
  have h2 := integral_add_compl (μ := volume) (s := Set.Iic x) measurableSet_Iic hi
  rw [integral_gaussianPDFReal_eq_one 0 one_ne_zero, Set.compl_Iic] at h2
  rw [h1, normalCdf]
  linarith

theorem normalCdf_nonneg (x : ℝ) : 0 ≤ normalCdf x := integral_nonneg fun t => gaussianPDFReal_nonneg 0 1 t

theorem normalCdf_le_one (x : ℝ) : normalCdf x ≤ 1 := by
  have := normalCdf_nonneg (-x)
  rw [normalCdf_neg] at this
  linarith

/-- the tail of the normal distribution -/
theorem tail (z : ℝ) (hz : 1 ≤ z) : 1 - normalCdf z ≤ gaussianPDFReal 0 1 z := by
  have hd : ∀ x, HasDerivAt (fun x => normalCdf x + gaussianPDFReal 0 1 x) (gaussianPDFReal 0 1 x * (1 - x)) x := by
    intro x
    have h1 : HasDerivAt (gaussianPDFReal 0 1) ((√(2 * π))⁻¹ * (rexp (-x ^ 2 / 2) * (-(2 * x) / 2))) x := by
      rw [show gaussianPDFReal 0 1 = fun x => (√(2 * π))⁻¹ * rexp (-x ^ 2 / 2) from funext pdf_eq]
      refine HasDerivAt.const_mul _ (HasDerivAt.exp ?_)
      have := ((hasDerivAt_pow 2 x).neg).div_const 2
      simpa using this
    have e : gaussianPDFReal 0 1 x * (1 - x) = gaussianPDFReal 0 1 x + (√(2 * π))⁻¹ * (rexp (-x ^ 2 / 2) * (-(2 * x) / 2)) := by rw [pdf_eq]; ring
    rw [e]
    exact (normalCdf_deriv x).add h1
  have anti : AntitoneOn (fun x => normalCdf x + gaussianPDFReal 0 1 x) (Set.Ici 1) := by
    apply antitoneOn_of_deriv_nonpos (convex_Ici 1) (fun x _ => (hd x).continuousAt.continuousWithinAt) (fun x _ => (hd x).differentiableAt.differentiableWithinAt)
    intro x hx
    rw [interior_Ici] at hx
    rw [(hd x).deriv]
    have := gaussianPDFReal_nonneg 0 1 x
    have hx : 1 < x := hx
    nlinarith
  have lim : ∀ᶠ w in atTop, normalCdf w ≤ normalCdf z + gaussianPDFReal 0 1 z := by
    filter_upwards [eventually_ge_atTop z] with w hw
    have := anti (Set.mem_Ici.mpr hz) (Set.mem_Ici.mpr (le_trans hz hw)) hw
    have := gaussianPDFReal_nonneg 0 1 w
    simp only at *
    linarith
  have := le_of_tendsto normalCdf_lim lim
  linarith

theorem pdf_small (ξ : ℝ) : |ξ| * gaussianPDFReal 0 1 ξ ≤ 3 / 10 := by
  have h : √2 * |ξ| ≤ rexp (ξ ^ 2 / 2) := by
    have h1 := Real.add_one_le_exp (ξ ^ 2 / 2)
    have h2 : √2 ^ 2 = 2 := Real.sq_sqrt (by norm_num)
    have h3 : |ξ| ^ 2 = ξ ^ 2 := sq_abs ξ
    nlinarith [sq_nonneg (|ξ| * √2 / 2 - 1)]
  have h4 : (7 / 5 : ℝ) ≤ √2 := Real.le_sqrt_of_sq_le (by norm_num)
  rw [pdf_eq, show -ξ ^ 2 / 2 = -(ξ ^ 2 / 2) by ring, Real.exp_neg]
  have hc := coef_le
  have he := Real.exp_pos (ξ ^ 2 / 2)
  have h5 : |ξ| * (rexp (ξ ^ 2 / 2))⁻¹ ≤ 5 / 7 := by
    rw [← div_eq_mul_inv, div_le_iff₀ he]
    have := abs_nonneg ξ
    nlinarith
  have h6 : 0 ≤ |ξ| * (rexp (ξ ^ 2 / 2))⁻¹ := by positivity
  have h7 : 0 ≤ (√(2 * π))⁻¹ := by positivity
  calc |ξ| * ((√(2 * π))⁻¹ * (rexp (ξ ^ 2 / 2))⁻¹) = (√(2 * π))⁻¹ * (|ξ| * (rexp (ξ ^ 2 / 2))⁻¹) := by ring
    _ ≤ 2 / 5 * (5 / 7) := mul_le_mul hc h5 h6 (by norm_num)
    _ ≤ 3 / 10 := by norm_num

/-- relative errors of the argument -/
theorem cdf_rel (z F η : ℝ) (hF : |F - 1| ≤ η) (hη : η ≤ 1 / 10) : |normalCdf (z * F) - normalCdf z| ≤ η / 3 := by
  have hη0 : 0 ≤ η := le_trans (abs_nonneg _) hF
  rcases eq_or_ne z 0 with rfl | hz
  · simp; positivity
  have hz' : 0 < |z| := abs_pos.mpr hz
  have hb : ∀ ξ ∈ Set.uIcc z (z * F), ‖gaussianPDFReal 0 1 ξ‖ ≤ 3 / 10 / (9 / 10 * |z|) := by
    intro ξ hξ
    have h1 : 9 / 10 * |z| ≤ |ξ| := by
      rw [abs_le] at hF
      rw [Set.mem_uIcc] at hξ
      rcases lt_or_gt_of_ne hz with h0 | h0
      · rw [abs_of_neg h0]
        have h2 : ξ ≤ 9 / 10 * z := by
          rcases hξ with h | h <;> nlinarith
        rw [abs_of_neg (by linarith)]; linarith
      · rw [abs_of_pos h0]
        have h2 : 9 / 10 * z ≤ ξ := by
          rcases hξ with h | h <;> nlinarith
        rw [abs_of_pos (by linarith)]; linarith
    rw [Real.norm_of_nonneg (gaussianPDFReal_nonneg 0 1 ξ), le_div_iff₀ (by positivity)]
    have := pdf_small ξ
    have h3 := gaussianPDFReal_nonneg 0 1 ξ
    nlinarith
  have := (convex_uIcc z (z * F)).norm_image_sub_le_of_norm_hasDerivWithin_le (f := normalCdf) (f' := gaussianPDFReal 0 1) (fun x _ => (normalCdf_deriv x).hasDerivWithinAt) hb Set.left_mem_uIcc Set.right_mem_uIcc
  rw [Real.norm_eq_abs, Real.norm_eq_abs, show z * F - z = z * (F - 1) by ring, abs_mul] at this
  refine le_trans this ?_
  calc 3 / 10 / (9 / 10 * |z|) * (|z| * |F - 1|) = 1 / 3 * |F - 1| := by field_simp; norm_num
    _ ≤ η / 3 := by linarith

/-- absolute errors of the argument -/
theorem cdf_abs (a b : ℝ) : |normalCdf a - normalCdf b| ≤ 2 / 5 * |a - b| := by
  have := (convex_univ (𝕜 := ℝ) (E := ℝ)).norm_image_sub_le_of_norm_hasDerivWithin_le (f := normalCdf) (f' := gaussianPDFReal 0 1) (C := 2 / 5)
    (fun x _ => (normalCdf_deriv x).hasDerivWithinAt) (fun x _ => ?_) (Set.mem_univ b) (Set.mem_univ a)
  · simpa [Real.norm_eq_abs] using this
  · rw [Real.norm_of_nonneg (gaussianPDFReal_nonneg 0 1 x), pdf_eq]
    have h1 : rexp (-x ^ 2 / 2) ≤ 1 := Real.exp_le_one_iff.mpr (by nlinarith [sq_nonneg x])
    have h2 := coef_le
    have h3 := (Real.exp_pos (-x ^ 2 / 2)).le
    nlinarith

/-- a lower bound of the probability of an interval -/
theorem cdf_ge (a b c : ℝ) (h : a ≤ b) (hc : ∀ x ∈ Set.Icc a b, c ≤ gaussianPDFReal 0 1 x) : c * (b - a) ≤ normalCdf b - normalCdf a := by
  have := (convex_Icc a b).mul_sub_le_image_sub_of_le_deriv (f := normalCdf) (C := c) (fun x _ => (normalCdf_deriv x).continuousAt.continuousWithinAt)
    (fun x _ => (normalCdf_deriv x).differentiableAt.differentiableWithinAt) (fun x hx => ?_) a (Set.left_mem_Icc.mpr h) b (Set.right_mem_Icc.mpr h) h
  · exact this
  · rw [(normalCdf_deriv x).deriv]
    exact hc x (interior_subset hx)

/-! ### Numbers of few digits -/

variable {p : Nat} {fl erfFl : ℝ → ℝ} {δ : ℝ}

theorem nearest_rounds (hp : 1 ≤ p) (hf : Nearest p fl) : Rounds (1 / 2 ^ p) fl :=
  ⟨by positivity, by rw [div_lt_one (by positivity)]; exact one_lt_pow₀ (by norm_num) (by omega), fun x => nearest_rel p p hp le_rfl fl hf x⟩

theorem isFloat_half {x : ℝ} (h : IsFloat p x) : IsFloat p (1 / 2 * x) := by
  obtain ⟨m, e, hm, rfl⟩ := h
  exact ⟨m, e - 1, hm, by rw [zpow_sub_one₀ (by norm_num)]; ring⟩

theorem isFloat_one (hp : 1 ≤ p) : IsFloat p 1 := ⟨1, 0, by simpa using one_le_pow₀ (by norm_num), by simp⟩

theorem isFloat_grid (j : ℤ) (k : Nat) (h : |(j : ℝ)| ≤ 2 ^ p) : IsFloat p (j / 2 ^ k) :=
  ⟨j, -k, by exact_mod_cast h, by rw [zpow_neg, zpow_natCast]; rfl⟩

theorem multiple_half (hp : 1 ≤ p) {y : ℝ} (hy : IsFloat p y) (h : 1 / 2 ≤ y) : ∃ j : ℤ, y = j / 2 ^ p := by
  obtain ⟨j, hj⟩ := multiple p (-1) y hy (by norm_num at h ⊢; exact h) hp
  refine ⟨j, ?_⟩
  rw [hj, show (-1 + 1 - (p : ℤ)) = -p by ring, zpow_neg, zpow_natCast]
  rfl

/-- `1 + a` is rounded to a multiple of `2^-p` -/
theorem one_add (hp : 1 ≤ p) (hf : Nearest p fl) {a : ℝ} (ha : IsFloat p a) (h1 : -1 ≤ a) (h2 : a ≤ 1) : ∃ j : ℤ, fl (1 + a) = j / 2 ^ p := by
  rcases le_total (-(1 / 2)) a with h | h
  · have h3 : IsFloat p (1 / 2) := by simpa using isFloat_half (isFloat_one hp)
    exact multiple_half hp (hf _).1 (nearest_ge p fl hf _ _ h3 (by linarith))
  · obtain ⟨j, hj⟩ := multiple_half hp (isFloat_neg p a ha) (by linarith)
    have hP : (0 : ℝ) < 2 ^ p := by positivity
    have e : 1 + a = ((2 ^ p - j : ℤ) : ℝ) / 2 ^ p := by
      rw [show a = -(j / 2 ^ p) by linarith]
      push_cast
      field_simp
      ring
    refine ⟨2 ^ p - j, ?_⟩
    rw [e]
    apply nearest_self p fl hf
    apply isFloat_grid
    have h4 : ((2 ^ p - j : ℤ) : ℝ) = (1 + a) * 2 ^ p := by rw [e]; field_simp
    rw [h4, abs_of_nonneg (mul_nonneg (by linarith) hP.le)]
    nlinarith

/-- a difference of multiples of `2^-(p+1)` between zero and one is rounded to another one -/
theorem diff_grid (hp : 1 ≤ p) (hf : Nearest p fl) (j : ℤ) (h0 : 0 ≤ j) : ∃ n : Nat, fl (j / 2 ^ (p + 1)) = n / 2 ^ (p + 1) := by
  have hP : (0 : ℝ) < 2 ^ p := by positivity
  rcases le_total (j : ℝ) (2 ^ p) with h | h
  · obtain ⟨n, rfl⟩ := Int.eq_ofNat_of_zero_le h0
    refine ⟨n, ?_⟩
    rw [nearest_self p fl hf _ (isFloat_grid _ _ (by rw [abs_of_nonneg (by positivity)]; exact h))]
    push_cast
    rfl
  · have h3 : IsFloat p (1 / 2) := by simpa using isFloat_half (isFloat_one hp)
    have h4 : 1 / 2 ≤ fl (j / 2 ^ (p + 1)) := by
      apply nearest_ge p fl hf _ _ h3
      rw [le_div_iff₀ (by positivity), pow_succ]
      linarith
    obtain ⟨i, hi⟩ := multiple_half hp (hf _).1 h4
    have h5 : (0 : ℝ) ≤ i := by
      have : 0 ≤ (i : ℝ) / 2 ^ p := by rw [← hi]; linarith
      rwa [le_div_iff₀ hP, zero_mul] at this
    obtain ⟨n, rfl⟩ := Int.eq_ofNat_of_zero_le (by exact_mod_cast h5 : 0 ≤ i)
    refine ⟨2 * n, ?_⟩
    rw [hi]
    push_cast
    rw [pow_succ]
    field_simp

/-- a rounded number is a multiple of the number -/
theorem factor {ε : ℝ} (hr : Rounds ε fl) (y : ℝ) : ∃ d, fl y = y * d ∧ 0 < d ∧ Within ε 1 d 1 := by
  have h := hr.rel y
  have h0 := hr.nonneg
  have h1 := hr.small
  rcases eq_or_ne y 0 with rfl | hy
  · exact ⟨1, by simpa using h, by norm_num, Within.refl hr 1 (by norm_num)⟩
  · refine ⟨fl y / y, by field_simp, ?_⟩
    have h2 : |fl y / y - 1| ≤ ε := by
      rw [show fl y / y - 1 = (fl y - y) / y by field_simp, abs_div, div_le_iff₀ (abs_pos.mpr hy)]
      exact h
    rw [abs_le] at h2
    exact ⟨by linarith, by rw [pow_one]; linarith, by rw [pow_one]; nlinarith⟩

end C137

end

end Tomopt
