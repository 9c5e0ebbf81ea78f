import Verif.Spec.Normal
import Mathlib.MeasureTheory.Integral.IntervalIntegral.FundThmCalculus
import Mathlib.Analysis.SpecialFunctions.Exp
import Mathlib.Analysis.SpecialFunctions.PolynomialExp

/- Helper lemmas: the distribution function of the standard normal distribution. -/
namespace Tomopt

noncomputable section
open MeasureTheory ProbabilityTheory Filter Topology Real

theorem pdf_cont : Continuous (gaussianPDFReal 0 1) := by
  rw [show gaussianPDFReal 0 1 = fun x => (√(2 * π * (1 : NNReal)))⁻¹ * rexp (-(x - 0) ^ 2 / (2 * (1 : NNReal))) from gaussianPDFReal_def 0 1]
  fun_prop

theorem normalCdf_deriv (x : ℝ) : HasDerivAt normalCdf (gaussianPDFReal 0 1 x) x := by
  have hi := integrable_gaussianPDFReal 0 1
  have e : normalCdf = fun x => (∫ t in (0 : ℝ)..x, gaussianPDFReal 0 1 t) + normalCdf 0 := by
    funext y
    have := intervalIntegral.integral_Iic_sub_Iic (f := gaussianPDFReal 0 1) (a := 0) (b := y) hi.integrableOn hi.integrableOn
    simp only [normalCdf]
    linarith
  rw [e]
  exact (intervalIntegral.integral_hasDerivAt_right (hi.intervalIntegrable) (pdf_cont.stronglyMeasurableAtFilter _ _) pdf_cont.continuousAt).add_const _

theorem normalCdf_mono : Monotone normalCdf := by
  intro a b h
  exact setIntegral_mono_set (integrable_gaussianPDFReal 0 1).integrableOn (ae_of_all _ fun x => gaussianPDFReal_nonneg 0 1 x) (Set.Iic_subset_Iic.mpr h).eventuallyLE

theorem normalCdf_lim : Tendsto normalCdf atTop (𝓝 1) := by
  have := tendsto_setIntegral_of_monotone (μ := volume) (s := fun x : ℝ => Set.Iic x) (f := gaussianPDFReal 0 1) (fun x => measurableSet_Iic) (fun a b h => Set.Iic_subset_Iic.mpr h)
    (integrable_gaussianPDFReal 0 1).integrableOn
  rw [Set.iUnion_Iic, setIntegral_univ, integral_gaussianPDFReal_eq_one 0 one_ne_zero] at this
  exact this

theorem normalCdf_tail : Tendsto (fun x => x * deriv normalCdf x) atTop (𝓝 0) := by
  have e : ∀ x, deriv normalCdf x = gaussianPDFReal 0 1 x := fun x => (normalCdf_deriv x).deriv
  simp only [e]
  have h0 : Tendsto (fun x : ℝ => (√(2 * π))⁻¹ * (x ^ 1 * rexp (-x))) atTop (𝓝 0) := by
    simpa using (tendsto_pow_mul_exp_neg_atTop_nhds_zero 1).const_mul (√(2 * π))⁻¹
  refine squeeze_zero' ?_ ?_ h0
  · filter_upwards [eventually_ge_atTop 0] with x hx
    exact mul_nonneg hx (gaussianPDFReal_nonneg 0 1 x)
  · filter_upwards [eventually_ge_atTop 2] with x hx
    have h1 : rexp (-x ^ 2 / 2) ≤ rexp (-x) := exp_le_exp.mpr (by nlinarith)
    have h2 : 0 ≤ (√(2 * π))⁻¹ := by positivity
    simp only [gaussianPDFReal_def, NNReal.coe_one, mul_one, sub_zero, pow_one]
    calc x * ((√(2 * π))⁻¹ * rexp (-x ^ 2 / 2)) = (√(2 * π))⁻¹ * (x * rexp (-x ^ 2 / 2)) := by ring
      _ ≤ (√(2 * π))⁻¹ * (x * rexp (-x)) := by gcongr

end

end Tomopt
