import Mathlib.Probability.Distributions.Gaussian.Real

/- The distribution function of the standard normal distribution. -/
namespace Tomopt

noncomputable section
open MeasureTheory ProbabilityTheory

/-- The probability that a standard normal variable is at most `x`. -/
def normalCdf (x : ℝ) : ℝ := ∫ t in Set.Iic x, gaussianPDFReal 0 1 t

end

end Tomopt
