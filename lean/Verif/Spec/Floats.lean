import Mathlib.Data.Real.Archimedean
import Mathlib.Algebra.Order.Field.Power

/- Specification: binary floating-point numbers of a given precision, without limits on the exponent, and rounding to nearest. -/
namespace Tomopt

/-- a number with `p` significant binary digits: 24 for float32, 53 for float64 -/
def IsFloat (p : Nat) (x : ℝ) : Prop := ∃ m e : ℤ, |m| ≤ 2 ^ p ∧ x = m * (2 : ℝ) ^ e

/-- rounding to a nearest number with `p` digits, whatever the rule for ties -/
def Nearest (p : Nat) (fl : ℝ → ℝ) : Prop := ∀ x, IsFloat p (fl x) ∧ ∀ y, IsFloat p y → |x - fl x| ≤ |x - y|

end Tomopt
