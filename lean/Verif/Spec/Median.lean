import Mathlib.Data.Real.Basic
import Mathlib.Data.List.Sort

/- What a median is. -/
namespace Tomopt

namespace Spec

/-- `m` is the median of `xs`: when `xs` is put in order, the mean of the two elements in the middle (which are the same one if the number of elements is odd) -/
def IsMedian (m : ℝ) (xs : List ℝ) : Prop :=
  xs ≠ [] ∧ ∃ s : List ℝ, s.Perm xs ∧ s.Pairwise (· ≤ ·) ∧ m = (s.getD ((s.length - 1) / 2) 0 + s.getD (s.length / 2) 0) / 2

end Spec

end Tomopt
