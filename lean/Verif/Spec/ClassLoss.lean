import Verif.Model.ClassLoss

/- Specification of losses for classification. -/
namespace Tomopt

noncomputable section

namespace ClassLoss

/-- the probability given to class `c` in voxel `v` by logarithms of probabilities -/
def prob (pred : List (List ℝ)) (c : ℤ) (v : Nat) : ℝ := Real.exp (entry pred c v)

/-- one row of `n` voxels per class, and at least one class -/
def Shaped (pred : List (List ℝ)) (n : Nat) : Prop := pred ≠ [] ∧ ∀ r ∈ pred, r.length = n

/-- logarithms of probabilities that add up to one in every voxel -/
def LogProbs (pred : List (List ℝ)) (n : Nat) : Prop :=
  Shaped pred n ∧ ∀ v < n, ((List.range pred.length).map fun c : Nat => prob pred (c : ℤ) v).sum = 1

/-- the classes of the voxels can be told: every true class is one of those predicted, and no class number equals a larger X0 of the volume (see C54) -/
structure Clear (tab : List (ℝ × Int)) (nClasses : Nat) (cls : ℝ → ℤ) (x0s : List ℝ) : Prop where
  table : ∀ x ∈ x0s, Loss.classOf tab x = .ok (cls x)
  known : ∀ x ∈ x0s, 0 ≤ cls x ∧ cls x < nClasses
  apart : ∀ x ∈ x0s, ∀ y ∈ x0s, x < y → (cls x : ℝ) ≠ y

/-- the mean, over voxels, of minus the logarithm of the probability of the true class -/
def surprise (pred : List (List ℝ)) (cls : ℝ → ℤ) (x0s : List ℝ) : ℝ :=
  -((x0s.zipIdx.map fun xv => Real.log (prob pred (cls xv.1) xv.2)).sum / x0s.length)

end ClassLoss

end

end Tomopt
