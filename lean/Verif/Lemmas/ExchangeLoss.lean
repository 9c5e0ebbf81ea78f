import Verif.Model.Loss
import Verif.Spec.ExchangePredict
import Mathlib.Algebra.BigOperators.Group.Finset.Sigma

/- Sums over the entries of a tensor with exchanged axes. -/
namespace Tomopt

noncomputable section

namespace Exchange

theorem flat3_length (f : Nat → Nat → Nat → ℝ) (nz nx ny : Nat) : (flat3 f nz nx ny).length = nz * (nx * ny) := by
  simp [flat3, List.length_flatMap]

theorem zipWith_flatMap {a b c d : Type} (h : a → b → c) (l : List d) (f : d → List a) (g : d → List b) (hl : ∀ x ∈ l, (f x).length = (g x).length) :
    List.zipWith h (l.flatMap f) (l.flatMap g) = l.flatMap fun x => List.zipWith h (f x) (g x) := by
  induction l with
  | nil => rfl
  | cons x l ih =>
    simp only [List.flatMap_cons]
    rw [List.zipWith_append (hl x (by simp)), ih fun y hy => hl y (by simp [hy])]

theorem flat3_zip (h : ℝ → ℝ → ℝ) (f g : Nat → Nat → Nat → ℝ) (nz nx ny : Nat) : List.zipWith h (flat3 f nz nx ny) (flat3 g nz nx ny) = flat3 (fun k i j => h (f k i j) (g k i j)) nz nx ny := by
  unfold flat3
  rw [zipWith_flatMap _ _ _ _ (by intros; simp [List.length_flatMap])]
  congr 1
  funext k
  rw [zipWith_flatMap _ _ _ _ (by intros; simp)]
  congr 1
  funext i
  rw [List.zipWith_map, List.zipWith_self]

theorem flatMap_sum {d : Type} (l : List d) (f : d → List ℝ) : (l.flatMap f).sum = (l.map fun x => (f x).sum).sum := by
  induction l with
  | nil => rfl
  | cons x l ih => simp [ih]

theorem range_sum (n : Nat) (g : Nat → ℝ) : ((List.range n).map g).sum = ∑ i ∈ Finset.range n, g i := by
  induction n with
  | zero => simp
  | succ n ih => simp [List.range_succ, Finset.sum_range_succ, ih]

theorem flat3_sum (f : Nat → Nat → Nat → ℝ) (nz nx ny : Nat) : (flat3 f nz nx ny).sum = ∑ k ∈ Finset.range nz, ∑ i ∈ Finset.range nx, ∑ j ∈ Finset.range ny, f k i j := by
  simp only [flat3, flatMap_sum, range_sum]

theorem mse_sw (f g : Nat → Nat → Nat → ℝ) (nz nx ny : Nat) :
    Loss.mse (flat3 (fun k j i => f k i j) nz ny nx) (flat3 (fun k j i => g k i j) nz ny nx) = Loss.mse (flat3 f nz nx ny) (flat3 g nz nx ny) := by
  simp only [Loss.mse, flat3_length, flat3_zip, flat3_sum, Nat.mul_comm ny nx]
  have e : ∑ k ∈ Finset.range nz, ∑ j ∈ Finset.range ny, ∑ i ∈ Finset.range nx, (f k i j - g k i j) ^ 2 = ∑ k ∈ Finset.range nz, ∑ i ∈ Finset.range nx, ∑ j ∈ Finset.range ny, (f k i j - g k i j) ^ 2 :=
    Finset.sum_congr rfl fun k _ => Finset.sum_comm
  rw [e]

end Exchange

end

end Tomopt
