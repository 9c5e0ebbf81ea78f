import Mathlib.Data.List.Chain
import Mathlib.Algebra.Order.Group.Unbundled.Abs
import Mathlib.Algebra.Order.Group.Int

/-
What layouts of walls look like, independently of the generator: a wall is a run of neighbouring columns of voxels.
-/
namespace Tomopt.Spec

/-- two columns share a side -/
def Neighbours (p q : ℤ × ℤ) : Prop := (p.1 = q.1 ∧ |p.2 - q.2| = 1) ∨ (p.2 = q.2 ∧ |p.1 - q.1| = 1)

/-- A run of columns: each is next to the one before, inside a grid of `nx` by `ny`, and none occurs twice. -/
structure IsRun (nx ny : Nat) (ps : List (ℤ × ℤ)) : Prop where
  adjacent : ps.IsChain Neighbours
  inside : ∀ p ∈ ps, 0 ≤ p.1 ∧ p.1 < nx ∧ 0 ≤ p.2 ∧ p.2 < ny
  nodup : ps.Nodup

/-- One wall: a run of columns, all filled from the ground up to the same height. -/
structure Wall where
  run : List (ℤ × ℤ)
  height : ℤ

/-- A layout of walls in a grid of `nz`, `nx`, `ny` voxels: they stand on common ground, are at least `minHeight` high, leave the top layer free and share no column;
a voxel is wall exactly if it is part of one of them. -/
structure IsLayout (nz nx ny : Nat) (minHeight : ℤ) (ground : ℤ) (ws : List Wall) (m : Nat → Nat → Nat → Bool) : Prop where
  ground_nonneg : 0 ≤ ground
  runs : ∀ w ∈ ws, IsRun nx ny w.run
  heights : ∀ w ∈ ws, ground + minHeight ≤ w.height ∧ w.height < nz
  disjoint : ws.Pairwise fun a b => ∀ p ∈ a.run, p ∉ b.run
  voxels : ∀ z x y, m z x y = true ↔ ∃ w ∈ ws, ((x : ℤ), (y : ℤ)) ∈ w.run ∧ ground ≤ (z : ℤ) ∧ (z : ℤ) < w.height

/-- A run that cannot go on as it would: at its end (or, if it is empty, at its start) there is a column that is outside the grid or already wall. -/
def Blocked (nx ny : Nat) (ws : List Wall) (run : List (ℤ × ℤ)) : Prop :=
  ∃ q : ℤ × ℤ, (run = [] ∨ ∃ l, run.getLast? = some l ∧ Neighbours l q) ∧ (¬ (0 ≤ q.1 ∧ q.1 < nx ∧ 0 ≤ q.2 ∧ q.2 < ny) ∨ ∃ w ∈ ws, q ∈ w.run)

end Tomopt.Spec
