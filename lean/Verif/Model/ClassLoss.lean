import Verif.Model.Loss
import Mathlib.Analysis.SpecialFunctions.Log.Basic
import Mathlib.Algebra.Order.Floor.Ring

/-
Model of the losses for classification in optimisation/loss/loss.py: `VoxelClassLoss` and `VolumeClassLoss`. Targets are converted as in Model/Loss (`relabel`).
Predictions of shape (1, classes, voxels) are lists of rows, one row of voxels for every class.
-/
namespace Tomopt

noncomputable section

namespace ClassLoss

open Loss

/-- `pred[0, t, v]` -/
def entry (pred : List (List ℝ)) (t : ℤ) (v : Nat) : ℝ := (pred.getD t.toNat []).getD v 0

/-- `Tensor.long()` (loss.py 289, 341) cuts off digits after the point -/
def toLong (x : ℝ) : ℤ := if 0 ≤ x then ⌊x⌋ else ⌈x⌉

/-- torch's `nll_loss`: the predictions for the targets, from voxel `v` on. Targets of -100 are left out (`ignore_index`, by default), others that are not a class raise
IndexError. -/
def picked (pred : List (List ℝ)) : Nat → List ℤ → Except Err (List ℝ)
  | _, [] => .ok []
  | v, t :: ts =>
    if t = -100 then picked pred (v + 1) ts
    else if t < 0 ∨ (pred.length : ℤ) ≤ t then .error .indexError
    else
      match picked pred (v + 1) ts with
      | .error e => .error e
      | .ok xs => .ok (entry pred t v :: xs)

/-- `F.nll_loss(pred, targets, reduction="mean")` (loss.py 290, 341); other numbers of voxels than targets raise, and the mean of nothing is NaN. -/
def nll (pred : List (List ℝ)) (ts : List ℤ) : Except Err XF :=
  if pred.any fun r => r.length ≠ ts.length then .error .valueError
  else
    match picked pred 0 ts with
    | .error e => .error e
    | .ok xs => .ok (if xs.length = 0 then .nan else .num (-(xs.sum / xs.length)))

/-- loss.py 273-290 `VoxelClassLoss._get_inference_loss`; `cube` is `volume.get_rad_cube()`, a new tensor -/
def voxelClassLoss (tab : List (ℝ × Int)) (pred : List (List ℝ)) (cube : List (List (List ℝ))) : Except Err XF :=
  match relabel tab cube.flatten.flatten with
  | .error e => .error e
  | .ok ts => nll pred (ts.map toLong)

/-- the logarithm in torch's `binary_cross_entropy`: not below -100 -/
def clog (p : ℝ) : ℝ := if p ≤ 0 then -100 else max (Real.log p) (-100)

/-- binary cross-entropy of one prediction -/
def bceOne (p t : ℝ) : ℝ := (t - 1) * clog (1 - p) - t * clog p

/-- `F.binary_cross_entropy(pred, targets, reduction="mean")` (loss.py 341): other numbers of predictions than targets raise ValueError, predictions outside of [0, 1] raise
RuntimeError. Simplification: newer versions of torch also raise for targets outside of [0, 1]; the theorems have targets 0 and 1. -/
def bce (ps ts : List ℝ) : Except Err XF :=
  if ps.length ≠ ts.length then .error .valueError
  else if ps.any fun p => p < 0 ∨ 1 < p then .error .runtimeError
  else .ok (if ps.length = 0 then .nan else .num ((List.zipWith bceOne ps ts).sum / ps.length))

/-- loss.py 325-341 `VolumeClassLoss._get_inference_loss`. Predictions are of shape (1, classes, n) with a target of shape (1, n), or of shape (1, classes) with a target of
shape (1) as passive generators make it (n = 1 here). Other combinations of shapes are left out. -/
def volumeClassLoss (tab : List (ℝ × Int)) (pred : List (List ℝ)) (target : List ℝ) : Except Err XF :=
  match relabel tab target with
  | .error e => .error e
  | .ok ts => if pred.length > 1 then nll pred (ts.map toLong) else bce (pred.headD []) ts

end ClassLoss

end

end Tomopt
