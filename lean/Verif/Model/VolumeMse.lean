import Verif.Model.Basic
import Verif.Model.XF
import Mathlib.Data.List.Forall2
import Mathlib.Algebra.BigOperators.Ring.List

/-
Model of optimisation/loss/loss.py 420-438: the squared-error loss of predictions against the target of a volume, with the broadcasting of shapes done by `F.mse_loss`.
-/
namespace Tomopt

noncomputable section

namespace Mse

/-- a tensor: its sizes, last dimension first, and its value at every index (also last dimension first) -/
structure Tensor where
  dims : List Nat
  at' : List Nat → ℝ

/-- `torch.broadcast_tensors`, called by `F.mse_loss`: the sizes (last first) of two tensors are matched from the last dimension on; `none` if they do not fit -/
def bcast : List Nat → List Nat → Option (List Nat)
  | [], bs => some bs
  | as, [] => some as
  | a :: as, b :: bs =>
    if a = b ∨ b = 1 then (bcast as bs).map (a :: ·)
    else if a = 1 then (bcast as bs).map (b :: ·)
    else none

/-- all indices of a tensor with these sizes -/
def indices : List Nat → List (List Nat)
  | [] => [[]]
  | d :: ds => (List.range d).flatMap fun i => (indices ds).map (i :: ·)

/-- the index in a tensor with sizes `dims` that belongs to an index of the broadcast tensor -/
def align : List Nat → List Nat → List Nat
  | [], _ => []
  | d :: ds, is => (if d = 1 then 0 else is.headD 0) :: align ds is.tail

/-- loss.py 437-438: `F.mse_loss(pred, targ, reduction="mean")`; sizes that do not fit give RuntimeError, the mean over no entries is NaN -/
def mse (p t : Tensor) : Except Err XF :=
  match bcast p.dims t.dims with
  | none => .error .runtimeError
  | some ds =>
    let xs := (indices ds).map fun i => (p.at' (align p.dims i) - t.at' (align t.dims i)) ^ 2
    .ok (if xs.length = 0 then .nan else .num (xs.sum / xs.length))

/-- loss.py 425-438 `_get_inference_loss`; a volume without target has `None`, which has no `clone` -/
def inferenceLoss (p : Tensor) (target : Option Tensor) : Except Err XF :=
  match target with
  | none => .error .attributeError
  | some t => mse p t

end Mse

end

end Tomopt
