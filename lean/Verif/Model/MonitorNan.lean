import Verif.Model.Monitor
import Mathlib.Data.EReal.Operations

/-
Model of optimisation/callbacks/monitors.py 150-170 and 266-286 for losses and metrics that may be NaN or infinite.
-/
namespace Tomopt

noncomputable section

namespace Fit

/-- a value in order, with `nan` in place of NaN -/
def ordered (nan : EReal) : XF → EReal
  | .num x => x
  | .nan => nan
  | .pinf => ⊤
  | .ninf => ⊥

def isNan : XF → Bool
  | .nan => true
  | _ => false

/-- index of the first smallest entry, starting with the best so far at index `b`, and looking at index `i` next -/
def firstMinFrom (b : Nat) (x : EReal) : Nat → List EReal → Nat
  | _, [] => b
  | i, y :: ys => if y < x then firstMinFrom i y (i + 1) ys else firstMinFrom b x (i + 1) ys

/-- `np.argmin`: ValueError without entries -/
def firstMin : List EReal → Except Err Nat
  | [] => .error .valueError
  | x :: xs => .ok (firstMinFrom 0 x 1 xs)

/-- `np.nanargmin`: NaN is replaced by plus infinity; ValueError without entries or if all are NaN -/
def nanargmin (xs : List XF) : Except Err Nat :=
  if xs.all isNan then .error .valueError else firstMin (xs.map (ordered ⊤))

/-- `np.nanargmax`: NaN is replaced by minus infinity -/
def nanargmax (xs : List XF) : Except Err Nat :=
  if xs.all isNan then .error .valueError else firstMin (xs.map fun x => -ordered ⊥ x)

/-- monitors.py 266-286 `get_results` with one value of every metric per validation epoch -/
def getResultsX (ms : List Metric) (losses : List XF) (vals : List (List XF)) (loadedBest : Bool) : Except Err (XF × List (String × XF)) :=
  let idx : Except Err Nat :=
    if loadedBest then
      match mainMetric ms with
      | (some i, true) => (match ms[i]?, vals[i]? with
        | some m, some v => if m.lowerBetter then nanargmin v else nanargmax v
        | _, _ => .error .indexError)
      | _ => nanargmin losses
    else if losses.length = 0 then .error .indexError else .ok (losses.length - 1)
  match idx with
  | .error e => .error e
  | .ok i =>
    match losses[i]? with
    | none => .error .indexError
    | some l => .ok (l, List.zipWith (fun m v => (m.name, (v[i]?).getD .nan)) ms vals)

/-- `a <= b` of python floats -/
def leX (a b : XF) : Bool := !isNan a && !isNan b && decide (ordered ⊤ a ≤ ordered ⊤ b)

/-- monitors.py 86, 167-168: the best loss, epoch after epoch -/
def bestLoss (losses : List XF) : XF := losses.foldl (fun best l => if leX l best then l else best) .pinf

end Fit

end

end Tomopt
