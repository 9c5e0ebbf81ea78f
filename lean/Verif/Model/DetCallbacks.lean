import Verif.Model.Basic
import Verif.Model.XF
import Mathlib.Data.Sign.Basic
import Mathlib.Analysis.SpecialFunctions.Pow.Real
import Mathlib.Analysis.SpecialFunctions.Log.Base

/-
Model of the callbacks that act on detectors: optimisation/callbacks/detector_callbacks.py and grad_callbacks.py.
-/
namespace Tomopt

noncomputable section

namespace DetCb

/- PanelUpdateLimiter. -/

/-- the learnable parameters of a panel -/
structure Par where
  xy : ℝ × ℝ
  z : ℝ
  span : ℝ × ℝ

/-- detector_callbacks.py 86-91: maximal steps, None meaning no limit -/
structure Limits where
  xy : Option (ℝ × ℝ)
  z : Option ℝ
  span : Option (ℝ × ℝ)

/-- 114-118 (and 121-124, 127-132): `torch.where(delta.abs() > m, old + sign(delta) * m, new)` for one coordinate -/
def limit (m old new : ℝ) : ℝ :=
  if |new - old| > m then old + (SignType.sign (new - old) : ℝ) * m else new

def limit2 (m old new : ℝ × ℝ) : ℝ × ℝ := (limit m.1 old.1 new.1, limit m.2 old.2 new.2)

/-- 113-132: one panel -/
def limitPar (l : Limits) (old new : Par) : Par :=
  { xy := match l.xy with
      | none => new.xy
      | some m => limit2 m old.xy new.xy
    z := match l.z with
      | none => new.z
      | some m => limit m old.z new.z
    span := match l.span with
      | none => new.span
      | some m => limit2 m old.span new.span }

/-- 102-133 `on_step_end`: `old` was recorded by `on_backwards_end` (93-100) for all panels of all panel layers, in order. -/
def limitAll (l : Limits) : List Par → List Par → Except Err (List Par)
  | _, [] => .ok []
  | [], _ :: _ => .error .indexError
  | o :: os, p :: ps =>
    match limitAll l os ps with
    | .error e => .error e
    | .ok r => .ok (limitPar l o p :: r)

/- PanelCentring. Positions live in a store of tensors; a panel holds the address of its position. -/

/-- The store of positions and the address of each panel of a layer. -/
structure Layer where
  store : List (ℝ × ℝ)
  addr : List Nat

/-- position of the panel with address `a` -/
def Layer.get (l : Layer) (a : Nat) : ℝ × ℝ := l.store[a]?.getD (0, 0)

/-- what the panels of the layer look like -/
def Layer.view (l : Layer) : List (ℝ × ℝ) := l.addr.map l.get

/-- `np.mean(xy, 0)` -/
def meanXY (xs : List (ℝ × ℝ)) : ℝ × ℝ := ((xs.map (·.1)).sum / xs.length, (xs.map (·.2)).sum / xs.length)

/-- 150-157: `mean_xy` is one new tensor, which becomes the data of *every* panel -/
def Layer.centre (l : Layer) : Layer :=
  ⟨l.store ++ [meanXY l.view], l.addr.map fun _ => l.store.length⟩

/-- a detector layer: one with panels or another kind -/
inductive Det
  | panels (l : Layer)
  | otherKind

/-- 145-159 `on_step_end` -/
def centreAll : List Det → Except Err Unit × List Det
  | [] => (.ok (), [])
  | .otherKind :: ds => (.error .notImplemented, .otherKind :: ds)
  | .panels l :: ds => let r := centreAll ds; (r.1, .panels l.centre :: r.2)

/-- A step of an optimiser (in place, as torch's optimisers do): each panel's position is moved by its own amount, one after another. -/
def Layer.step (l : Layer) (ds : List (ℝ × ℝ)) : Layer :=
  { l with store := (l.addr.zip ds).foldl (fun st ad => st.modify ad.1 fun p => (p.1 + ad.2.1, p.2 + ad.2.2)) l.store }

/- NoMoreNaNs. -/

/-- `torch.nan_to_num_(g, 0)`: NaN becomes 0, infinities the largest finite numbers `±M` -/
def nanToNum (M : ℝ) : XF → XF
  | .num x => .num x
  | .nan => .num 0
  | .pinf => .num M
  | .ninf => .num (-M)

/-- a gradient tensor; `none` if there is none: `nan_to_num_(None)` raises TypeError -/
def fixGrad (M : ℝ) : Option (List XF) → Except Err (Option (List XF))
  | none => .error .typeError
  | some g => .ok (some (g.map (nanToNum M)))

/-- gradients, one after another; the first that does not exist raises -/
def fixGrads (M : ℝ) : List (Option (List XF)) → Except Err (List (Option (List XF)))
  | [] => .ok []
  | g :: gs =>
    match fixGrad M g with
    | .error e => .error e
    | .ok g =>
      match fixGrads M gs with
      | .error e => .error e
      | .ok gs => .ok (g :: gs)

/-- Gradients of one layer: those of its panels (`xy, z, xy_span`, or `mu, norm, sig, z` of heat maps), or another kind of layer. -/
inductive GDet
  | panels (gs : List (Option (List XF)))
  | otherKind

/-- the layers, in order -/
def fixDets (M : ℝ) : List GDet → Except Err (List GDet)
  | [] => .ok []
  | .otherKind :: _ => .error .notImplemented
  | .panels gs :: ds =>
    match fixGrads M gs with
    | .error e => .error e
    | .ok gs =>
      match fixDets M ds with
      | .error e => .error e
      | .ok ds => .ok (.panels gs :: ds)

/-- grad_callbacks.py 22-42 `on_backwards_end`; the budget weights (if the volume has them) come first. -/
def noMoreNaNs (M : ℝ) (budget : Option (Option (List XF))) (ds : List GDet) : Except Err (Option (Option (List XF)) × List GDet) :=
  match budget with
  | none =>
    match fixDets M ds with
    | .error e => .error e
    | .ok ds => .ok (none, ds)
  | some b =>
    match fixGrad M b with
    | .error e => .error e
    | .ok b =>
      match fixDets M ds with
      | .error e => .error e
      | .ok ds => .ok (some b, ds)

/- SigmoidPanelSmoothnessSchedule. -/

/-- `torch.logspace(log10 a, log10 b, n)[i]`; beyond the end indexing raises IndexError, a negative number of points RuntimeError.
With one point it is the start. -/
def logspace (a b : ℝ) (n : ℤ) (i : ℤ) : Except Err ℝ :=
  if n < 0 then .error .runtimeError
  else
    let j := if i < 0 then i + n else i
    if j < 0 ∨ n ≤ j then .error .indexError
    else if n = 1 then .ok ((10 : ℝ) ^ Real.logb 10 a)
    else .ok ((10 : ℝ) ^ (Real.logb 10 a + (Real.logb 10 b - Real.logb 10 a) * j / ((n : ℝ) - 1)))

/-- 33-39, 63-71: the smoothness in training epoch `e` (the first is 1) of `n`, of a schedule that was activated in epoch `act`; before that it is the
initial value (41-47). -/
def smoothAt (range : ℝ × ℝ) (n act e : Nat) : Except Err ℝ :=
  if e < act then .ok range.1
  else
    let offset : ℤ := (act : ℤ) - 1
    logspace range.1 range.2 ((n : ℤ) - offset) ((e : ℤ) - offset - 1)

end DetCb

end

end Tomopt
