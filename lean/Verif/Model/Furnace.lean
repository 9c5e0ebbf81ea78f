import Verif.Model.Wrapper
import Verif.Model.XF
import Mathlib.Analysis.Real.Sqrt

/-
Callbacks for furnace volumes: /repo/tomopt/benchmarks/ladle_furnace/loss.py 48-74 and inference.py 393-427.
Simplification: a prediction is one number, as those of `PocaZLadleFurnaceInferrer` are (inference.py 390 `mean_z[None]`).
-/
namespace Tomopt

noncomputable section

namespace Spread

/-- `torch.mean` of a tensor that is not empty. -/
def mean (l : List ℝ) : ℝ := l.sum / l.length

/-- `torch.std`, unbiased: NaN (`none`) unless there are at least two values. -/
def std (l : List ℝ) : Option ℝ :=
  if l.length ≤ 1 then none else some (Real.sqrt ((l.map fun x => (x - mean l) ^ 2).sum / (l.length - 1)))

/-- loss.py 53-54 `_preds`: targets with the predictions made for them; `none` before the attribute exists. -/
abbrev St := Option (Dict ℝ (List (Option ℝ)))

/-- loss.py 53-54 `on_volume_batch_begin` -/
def batchBegin (_ : St) : St := some []

/-- loss.py 56-57 `on_x0_pred_end`, for the target of the volume (`none` if no target was loaded) and the prediction (`none` if the volume could not be scanned). -/
def predEnd (targ pred : Option ℝ) : St → Except Err St
  | none => .error .attributeError
  | some d =>
    match targ with
    | none => .error .attributeError
    | some t => .ok (some (d.modify t [] (· ++ [pred])))

/-- `torch.cat(preds)`: `None` among them is a `TypeError`. -/
def cat : List (Option ℝ) → Except Err (List ℝ)
  | [] => .ok []
  | none :: _ => .error .typeError
  | some x :: l =>
    match cat l with
    | .error e => .error e
    | .ok xs => .ok (x :: xs)

/-- loss.py 62-67: standard deviation and mean for every target predicted at least twice. -/
def stats : List (List (Option ℝ)) → Except Err (List (Option ℝ × ℝ))
  | [] => .ok []
  | ps :: l =>
    if ps.length < 2 then stats l
    else
      match cat ps with
      | .error e => .error e
      | .ok p =>
        match stats l with
        | .error e => .error e
        | .ok r => .ok ((std p, mean p) :: r)

/-- all numbers, or NaN -/
def allNum : List (Option ℝ) → Option (List ℝ)
  | [] => some []
  | none :: _ => none
  | some x :: l => (allNum l).map (x :: ·)

/-- loss.py 59-74 `on_volume_batch_end`: the new `mean_loss`. `torch.stack` of no tensors is a `RuntimeError`. -/
def batchEnd : St → Except Err XF
  | none => .error .attributeError
  | some d =>
    match stats (d.map (·.2)) with
    | .error e => .error e
    | .ok r =>
      if r = [] then .error .runtimeError
      else
        match allNum (r.map (·.1)), std (r.map (·.2)) with
        | some stds, some range => .ok (XF.quot (mean stds) range)
        | _, _ => .ok .nan

/-- the volumes of a batch, one after the other -/
def predEnds : List (Option ℝ × Option ℝ) → St → Except Err St
  | [], s => .ok s
  | v :: vs, s =>
    match predEnd v.1 v.2 s with
    | .error e => .error e
    | .ok s' => predEnds vs s'

/-- one volume batch of `fit`: volume_wrapper.py 551-569 -/
def batch (vols : List (Option ℝ × Option ℝ)) (s : St) : Except Err XF :=
  match predEnds vols (batchBegin s) with
  | .error e => .error e
  | .ok s' => batchEnd s'

end Spread

namespace LinCorr

/-- weight and bias of `nn.Linear(1, 1)` -/
structure Line where
  w : ℝ
  b : ℝ

/-- `self.linear(x)` -/
def Line.at (l : Line) (x : ℝ) : ℝ := l.w * x + l.b

/-- inference.py 398-402: the line, its gradient as left by earlier backward passes, the state of the optimiser, and the record of the batch (`none` before the attributes exist). -/
structure St (O : Type) where
  line : Line
  grad : ℝ × ℝ
  opt : O
  seen : Option (List ℝ × List ℝ)

/-- What happens to the callback. `back` is the backward pass of the wrapper, which adds to the gradient of the line since the predictions went through it. -/
inductive E
  | trainBegin
  | batchBegin (m : Fit.Mode)
  | predEnd (m : Fit.Mode) (pred targ : Option ℝ)
  | back (g : ℝ × ℝ)
  | backEnd

/-- `F.mse_loss(y_pred, y)` for one number per row -/
def mse (l : Line) (ps : List (ℝ × ℝ)) : ℝ := (ps.map fun p => (l.at p.1 - p.2) ^ 2).sum / ps.length

/-- what `loss.backward()` adds to the gradient: the partial derivatives of `mse` -/
def mseGrad (l : Line) (ps : List (ℝ × ℝ)) : ℝ × ℝ :=
  ((ps.map fun p => 2 * (l.at p.1 - p.2) * p.1).sum / ps.length, (ps.map fun p => 2 * (l.at p.1 - p.2)).sum / ps.length)

variable {O : Type} (opt : O → Line → ℝ × ℝ → O × Line)

/-- inference.py 422-427: one pass of the loop; `opt` is the step of the optimiser, given the gradient. -/
def pass (ps : List (ℝ × ℝ)) (s : St O) : St O :=
  let g : ℝ × ℝ := (0, 0)
  let g := (g.1 + (mseGrad s.line ps).1, g.2 + (mseGrad s.line ps).2)
  { s with opt := (opt s.opt s.line g).1, line := (opt s.opt s.line g).2, grad := g }

/-- inference.py 404-427. Returns the new prediction where there is one. -/
def step : E → St O → Except Err (Option ℝ × St O)
  | .trainBegin, s => .ok (none, s)
  | .batchBegin m, s => .ok (none, if m = .train then { s with seen := some ([], []) } else s)
  | .predEnd m pred targ, s =>
    if m = .train then
      match s.seen, pred, targ with
      | some r, some p, some t => .ok (some (s.line.at p), { s with seen := some (r.1 ++ [p], r.2 ++ [t]) })
      | _, _, _ => .error .attributeError
    else
      match pred with
      | some p => .ok (some (s.line.at p), s)
      | none => .error .typeError
  | .back g, s => .ok (none, { s with grad := (s.grad.1 + g.1, s.grad.2 + g.2) })
  | .backEnd, s =>
    match s.seen with
    | none => .error .attributeError
    | some r => if r.1 = [] then .error .runtimeError else .ok (none, (pass opt (r.1.zip r.2))^[10000] s)

/-- a history of events: the predictions handed on, in order, and the final state -/
def run : List E → St O → Except Err (List ℝ × St O)
  | [], s => .ok ([], s)
  | e :: es, s =>
    match step opt e s with
    | .error x => .error x
    | .ok (o, s') =>
      match run es s' with
      | .error x => .error x
      | .ok (os, s'') => .ok (o.toList ++ os, s'')

/-- plain gradient descent `torch.optim.SGD(lr)` without momentum -/
def sgd (lr : ℝ) (u : Unit) (l : Line) (g : ℝ × ℝ) : Unit × Line := (u, ⟨l.w - lr * g.1, l.b - lr * g.2⟩)

end LinCorr

end

end Tomopt
