import Verif.Model.Warmup
import Verif.Model.XF
import Mathlib.Data.Real.Basic
import Mathlib.Data.List.Sort

/-
Model of optimisation/callbacks/warmup_callbacks.py 86-190: `CostCoefWarmup` and `OptConfig`, the warm-ups that set the cost coefficient of the loss and the learning rates.
When they are active is the subject of Model/Warmup; here is what they record and set. Errors and gradients are exact reals; NaN gradients are `none`.
-/
namespace Tomopt

noncomputable section

open Classical in
/-- `numpy.sort` of numbers -/
def npSort (xs : List ℝ) : List ℝ := xs.mergeSort fun a b => decide (a ≤ b)

/-- `numpy.median`: the mean of the two middle elements (the same one twice for odd lengths), NaN for an empty list. -/
def npMedian (xs : List ℝ) : XF :=
  if xs = [] then .nan else .num (((npSort xs).getD ((xs.length - 1) / 2) 0 + (npSort xs).getD (xs.length / 2) 0) / 2)

/-- `numpy.nanmedian`: the median of the entries that are not NaN -/
def npNanMedian (xs : List (Option ℝ)) : XF := npMedian (xs.filterMap id)

namespace Warmup

/-! ### CostCoefWarmup -/

/-- The errors recorded so far and the coefficient of the loss (None until it is set). -/
structure Cost where
  errors : List ℝ
  coef : Option XF

/-- A volume: was there a prediction, and the inference error of the prediction. -/
abbrev VolErr := Bool × ℝ

/-- loss.py 124-151 (Model/Loss `forward`): the first evaluation of the loss sets the coefficient to the error, if it is not set. The loss is evaluated for volumes with a prediction. -/
def Cost.loss (v : VolErr) (c : Cost) : Cost := if v.1 then { c with coef := some (c.coef.getD (.num v.2)) } else c

/-- warmup_callbacks.py 100-108 `on_volume_end`, after the loss has been evaluated, for a training volume -/
def Cost.volumeEnd (act : Bool) (v : VolErr) (c : Cost) : Cost :=
  if act = false then c else if v.1 then { c with errors := c.errors ++ [v.2] } else c

/-- 110-122 `on_epoch_end` of a training epoch; `w` is the warm-up's own counter and activity during the epoch. -/
def Cost.epochEnd (w : Wu) (c : Cost) : Cost :=
  if w.act = false then c else if w.n ≤ w.cnt + 1 then { c with coef := some (npMedian c.errors) } else c

/-- One training epoch and the validation after it: `trn` and `val` are their volumes. In validation nothing is recorded. -/
def Cost.epoch (w : Wu) (trn val : List VolErr) (c : Cost) : Cost :=
  let c := trn.foldl (fun c v => (c.loss v).volumeEnd w.act v) c
  let c := c.epochEnd w
  val.foldl (fun c v => c.loss v) c

/-- A fit of `E` epochs with the callbacks `cs`, of which the `i`-th warm-up sets the coefficient; `ws` is how an earlier fit left the warm-ups, `vols e` are the volumes of epoch `e`.
96-98 `_reset` drops the errors recorded in an earlier fit; the coefficient of the loss stays. -/
def Cost.fit (cs : List Cb) (ws : List Wu) (i : Nat) (vols : Nat → List VolErr × List VolErr) (coef : Option XF) : Nat → Cost
  | 0 => ⟨[], coef⟩
  | e + 1 => (Cost.fit cs ws i vols coef e).epoch (((during cs ws e).2.ws[i]?).getD ⟨0, 0, false⟩) (vols e).1 (vols e).2

/-! ### OptConfig -/

/-- The gradient of a parameter after a backward pass: missing, or its entries (NaN is `none`). -/
abbrev Grad := Option (List (Option ℝ))

/-- `param.grad.abs()` -/
def gradAbs : Grad → Except Err (List (Option ℝ))
  | none => .error .attributeError
  | some g => .ok (g.map fun x => x.map fun y => |y|)

/-- the gradients of the parameters of one optimiser -/
def gradsAbs : List Grad → Except Err (List (List (Option ℝ)))
  | [] => .ok []
  | g :: gs =>
    match gradAbs g with
    | .error e => .error e
    | .ok a =>
      match gradsAbs gs with
      | .error e => .error e
      | .ok as => .ok (a :: as)

/-- State for one optimiser: the arrays recorded, and the learning rate of the optimiser. -/
structure Opt where
  stats : List (List (Option ℝ))
  lr : XF

/-- 155-165 `on_backwards_end` of a training batch, for one optimiser whose parameters have gradients `gs` -/
def Opt.backEnd (act : Bool) (gs : List Grad) (o : Opt) : Except Err Opt :=
  if act = false then .ok o else
    match gradsAbs gs with
    | .error e => .error e
    | .ok as => .ok { o with stats := o.stats ++ as }

/-- `numpy.nanmedian` of a list of arrays: arrays of different sizes cannot be stacked. -/
def nanMedianStack (v : List (List (Option ℝ))) : Except Err XF :=
  if ∀ a ∈ v, ∀ b ∈ v, a.length = b.length then .ok (npNanMedian v.flatten) else .error .valueError

/-- `rate / avg`, numpy scalars: division by zero gives an infinity -/
def rateOver (rate : ℝ) : XF → XF
  | .num a => XF.quot rate a
  | .nan => .nan
  | .pinf => .num 0
  | .ninf => .num 0

/-- 167-186 `on_epoch_end` of a training epoch, for one optimiser -/
def Opt.epochEnd (rate : ℝ) (w : Wu) (o : Opt) : Except Err Opt :=
  if w.act = false then .ok o else if w.n ≤ w.cnt + 1 then
    match nanMedianStack o.stats with
    | .error e => .error e
    | .ok avg => .ok { o with lr := rateOver rate avg }
  else .ok o

/-- all batches of a training epoch -/
def Opt.batches (act : Bool) : List (List Grad) → Opt → Except Err Opt
  | [], o => .ok o
  | gs :: rest, o =>
    match o.backEnd act gs with
    | .error e => .error e
    | .ok o => Opt.batches act rest o

/-- A fit of `E` epochs; `grads e` are the gradients after the backward passes of training epoch `e`. -/
def Opt.fit (rate : ℝ) (cs : List Cb) (ws : List Wu) (i : Nat) (grads : Nat → List (List Grad)) (lr : XF) : Nat → Except Err Opt
  | 0 => .ok ⟨[], lr⟩
  | e + 1 =>
    match Opt.fit rate cs ws i grads lr e with
    | .error x => .error x
    | .ok o =>
      let w := ((during cs ws e).2.ws[i]?).getD ⟨0, 0, false⟩
      match o.batches w.act (grads e) with
      | .error x => .error x
      | .ok o => o.epochEnd rate w

end Warmup

end

end Tomopt
