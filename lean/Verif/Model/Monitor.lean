import Verif.Model.XF
import Verif.Model.Wrapper

/-
Model of optimisation/callbacks/monitors.py `MetricLogger` (what it records; plots are left out) and callbacks/eval_metric.py.
-/
namespace Tomopt

noncomputable section

namespace Fit

/-- `a + b` in floating point -/
def fadd : XF → XF → XF
  | .num x, .num y => .num (x + y)
  | .nan, _ => .nan
  | _, .nan => .nan
  | .pinf, .ninf => .nan
  | .ninf, .pinf => .nan
  | .pinf, _ => .pinf
  | _, .pinf => .pinf
  | .ninf, _ => .ninf
  | _, .ninf => .ninf

/-- `x / n` for a positive integer -/
def fdiv (x : XF) (n : Nat) : XF :=
  match x with
  | .num x => .num (x / n)
  | x => x

/-- `a <= b` in floating point -/
def fle : XF → XF → Prop
  | .nan, _ => False
  | _, .nan => False
  | .num x, .num y => x ≤ y
  | .ninf, _ => True
  | _, .pinf => True
  | _, _ => False

/-- `mean_loss.data.item() if mean_loss is not None else math.inf` (128, 137) -/
def itemOr : Option ℝ → XF
  | some x => .num x
  | none => .pinf

/-- monitors.py 79-104, 119: what a logger keeps -/
structure Logger where
  trn : List XF
  val : List XF
  best : XF
  tmp : XF
  cnt : Nat

open Classical in
/-- monitors.py 106-182: the interjections of the logger. (The names `tmp_loss`, `batch_cnt` first exist after `on_epoch_begin`; nothing reads them before.) -/
def logStep (e : Ev) (v : View) (l : Logger) : Except Err Logger :=
  match e with
  | .trainBegin => .ok ⟨[], [], .pinf, .num 0, 0⟩
  | .epochBegin => .ok { l with tmp := .num 0, cnt := 0 }
  | .backEnd => .ok (if v.mode = .train then { l with trn := l.trn ++ [itemOr v.meanLoss] } else l)
  | .volBatchEnd => .ok (if v.mode = .valid then { l with tmp := fadd l.tmp (itemOr v.meanLoss), cnt := l.cnt + 1 } else l)
  | .epochEnd =>
    if v.mode = .valid then
      if l.cnt = 0 then .error .zeroDivision
      else
        let x := fdiv l.tmp l.cnt
        .ok { l with val := l.val ++ [x], best := if fle x l.best then x else l.best }
    else .ok l
  | _ => .ok l

/-- Callback number `k` is a logger whose records are the part `lg` of the world, which nobody else changes. -/
structure Logs {W V P : Type} (E : Env W V P) (k : Nat) (lg : W → Logger) : Prop where
  self : ∀ e fp w, (E.cb k e fp w).1 = .ok () → logStep e (viewOf fp) (lg w) = .ok (lg (E.cb k e fp w).2.2)
  other : ∀ i e fp w, i ≠ k → lg (E.cb i e fp w).2.2 = lg w
  prim : ∀ a fp w, lg (E.prim a fp w).2 = lg w
  pred : ∀ fp w, lg (E.pred fp w).2 = lg w
  loss : ∀ p w, lg (E.loss p w).2 = lg w

/- Composition of the validation loss. -/

/-- monitors.py 106-122: sub-losses (`error`, `cost`) summed over the volumes with a prediction, and their number -/
def subTotals (vols : List (Option (ℝ × ℝ))) : (ℝ × ℝ) × Nat := vols.foldl addSub ((0, 0), 0)
where
  /-- monitors.py 112-118: one volume -/
  addSub (a : (ℝ × ℝ) × Nat) : Option (ℝ × ℝ) → (ℝ × ℝ) × Nat
    | none => a
    | some s => ((a.1.1 + s.1, a.1.2 + s.2), a.2 + 1)

/-- monitors.py 162-163: the fractions of `error` and `cost` in a validation loss `x`; `v / 0.0` of Python floats raises -/
def fractions (x : ℝ) (vols : List (Option (ℝ × ℝ))) : Except Err (ℝ × ℝ) :=
  let t := subTotals vols
  if x * t.2 = 0 then .error .zeroDivision else .ok (t.1.1 / (x * t.2), t.1.2 / (x * t.2))

/- Metrics. -/

/-- eval_metric.py 23-30: a metric -/
structure Metric where
  name : String
  lowerBetter : Bool
  main : Bool

/-- eval_metric.py 32-42 `on_train_begin` of the `i`-th metric -/
def metricBegin (ms : List Metric) (i : Nat) : List Metric :=
  match ms[i]? with
  | none => ms
  | some m => if m.main then (ms.map fun m => { m with main := false }).set i { m with main := true } else ms

/-- all metrics in the order of the callbacks -/
def metricsBegin (ms : List Metric) : List Metric := (List.range ms.length).foldl metricBegin ms

/-- monitors.py 93-101: the index of the main metric and whether it decides -/
def mainMetric (ms : List Metric) : Option Nat × Bool :=
  if ms.length > 0 then
    match ms.findIdx? (·.main) with
    | some i => (some i, true)
    | none => (some 0, false)
  else (none, false)

/-- monitors.py 176-182: loss and signed metric of the last validation epoch -/
def epochResult (ms : List Metric) (vals : List (List ℝ)) (loss : XF) : Option (XF × Option ℝ) :=
  match mainMetric ms with
  | (some i, true) =>
    match ms[i]?, (vals[i]?).bind (·.getLast?) with
    | some m, some x => some (loss, some (if m.lowerBetter then x else x * -1))
    | _, _ => none
  | _ => some (loss, none)

/-- index of the first smallest entry, starting with the best so far at index `b`, and looking at index `i` next -/
def argminFrom (b : Nat) (x : ℝ) : Nat → List ℝ → Nat
  | _, [] => b
  | i, y :: ys => if y < x then argminFrom i y (i + 1) ys else argminFrom b x (i + 1) ys

/-- `np.nanargmin` of numbers: ValueError without entries -/
def argmin : List ℝ → Except Err Nat
  | [] => .error .valueError
  | x :: xs => .ok (argminFrom 0 x 1 xs)

/-- `np.nanargmax` -/
def argmax (xs : List ℝ) : Except Err Nat := argmin (xs.map (- ·))

/-- monitors.py 266-286 `get_results`, for finite losses and metrics with one value per validation epoch: loss and metrics of the chosen epoch.
`metric_cbs` is the list remembered at the end of the training (242). -/
def getResults (ms : List Metric) (losses : List ℝ) (vals : List (List ℝ)) (loadedBest : Bool) : Except Err (ℝ × List (String × ℝ)) :=
  let idx : Except Err Nat :=
    if loadedBest then
      match mainMetric ms with
      | (some i, true) => (match ms[i]?, vals[i]? with
        | some m, some v => if m.lowerBetter then argmin v else argmax v
        | _, _ => .error .indexError)
      | _ => argmin losses
    else if losses = [] then .error .indexError else .ok (losses.length - 1)
  match idx with
  | .error e => .error e
  | .ok i =>
    match losses[i]? with
    | none => .error .indexError
    | some l => .ok (l, List.zipWith (fun m v => (m.name, (v[i]?).getD 0)) ms vals)

end Fit

end

end Tomopt
