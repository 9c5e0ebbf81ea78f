import Verif.Model.Basic
import Verif.Model.XF
import Mathlib.Analysis.SpecialFunctions.Exp
import Mathlib.Algebra.BigOperators.Group.List.Basic

/-
Model of optimisation/loss/loss.py and sub_losses.py, and of the conversions in tomopt/utils.py.
-/
namespace Tomopt

noncomputable section

namespace Loss

/-- `torch.sigmoid` -/
def sigmoid (x : ℝ) : ℝ := 1 / (1 + Real.exp (-x))

/-- loss.py 98-121 `_get_budget_coef` for a budget `b ≠ 0`, smoothing `s`, of a detector with cost `c` -/
def budgetNum (steep : Bool) (b s c : ℝ) : ℝ :=
  if steep then
    let d := s * (c - b) / b
    if d ≤ 0 then 2 * sigmoid d else 1 + d / 2
  else
    let d := c - b
    2 * sigmoid (s * d / b) + max d 0 / b

/-- loss.py 98-121 `_get_budget_coef`; `none` is a loss without budget. For budget zero (smoothing positive) floating-point division by `+0.0`:
`d` is NaN for cost zero (and the comparison false), infinite for positive cost; costs are not negative. -/
def budgetCoef (steep : Bool) (b : Option ℝ) (s c : ℝ) : XF :=
  match b with
  | none => .num 0
  | some b => if b = 0 then (if c > 0 then .pinf else .nan) else .num (budgetNum steep b s c)

/-- The state of a loss that changes: `cost_coef` (55-63). -/
structure CostState where
  coef : Option ℝ

/-- One evaluation (81-96, 123-153): inference error `err` and cost `c` give the components `error` and `cost`; the coefficient is set to the first error. -/
def forward (steep : Bool) (b : Option ℝ) (s : ℝ) (st : CostState) (err c : ℝ) : CostState × ℝ × XF :=
  let k := st.coef.getD err
  (⟨some k⟩, err, match budgetCoef steep b s c with
    | .num x => .num (x * k)
    | .nan => .nan
    | .pinf => if k > 0 then .pinf else if k < 0 then .ninf else .nan
    | .ninf => if k > 0 then .ninf else if k < 0 then .pinf else .nan)

/-- a history of evaluations; the coefficient can also be set from outside (`CostCoefWarmup`, warmup_callbacks.py 120) -/
inductive LossOp
  | eval (err c : ℝ)
  | setCoef (k : ℝ)

def runLoss (steep : Bool) (b : Option ℝ) (s : ℝ) : List LossOp → CostState → CostState × List (ℝ × XF)
  | [], st => (st, [])
  | .eval err c :: os, st =>
    let r := forward steep b s st err c
    let q := runLoss steep b s os r.1
    (q.1, r.2 :: q.2)
  | .setCoef k :: os, _ => runLoss steep b s os ⟨some k⟩

/-- `F.mse_loss(pred, true, reduction="mean")` (182-195, 420-438) for tensors of the same shape, flattened; mean over nothing is NaN. -/
def mse (pred targ : List ℝ) : XF :=
  if pred.length = 0 then .nan else .num ((List.zipWith (fun p t => (p - t) ^ 2) pred targ).sum / pred.length)

/- Integer class loss. -/

/-- sub_losses.py 47-52: distance of an integer from the target -/
def gap (useMse : Bool) (d : ℤ) : ℝ := if useMse then (d : ℝ) ^ 2 else |(d : ℝ)|

/-- sub_losses.py 52-54 for one row: normalised distances times probabilities, summed. `0/0` is NaN. -/
def iclRow (ds probs : List ℝ) : XF :=
  if ds.sum = 0 then .nan else .num ((List.zipWith (fun d p => d / ds.sum * p) ds probs).sum)

/-- the integers `start, start+1, …` of the classes (46) -/
def ints (start : ℤ) (n : Nat) : List ℤ := (List.range n).map fun i : Nat => start + (i : ℤ)

/-- Targets as documented, a tensor of shape (N,), or with a trailing dimension, shape (N, 1). -/
inductive Targets
  | flat (ts : List ℤ)
  | col (ts : List ℤ)

/-- 47: `target_int - ints`, by torch's broadcasting rules: the distances used for each of `n` rows of predictions over `c > 1` classes. A flat target is aligned
with the classes. -/
def diffs (useMse : Bool) (start : ℤ) (n c : Nat) : Targets → Except Err (List (List ℝ))
  | .col ts =>
    if ts.length = n then .ok (ts.map fun t => (ints start c).map fun k => gap useMse (t - k))
    else .error .runtimeError
  | .flat ts =>
    match ts with
    | [t] => .ok (List.replicate n ((ints start c).map fun k => gap useMse (t - k)))
    | ts =>
      if ts.length = c then .ok (List.replicate n (List.zipWith (fun t k => gap useMse (t - k)) ts (ints start c)))
      else .error .runtimeError

/-- sub_losses.py 13-55 without weights: the unreduced losses of `probs` (rows of `c > 1` probabilities) -/
def iclRows (useMse : Bool) (start : ℤ) (c : Nat) (probs : List (List ℝ)) (targ : Targets) : Except Err (List XF) :=
  match diffs useMse start probs.length c targ with
  | .error e => .error e
  | .ok ds => .ok (List.zipWith iclRow ds probs)

inductive Weight
  | none
  | flat (ws : List ℝ)
  | col (ws : List ℝ)

/-- 56-57: `loss * weight` for losses of shape (N, 1) (here numbers): a flat weight of N entries broadcasts to N×N values -/
def weigh (ls : List ℝ) : Weight → Except Err (List (List ℝ))
  | .none => .ok (ls.map fun l => [l])
  | .col ws => if ws.length = ls.length then .ok (List.zipWith (fun l w => [l * w]) ls ws) else .error .runtimeError
  | .flat ws => .ok (ls.map fun l => ws.map fun w => l * w)

inductive Red
  | tensor (x : List (List ℝ))
  | scalar (x : ℝ)

/-- 59-65: the reductions -/
def reduce (x : List (List ℝ)) (reduction : String) : Except Err Red :=
  if reduction = "mean" then .ok (.scalar (x.flatten.sum / x.flatten.length))
  else if reduction = "sum" then .ok (.scalar x.flatten.sum)
  else if reduction = "none" then .ok (.tensor x)
  else .error .valueError

/- Conversions between X0 and classes. -/

/-- `min(x02id, key=lambda x: abs(x - x0))`: the first of the closest keys (of a non-empty dictionary; `min` of an empty one raises) -/
def nearest (x0 : ℝ) : ℝ × Int → List (ℝ × Int) → ℝ × Int
  | best, [] => best
  | best, e :: es => if |e.1 - x0| < |best.1 - x0| then nearest x0 e es else nearest x0 best es

/-- the class id of an X0 -/
def classOf (tab : List (ℝ × Int)) (x0 : ℝ) : Except Err Int :=
  match tab with
  | [] => .error .valueError
  | e :: es => .ok (nearest x0 e es).2

/-- loss.py 286-288, 338-340: `for x0 in targ.unique(): targ[targ == x0] = id of x0`, in place; `us` are the values still to be handled -/
def relabelFrom (tab : List (ℝ × Int)) : List ℝ → List ℝ → Except Err (List ℝ)
  | [], ts => .ok ts
  | u :: us, ts =>
    match classOf tab u with
    | .error e => .error e
    | .ok i => relabelFrom tab us (ts.map fun t => if t = u then (i : ℝ) else t)

/-- the distinct values in increasing order (`torch.unique`, `np.unique`) -/
def unique (ts : List ℝ) : List ℝ := (ts.dedup).mergeSort (fun a b => decide (a ≤ b))

/-- loss.py 285-289 / 337-341: the targets as class ids, before truncation to integers -/
def relabel (tab : List (ℝ × Int)) (ts : List ℝ) : Except Err (List ℝ) := relabelFrom tab (unique ts) ts

/-- utils.py 80-83 `x0targs_to_classtargs`: the result goes to a fresh array, starting with zeros -/
def classTargsFrom (tab : List (ℝ × Int)) (ts : List ℝ) : List ℝ → List ℝ → Except Err (List ℝ)
  | [], out => .ok out
  | u :: us, out =>
    match classOf tab u with
    | .error e => .error e
    | .ok i => classTargsFrom tab ts us (List.zipWith (fun t o => if t = u then (i : ℝ) else o) ts out)

def classTargs (tab : List (ℝ × Int)) (ts : List ℝ) : Except Err (List ℝ) := classTargsFrom tab ts (unique ts) (ts.map fun _ => 0)

/-- utils.py 42-57 `class_to_x0preds`: KeyError for an id that is not in the table. (The code goes through the distinct ids, the result is the same.) -/
def x0Preds (tab : List (Int × ℝ)) (is : List Int) : Except Err (List ℝ) :=
  match is with
  | [] => .ok []
  | i :: is =>
    match tab.lookup i with
    | none => .error .keyError
    | some x =>
      match x0Preds tab is with
      | .error e => .error e
      | .ok xs => .ok (x :: xs)

/- Mixtures. -/

/-- utils.py 86-127 `x0_from_mixture`, for lists of the same length with positive X0s and densities: X0 and density. Fractions that add up to
zero give `0/0` (or, with both signs, `∞ - ∞`): NaN; without any component `1/0` is infinite and `∞/∞` NaN. -/
def mixture (x0s rhos : List ℝ) (wf vf : Option (List ℝ)) : Except Err (XF × XF) :=
  match wf, vf with
  | none, none => .error .valueError
  | some _, some _ => .error .valueError
  | some w, none => .ok (mixed x0s rhos w)
  | none, some v => .ok (mixed x0s rhos (List.zipWith (· * ·) rhos v))
where
  /-- utils.py 120-126 -/
  mixed (x0s rhos ws : List ℝ) : XF × XF :=
    if ws = [] then (.nan, .pinf)
    else if ws.sum = 0 then (.nan, .nan)
    else
      let ws := ws.map (· / ws.sum)
      let x0rho := 1 / (List.zipWith (· / ·) ws (List.zipWith (· * ·) x0s rhos)).sum
      let rho := 1 / (List.zipWith (· / ·) ws rhos).sum
      (.num (x0rho / rho), .num rho)

end Loss

end

end Tomopt
