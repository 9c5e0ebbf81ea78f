import Verif.Model.Infer
import Verif.Model.Classifier

/-
Model of inferrers that convert the predictions of an X0 inferrer which they own: inference/volume.py 743-851 `DenseBlockClassifierFromX0s` and 854-947
`AbsIntClassifierFromX0` with benchmarks/ladle_furnace/inference.py 17-122 `EdgeDetLadleFurnaceFillLevelInferrer`. The X0 inferrer is that of Model/Infer.
-/
namespace Tomopt

noncomputable section

namespace Composite

open Infer

/-- What is fixed: the X0 inferrer and the conversion of its predictions, which is also given `None`. -/
structure Conf (R : Type) where
  inner : Infer.Conf
  head : Option (List (List (List XF))) → Except Err R

variable {R : Type}

/-- volume.py 797-804, 898-905 `add_scatters`: handed on; the list `scatter_batches` of the classifier itself stays empty -/
def addScatters (s : St) (b : ScVars) : St := Infer.addScatters s b

/-- volume.py 806-817, 907-918 `compute_efficiency`: handed on -/
def efficiency (c : Conf R) (b : ScVars) : Except Err (List ℝ) := c.inner.eff b

/-- volume.py 819-844, 920-940 `get_prediction` -/
def getPrediction (c : Conf R) (s : St) : St × Except Err R :=
  match Infer.getPrediction c.inner s with
  | (s, .error e) => (s, .error e)
  | (s, .ok p) => (s, c.head p)

/-- volume.py 846-851, 942-947 `_reset_vars`, with 203-214: forgets what was computed, not the scatters -/
def resetVars (s : St) : St := { St.init with batches := s.batches }

/-- what a user can do -/
inductive Op where
  | add (b : ScVars)
  | prediction
  | efficiency (b : ScVars)
  | reset

/-- the answers -/
inductive Ans (R : Type) where
  | done
  | pred (r : Except Err R)
  | eff (r : Except Err (List ℝ))

def step (c : Conf R) (s : St) : Op → St × Ans R
  | .add b => (addScatters s b, .done)
  | .prediction => let r := getPrediction c s; (r.1, .pred r.2)
  | .efficiency b => (s, .eff (efficiency c b))
  | .reset => (resetVars s, .done)

/-- a history of operations and its answers -/
def run (c : Conf R) : St → List Op → List (Ans R)
  | _, [] => []
  | s, o :: os => let r := step c s o; r.2 :: run c r.1 os

/-- the numbers of a finite prediction -/
def nums (x : List (List (List XF))) : Option Classify.Vol :=
  if x.all (fun p => p.all fun r => r.all XF.isFinite) then
    some (x.map fun p => p.map fun r => r.map fun v => match v with | .num a => a | _ => 0)
  else none

/-- volume.py 819-844: the statistic of the dense block. Simplification: infinite X0 are not followed, the answer is then `none`. -/
def denseHead (d : Classify.DenseBlock) : Option (List (List (List XF))) → Except Err (Option ℝ)
  | none => (d.predict none).map some
  | some x =>
    match nums x with
    | none => .ok none
    | some v => (d.predict (some v)).map some

/-- what `AbsIntClassifierFromX0` returns: probabilities, a class, or a number made of the class -/
inductive Out
  | probs (p : Classify.Probs)
  | cls (k : Nat)
  | float (x : ℝ)

/-- volume.py 933-940 after `x02probs`; the argmax of a single number is 0 -/
def intOut (outputProbs : Bool) (class2float : Option (Nat → ℝ)) (p : Classify.Probs) : Out :=
  if outputProbs then .probs p
  else
    let k := match p with
      | .classes q => Classify.argmax q
      | .single _ => 0
    match class2float with
    | none => .cls k
    | some f => .float (f k)

/-- volume.py 920-940 with inference.py 114-122 (with a batch dimension added): indexing `None` is a TypeError. Simplification as in `denseHead`, and for pipelines that
produce NaN. -/
def intHead (pipeline : List Classify.Step) (outputProbs : Bool) (class2float : Option (Nat → ℝ)) : Option (List (List (List XF))) → Except Err (Option Out)
  | none => .error .typeError
  | some x =>
    match nums x with
    | none => .ok none
    | some v =>
      match Classify.x02probs pipeline v with
      | .error e => .error e
      | .ok p => .ok (p.map (intOut outputProbs class2float))

end Composite

end

end Tomopt
