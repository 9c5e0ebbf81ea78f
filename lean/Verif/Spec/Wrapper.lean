import Verif.Model.Wrapper

/-
Specification of the order of events of a fit, following the documentation of `Callback` (callback.py 27-92): what is called, in which order, as lists.
No loop, state or exception here: the number of epochs, the volumes, and what happened with each of them are given.
-/
namespace Tomopt

noncomputable section

namespace Fit.Spec

variable {V : Type}

/-- every callback is told about `e`, in the order of the list of callbacks -/
def evs (n : Nat) (e : Ev) : List (Act V) := (List.range n).map fun i => .cb i e

/-- One batch of muons. -/
def mu (n : Nat) : List (Act V) :=
  [.makeMuons] ++ evs n .muBegin ++ [.irradiate, .inferScatter] ++ evs n .scatterEnd ++ [.addScatters] ++ evs n .muEnd

/-- What came out of a volume: was there a prediction, and if so what is its loss. -/
structure Out where
  pred : Bool
  value : ℝ

/-- The loss a volume contributes: none without a prediction, or if losses are not computed. -/
def lossOf (counted : Bool) (o : Out) : Option ℝ := if counted = true ∧ o.pred = true then some o.value else none

/-- The fixed facts of a scan: number of callbacks, muon batches per volume, volumes per batch, are losses computed, is the detector updated. -/
structure Scan where
  n : Nat
  k : Nat
  b : Nat
  counted : Bool
  train : Bool

/-- One volume. -/
def vol (p : Scan) (x : V × Out) : List (Act V) :=
  [.load x.1] ++ evs p.n .volBegin ++ [.newInferrer] ++ (List.replicate p.k (mu p.n)).flatten ++ evs p.n .x0PredBegin ++ [.predict] ++ evs p.n .x0PredEnd ++
    [.havePred x.2.pred] ++ (lossOf p.counted x.2).toList.map .loss ++ evs p.n .volEnd

/-- The loss of a batch of `b` volumes: the sum of the losses there are, divided by `b`. -/
def batchLoss (b : Nat) (ls : List (Option ℝ)) : Option ℝ := if ∀ l ∈ ls, l = none then none else some ((ls.filterMap id).sum / b)

/-- One update of the detector. -/
def update (n : Nat) (m : Option ℝ) (skip : Bool) : List (Act V) :=
  [.zeroGrad] ++ evs n .backBegin ++ m.toList.map .backward ++ evs n .backEnd ++ (if m.isSome = true ∧ skip = false then [.step] else []) ++ evs n .stepEnd ++
    [.conform]

/-- One complete batch of volumes; `skip` says whether a callback asked to skip the step. -/
def batch (p : Scan) (xs : List (V × Out)) (skip : Bool) : List (Act V) :=
  evs p.n .volBatchBegin ++ xs.flatMap (vol p) ++ evs p.n .volBatchEnd ++
    if p.train then update p.n (batchLoss p.b (xs.map fun x => lossOf p.counted x.2)) skip else []

/-- All volumes of a training or validation epoch: complete batches only, except that fewer volumes than a batch are scanned without completing it. -/
def scan (p : Scan) (xs : List (V × Out)) (skips : Nat → Bool) : List (Act V) :=
  if xs.length < p.b then (if xs = [] then [] else evs p.n .volBatchBegin) ++ xs.flatMap (vol p)
  else (List.range (xs.length / p.b)).flatMap fun j => batch p ((xs.drop (j * p.b)).take p.b) (skips j)

/-- All volumes of a prediction. -/
def scanTest (p : Scan) (xs : List (V × Out)) : List (Act V) := xs.flatMap (vol p)

/-- What happened in an epoch: outcomes of the training volumes, steps skipped, outcomes of the validation volumes. -/
structure EpochRec (V : Type) where
  trn : List (V × Out)
  skips : Nat → Bool
  val : List (V × Out)

/-- One epoch. -/
def epoch (p : Scan) (hasVal : Bool) (r : EpochRec V) : List (Act V) :=
  [.volMode true] ++ evs p.n .epochBegin ++ scan { p with train := true } r.trn r.skips ++ evs p.n .epochEnd ++
    if hasVal then [.volMode false] ++ evs p.n .epochBegin ++ scan { p with train := false } r.val (fun _ => false) ++ evs p.n .epochEnd else []

/-- A whole fit. -/
def fit (p : Scan) (hasVal : Bool) (rs : List (EpochRec V)) : List (Act V) :=
  evs p.n .setWrapper ++ evs p.n .trainBegin ++ rs.flatMap (epoch p hasVal) ++ evs p.n .trainEnd

/-- A whole prediction. -/
def predict (p : Scan) (xs : List (V × Out)) : List (Act V) :=
  evs p.n .setWrapper ++ [.volMode false] ++ evs p.n .predBegin ++ scanTest p xs ++ evs p.n .predEnd

/-- The records are about the given passive volumes. -/
def About (trn : List V) (val : Option (List V)) (r : EpochRec V) : Prop :=
  r.trn.map (·.1) = trn ∧ ∀ v, val = some v → r.val.map (·.1) = v

end Fit.Spec

end

end Tomopt
