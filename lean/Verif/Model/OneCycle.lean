import Verif.Model.Basic
import Mathlib.Analysis.SpecialFunctions.Trigonometric.Basic

/-
Model of optimisation/callbacks/opt_callbacks.py (AbsOptSchedule, OneCycle) for one of the two annealed quantities (learning rate or momentum: the code treats
them alike), all of whose values are given. The object is new (used for its first fit).
-/
namespace Tomopt

noncomputable section

namespace OneCycle

/-- 91-106: `warmup_length`, `init_lr`, `mid_lr`, `final_lr` -/
structure Cfg where
  warm : Nat
  init : ℝ
  mid : ℝ
  final : ℝ

/-- 91-106 `__init__`: the final value defaults to the initial one -/
def mk (warm : Nat) (init mid : ℝ) (final : Option ℝ) : Cfg := ⟨warm, init, mid, final.getD init⟩

/-- The facts of the fit that are used: number of epochs, and of updates per epoch (`len(trn_passives) // passive_bs`). -/
structure Fit where
  n : Nat
  k : Nat

/-- Attributes; `plan` are `n_epochs_expected` and `scale`, which do not exist before `_activate`; `lr` is the value in the optimiser. -/
structure St where
  active : Bool
  iter : Nat
  warming : Bool
  plan : Option (ℤ × ℤ)
  lr : ℝ

/-- 46-52 `on_train_begin` -/
def trainBegin (c : Cfg) : St := ⟨false, 0, false, none, c.init⟩

/-- 33-36, 115-119 `_activate`, in the epoch with the given number (the first is 1) -/
def activate (c : Cfg) (f : Fit) (epoch : Nat) (s : St) : St :=
  { s with active := true, warming := true, plan := some ((f.n : ℤ) - epoch + 1, (c.warm : ℤ) * f.k) }

/-- 121-140 `schedule` -/
def schedule (c : Cfg) (s : St) : Except Err ℝ :=
  match s.plan with
  | none => .error .attributeError
  | some (_, scale) =>
    if scale = 0 then .error .zeroDivision
    else
      let x := Real.cos (Real.pi * s.iter / scale) + 1
      let e := if s.warming then c.init else c.final
      .ok (c.mid - (c.mid - e) * x / 2)

/-- 54-61 `on_step_end` -/
def stepEnd (c : Cfg) (s : St) : Except Err St :=
  if s.active then
    let s := { s with iter := s.iter + 1 }
    match schedule c s with
    | .error e => .error e
    | .ok lr => .ok { s with lr := lr }
  else .ok s

/-- 108-113 `on_epoch_end` -/
def epochEnd (c : Cfg) (f : Fit) (epoch : Nat) (s : St) : Except Err St :=
  if (epoch : ℤ) - 1 = c.warm then
    match s.plan with
    | none => .error .attributeError
    | some (nExp, _) => .ok { s with iter := 0, warming := false, plan := some (nExp, (nExp - epoch + 1) * f.k) }
  else .ok s

/-- what can happen to the callback during a fit -/
inductive Op
  | activate (epoch : Nat)
  | step
  | epochEnd (epoch : Nat)

def apply (c : Cfg) (f : Fit) (s : St) : Op → Except Err St
  | .activate e => .ok (activate c f e s)
  | .step => stepEnd c s
  | .epochEnd e => epochEnd c f e s

/-- a sequence of events -/
def run (c : Cfg) (f : Fit) : List Op → St → Except Err St
  | [], s => .ok s
  | o :: os, s =>
    match apply c f s o with
    | .error e => .error e
    | .ok s => run c f os s

/-- one epoch of a fit: the updates, the end of the training epoch, and of the validation epoch if there is one -/
def epochOps (f : Fit) (val : Bool) (e : Nat) : List Op := List.replicate f.k .step ++ .epochEnd e :: if val then [.epochEnd e] else []

/-- the first `e` epochs of a fit without warm-ups: the callback is activated in the first -/
def fitOps (f : Fit) (val : Bool) (e : Nat) : List Op := .activate 1 :: (List.range e).flatMap fun i => epochOps f val (i + 1)

end OneCycle

end

end Tomopt
