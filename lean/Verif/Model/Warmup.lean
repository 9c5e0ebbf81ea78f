import Verif.Model.Basic
import Mathlib.Data.Real.Basic

/-
Model of optimisation/callbacks/warmup_callbacks.py: callbacks that freeze the optimisation at the start of training, and callbacks that wait for them.
-/
namespace Tomopt

namespace Warmup

/-- The state of one `WarmupCallback`: requested epochs, epochs done, `warmup_active`. -/
structure Wu where
  n : Nat
  cnt : Nat
  act : Bool
  deriving DecidableEq, Repr

/-- What the warm-ups share: the list `fit_params.warmup_cbs` and `fit_params.skip_opt_step`. -/
structure St where
  ws : List Wu
  skip : Bool
  deriving DecidableEq, Repr

/-- warmup_callbacks.py 48-56 `check_warmups`: the loop, from some callback to the last. The second result says whether the flag is unset. -/
def scan : List Wu → List Wu × Bool
  | [] => ([], false)
  | c :: rest =>
    if c.act = true ∧ c.n ≤ c.cnt then
      match rest with
      | [] => ([{ c with act := false }], true)
      | d :: rest => ({ c with act := false } :: { d with act := true } :: rest, false)
    else
      let r := scan rest
      (c :: r.1, r.2)

/-- 41-56 `check_warmups` -/
def check (s : St) : St :=
  let r := scan s.ws
  ⟨r.1, if r.2 then false else s.skip⟩

/-- A callback of the list of callbacks, as far as warm-ups are concerned: the `i`-th warm-up (in the order of the list), one that waits for warm-ups
(`PostWarmupCallback`) with its `active`, or any other. -/
inductive Cb
  | warm (i : Nat)
  | post (active : Bool)
  | other
  deriving DecidableEq, Repr

/-- 75-83 `_reset` of the `i`-th warm-up: `warmup_cbs[0]` exists since the callback is in that list. -/
def reset (i : Nat) (s : St) : St :=
  let ws := s.ws.modify i fun c => { c with cnt := 0, act := false }
  ⟨ws.modify 0 fun c => { c with act := true }, true⟩

/-- 33-39, 198-204 `on_train_begin` -/
def trainBegin : List Cb → St → List Cb × St
  | [], s => ([], s)
  | .warm i :: cs, s => let r := trainBegin cs (reset i s); (.warm i :: r.1, r.2)
  | .post _ :: cs, s => let r := trainBegin cs s; (.post false :: r.1, r.2)
  | .other :: cs, s => let r := trainBegin cs s; (.other :: r.1, r.2)

/-- 206-214 `PostWarmupCallback.check_warmups` -/
def postCheck (a : Bool) (s : St) : Bool := a || s.ws.all fun c => !c.act

/-- 57-63, 219-225 `on_epoch_begin` of all callbacks, in a training epoch -/
def epochBegin : List Cb → St → List Cb × St
  | [], s => ([], s)
  | .warm i :: cs, s => let r := epochBegin cs (check s); (.warm i :: r.1, r.2)
  | .post a :: cs, s => let r := epochBegin cs s; (.post (postCheck a s) :: r.1, r.2)
  | .other :: cs, s => let r := epochBegin cs s; (.other :: r.1, r.2)

/-- 65-73 `on_epoch_end` of the `i`-th warm-up, in a training epoch -/
def epochEnd1 (i : Nat) (s : St) : St := { s with ws := s.ws.modify i fun c => if c.act then { c with cnt := c.cnt + 1 } else c }

/-- `on_epoch_end` of all callbacks, in a training epoch -/
def epochEnd : List Cb → St → St
  | [], s => s
  | .warm i :: cs, s => epochEnd cs (epochEnd1 i s)
  | _ :: cs, s => epochEnd cs s

/-- Start of a fit (volume_wrapper.py 339-354, 361-362: fresh `fit_params`, whose `warmup_cbs` are the warm-ups among the callbacks, then `on_train_begin`).
`ws` are the warm-ups as left by an earlier fit. In validation epochs nothing happens. -/
def begin_ (cs : List Cb) (ws : List Wu) : List Cb × St := trainBegin cs ⟨ws, false⟩

/-- callbacks and state before the training epoch number `e` (from 0) -/
def before (cs : List Cb) (ws : List Wu) : Nat → List Cb × St
  | 0 => begin_ cs ws
  | e + 1 =>
    let r := before cs ws e
    let r := epochBegin r.1 r.2
    (r.1, epochEnd r.1 r.2)

/-- callbacks and state during the training epoch number `e` (from 0), after all `on_epoch_begin` -/
def during (cs : List Cb) (ws : List Wu) (e : Nat) : List Cb × St :=
  let r := before cs ws e
  epochBegin r.1 r.2

end Warmup

end Tomopt
