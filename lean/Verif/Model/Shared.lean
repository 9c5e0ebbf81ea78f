import Verif.Model.Infer
import Verif.Model.MuonExec

/-
Model of tomopt/inference/volume.py where scatter batches keep a reference to their muons: the tensors of tracks, angles and hit efficiencies belong to the scatter
batch (inference/scattering.py 60-94, 164-206), but the momenta are read through the reference when the batches are combined (volume.py 256). `Model/Infer.lean`
takes scatter batches to be values.
-/
namespace Tomopt

noncomputable section

namespace Shared

open Infer

/-- A scatter batch as an inferrer holds it: its own tensors (the entry `mom` is never looked at) and which muon batch it refers to (scattering.py 61 `self.mu = mu`). -/
structure Held where
  own : ScVars
  mu : Nat

/-- volume.py 256 `sb.mu.mom[:, None]` -/
def moms {α : Type} (b : Batch α) : List (List XF) := b.muons.map fun m => [.num m.p]

/-- volume.py 247-256: what one scatter batch contributes at the time when the batches are combined -/
def Held.now {α : Type} (mus : List (Batch α)) (h : Held) : ScVars :=
  { h.own with vals := fun v => match v with
    | .mom => (mus[h.mu]?.map moms).getD []
    | v => h.own.vals v }

/-- The muon batches of a program, the scatter batches added to the inferrer, and the memory of the inferrer. -/
structure St (α : Type) where
  mus : List (Batch α)
  held : List Held
  memo : Infer.St

/-- a program with muon batches `mus` and an inferrer without scatters -/
def St.init {α : Type} (mus : List (Batch α)) : St α := ⟨mus, [], Infer.St.init⟩

/-- what a user can ask an inferrer for -/
inductive Ask where
  | prediction | vars | efficiency | nMuons | probs

def Ask.op : Ask → Op
  | .prediction => .prediction
  | .vars => .vars
  | .efficiency => .efficiency
  | .nMuons => .nMuons
  | .probs => .probs

/-- the answer if the combination of the batches raises -/
def Ask.fail (e : Err) : Ask → Ans
  | .prediction => .pred (.error e)
  | .vars => .vars (.error e)
  | .efficiency => .eff (.error e)
  | .nMuons => .n (.error e)
  | .probs => .probs (.error e)

/-- volume.py 259-265 when there are `k` momenta for `n` rows of the other variables. 260 `mask *= …` raises unless `k` is `n` or one; a single entry is broadcast and
264 `vals["mom"][mask]` raises instead. -/
def clash (bs : List ScVars) : Option Err :=
  let n := (catVals .poca bs).length
  let k := (catVals .mom bs).length
  if k = n then none else if k = 1 then some .indexError else some .runtimeError

/-- A question. The batches are combined only if nothing is stored (volume.py 400-531 `if self._muon_scatter_vars is None: self._combine_scatters()`); if that raises
before line 264, nothing has been stored. -/
def ask {α : Type} (c : Conf) (s : St α) (q : Ask) : St α × Ans :=
  match s.memo.vars with
  | some _ => let r := Infer.step c s.memo q.op; ({ s with memo := r.1 }, r.2)
  | none =>
    let bs := s.held.map (·.now s.mus)
    match clash bs with
    | some e => (s, q.fail e)
    | none => let r := Infer.step c { s.memo with batches := bs } q.op; ({ s with memo := r.1 }, r.2)

/-- What a program can do: call a method of muon batch `i`, whether it succeeds or not (muon_batch.py 178-419); overwrite its momenta in place (`mu.mom[:] = v`,
539-547 returns a view); add a scatter batch with tensors `own` made of muon batch `i` (volume.py 82-90); ask the inferrer. -/
inductive Event (α : Type) where
  | call (i : Nat) (op : MuOp α)
  | momenta (i : Nat) (v : List ℝ)
  | add (i : Nat) (own : ScVars)
  | ask (q : Ask)

/-- new momenta, one per muon -/
def setMoms {α : Type} (b : Batch α) (v : List ℝ) : Batch α := { b with muons := List.zipWith (fun m p => { m with p := p }) b.muons v }

/-- One event; questions and additions have an answer. An assignment with the wrong number of momenta raises and changes nothing. Simplification: an assignment of a
single number, which is broadcast, is written as as many equal numbers. -/
def step {α : Type} (c : Conf) (s : St α) : Event α → St α × Option Ans
  | .call i op => ({ s with mus := s.mus.modify i fun b => (b.exec op).1 }, none)
  | .momenta i v => ({ s with mus := s.mus.modify i fun b => if v.length = b.muons.length then setMoms b v else b }, none)
  | .add i own =>
    let held := s.held ++ [⟨own, i⟩]
    ({ s with held := held, memo := addScatters ⟨s.held.map (·.now s.mus), none, none, none, none, none⟩ (Held.now s.mus ⟨own, i⟩) }, some .done)
  | .ask q => let r := ask c s q; (r.1, some r.2)

/-- the answers of a program -/
def run {α : Type} (c : Conf) : St α → List (Event α) → List Ans
  | _, [] => []
  | s, e :: es => (step c s e).2.toList ++ run c (step c s e).1 es

/-- the state after a program -/
def final {α : Type} (c : Conf) : St α → List (Event α) → St α
  | s, [] => s
  | s, e :: es => final c (step c s e).1 es

end Shared

end

end Tomopt
