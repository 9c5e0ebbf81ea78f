import Verif.Model.Muon

/-
Aliasing model of muon batches (tomopt/muon/muon_batch.py): tensors live in a store and a `MuonBatch` object only
holds the address of its `_muons` tensor. Column updates such as `self._x[mask] = ...` write into the
tensor at that address; `filter_muons` (line 276 `self._muons = self._muons[keep_mask]`) rebinds the object to a
new tensor; `__init__` (lines 73-76, `F.pad`) and `copy` (lines 433-437, `.clone()`, `F.pad`) allocate.
Simplification: the abandoned tensor keeps its previous content after a rebinding. Hit tensors are never written in
place by the code, so they are kept by value.
-/
namespace Tomopt

noncomputable section

variable {α : Type}

/-- the tensor store -/
abbrev Store := List (List Muon)

/-- a `MuonBatch` python object -/
structure Obj (α : Type) where
  addr : Nat
  removed : List RawMuon
  hits : Dict String (Dict String (List (List α)))
  hist : List (List (ℝ × ℝ × ℝ))

/-- what a user sees through an object -/
def Obj.view (s : Store) (o : Obj α) : Option (Batch α) :=
  match s[o.addr]? with
  | none => none
  | some ms => some ⟨ms, o.removed, o.hits, o.hist⟩

/-- muon_batch.py 66-83: a new object built from a caller's tensor (here already with the z column): `F.pad` makes a new tensor. -/
def newBatch (s : Store) (callerAddr : Nat) : Except Err (Store × Obj α) :=
  match s[callerAddr]? with
  | none => .error .runtimeError
  | some ms => .ok (s ++ [ms], ⟨s.length, [], [], []⟩)

/-- muon_batch.py 421-437 `copy`. -/
def copyObj (s : Store) (o : Obj α) : Except Err (Store × Obj α) :=
  match s[o.addr]? with
  | none => .error .runtimeError
  | some ms => .ok (s ++ [ms], ⟨s.length, [], [], []⟩)

/-- One operation through an object: fewer muons means the object was rebound to a new tensor,
otherwise the tensor at its address was written in place. -/
def Obj.step (s : Store) (o : Obj α) (op : MuOp α) : Except Err (Store × Obj α) :=
  match o.view s with
  | none => .error .runtimeError
  | some b =>
    match b.step op with
    | .error e => .error e
    | .ok b' =>
      if b'.muons.length < b.muons.length then
        .ok (s ++ [b'.muons], ⟨s.length, b'.removed, b'.hits, b'.hist⟩)
      else .ok (s.set o.addr b'.muons, ⟨o.addr, b'.removed, b'.hits, b'.hist⟩)

/-- a history of operations through one object -/
def Obj.run (s : Store) (o : Obj α) : List (MuOp α) → Except Err (Store × Obj α)
  | [] => .ok (s, o)
  | op :: ops =>
    match o.step s op with
    | .error e => .error e
    | .ok (s', o') => Obj.run s' o' ops

/-- Actions of a program that holds two batches and the tensor they were made from. -/
inductive Act (α : Type) where
  | first (op : MuOp α)
  | second (op : MuOp α)
  | caller (ms : List Muon)

/-- An arbitrary interleaving of operations on two objects and of in-place writes by the caller to the tensor at `c`. -/
def runTwo (s : Store) (c : Nat) (o1 o2 : Obj α) : List (Act α) → Except Err (Store × Obj α × Obj α)
  | [] => .ok (s, o1, o2)
  | .first op :: as =>
    match o1.step s op with
    | .error e => .error e
    | .ok (s', o1') => runTwo s' c o1' o2 as
  | .second op :: as =>
    match o2.step s op with
    | .error e => .error e
    | .ok (s', o2') => runTwo s' c o1 o2' as
  | .caller ms :: as => runTwo (s.set c ms) c o1 o2 as

end

end Tomopt
