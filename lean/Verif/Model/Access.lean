import Verif.Model.MuonExec

/-
The attributes of a `MuonBatch` (tomopt/muon/muon_batch.py 439-633): what reading, assigning and changing them in place does. Tensors live in a store and the
object holds the address of its `_muons` tensor, as in `Model/Heap.lean`; here rows may have NaN angles, and what is left in a tensor that the object no longer
uses is kept track of.
-/
namespace Tomopt

noncomputable section

variable {α : Type}

/-- One column of `_muons` (muon_batch.py 58-63). -/
inductive Cell where
  | x | y | z | p | th | ph
  deriving DecidableEq

/-- The attributes of a batch that describe its muons (muon_batch.py 455-633). -/
inductive Field where
  | x | y | z | xy | xyz | mom | recoMom | theta | phi | thetaX | thetaY | thetaXY
  deriving DecidableEq

/-- muon_batch.py 455-603: the columns of `_muons` an attribute is a view of (basic indexing does not copy); `none` for attributes that are computed (605-627). -/
def Field.cells : Field → Option (List Cell)
  | .x => some [.x]
  | .y => some [.y]
  | .z => some [.z]
  | .xy => some [.x, .y]
  | .xyz => some [.x, .y, .z]
  | .mom => some [.p]
  | .recoMom => some [.p]
  | .theta => some [.th]
  | .phi => some [.ph]
  | .thetaX => none
  | .thetaY => none
  | .thetaXY => none

/-- muon_batch.py 459-463, 477-481, 495-499, 513-517, 531-535, 549-551, 565-567, 573-577, 591-595, 609-613, 619-623, 629-633: all setters raise. -/
def Field.setter : Field → Err
  | .mom => .notImplemented
  | .recoMom => .notImplemented
  | _ => .attributeError

/-- The element of a row in a column; `none` is NaN. -/
def RawMuon.get (m : RawMuon) : Cell → Option ℝ
  | .x => some m.x
  | .y => some m.y
  | .z => some m.z
  | .p => some m.p
  | .th => m.th
  | .ph => m.ph

/-- In-place change of the element of a row in a column by a function of its value. -/
def RawMuon.change (m : RawMuon) (f : ℝ → ℝ) : Cell → RawMuon
  | .x => { m with x := f m.x }
  | .y => { m with y := f m.y }
  | .z => { m with z := f m.z }
  | .p => { m with p := f m.p }
  | .th => { m with th := m.th.map f }
  | .ph => { m with ph := m.ph.map f }

/-- The tensors with the columns of `_muons`. -/
abbrev Tensors := List (List RawMuon)

/-- A `MuonBatch` object: address of `_muons`, and the rest. -/
structure Owner (α : Type) where
  addr : Nat
  removed : List RawMuon
  hits : Dict String (Dict String (List (List α)))
  hist : List (List (ℝ × ℝ × ℝ))

/-- The batch an object describes. -/
def Owner.batch (s : Tensors) (o : Owner α) : Batch α := ⟨(s.getD o.addr []).filterMap RawMuon.toMuon?, o.removed, o.hits, o.hist⟩

/-- A tensor the user got from an attribute: a view of columns of a stored tensor, or a tensor of its own. -/
inductive Ref where
  | view (addr : Nat) (cells : List Cell)
  | own (rows : List (List (Option ℝ)))

/-- The elements of a tensor the user holds. -/
def Ref.read (s : Tensors) : Ref → List (List (Option ℝ))
  | .view a cs => (s.getD a []).map fun m => cs.map m.get
  | .own rows => rows

/-- muon_batch.py 605-607, 615-617, 625-627: the computed attributes of one muon. -/
def Field.computed (f : Field) (m : Muon) : List (Option ℝ) :=
  match f with
  | .thetaX => [thetaXFromThetaPhi m.th m.ph]
  | .thetaY => [thetaYFromThetaPhi m.th m.ph]
  | _ => [thetaXFromThetaPhi m.th m.ph, thetaYFromThetaPhi m.th m.ph]

/-- muon_batch.py 455-627: reading an attribute. -/
def Owner.get (s : Tensors) (o : Owner α) (f : Field) : Ref :=
  match f.cells with
  | some cs => .view o.addr cs
  | none => .own ((o.batch s).muons.map f.computed)

/-- The rows of `_muons` after the in-place writes of a call and before muons are removed (muon_batch.py 190-197, 213-223, 247-248, 297-299, 317-319). -/
def Batch.written (b : Batch α) : MuOp α → List RawMuon
  | .dthetaDphi dth dph mask =>
    match Batch.updExec (b.maskOr mask) b.muons dph Batch.addPhi with
    | .error _ => b.muons.map MuonOf.toRaw
    | .ok m1 =>
      match Batch.updExec (b.maskOr mask) m1 dth Batch.addTheta with
      | .error _ => m1.map MuonOf.toRaw
      | .ok m2 => m2.map MuonOf.toRaw
  | .dthetaXY dtx dty mask =>
    match resolveMask b.muons.length mask with
    | .error _ => b.muons.map MuonOf.toRaw
    | .ok mask =>
      match Batch.optArg dtx (countTrue mask), Batch.optArg dty (countTrue mask) with
      | .ok xs, .ok ys => maskedUpd mask (b.muons.map MuonOf.toRaw) (xs.zip ys) fun m d => Batch.scatterXYRow m d.1 d.2
      | _, _ => b.muons.map MuonOf.toRaw
  | .filter _ => b.muons.map MuonOf.toRaw
  | op => (b.exec op).1.muons.map MuonOf.toRaw

/-- What a program can do with a batch. Values have one row per muon. -/
inductive Stmt (α : Type) where
  /-- a method is called -/
  | call (op : MuOp α)
  /-- `batch.f = v` -/
  | assign (f : Field) (v : List (List ℝ))
  /-- `batch.f += v` -/
  | augment (f : Field) (v : List (List ℝ))
  /-- `batch.f[:] = v` -/
  | into (f : Field) (v : List (List ℝ))

/-- In-place change of the columns `cs` of a row by the elements of a row of values. -/
def changeRow (g : ℝ → ℝ → ℝ) (cs : List Cell) (m : RawMuon) (v : List ℝ) : RawMuon :=
  (cs.zip v).foldl (fun m cv => m.change (fun w => g w cv.2) cv.1) m

/-- The values have one row per row of the tensor and one element per column (simplification: no broadcasting). -/
def fitting (n : Nat) (cs : List Cell) (v : List (List ℝ)) : Bool := v.length == n && v.all fun r => r.length == cs.length

/-- One statement: store, object and exception. A method call writes into `_muons` in place; if it removes muons, the object gets a new tensor (muon_batch.py 276).
An augmented assignment reads the attribute, changes the tensor it got in place, and then calls the setter. -/
def Owner.exec (s : Tensors) (o : Owner α) : Stmt α → Tensors × Owner α × Option Err
  | .call op =>
    let b := o.batch s
    let r := b.exec op
    let s' := s.set o.addr (b.written op)
    if r.1.muons.length < b.muons.length then
      (s' ++ [r.1.muons.map MuonOf.toRaw], ⟨s'.length, r.1.removed, r.1.hits, r.1.hist⟩, r.2)
    else (s', ⟨o.addr, r.1.removed, r.1.hits, r.1.hist⟩, r.2)
  | .assign f _ => (s, o, some f.setter)
  | .augment f v =>
    match f.cells with
    | none => (s, o, some f.setter)
    | some cs =>
      let rows := s.getD o.addr []
      if fitting rows.length cs v then (s.set o.addr (rows.zipWith (changeRow (· + ·) cs) v), o, some f.setter)
      else (s, o, some .runtimeError)
  | .into f v =>
    match f.cells with
    | none => (s, o, none)
    | some cs =>
      let rows := s.getD o.addr []
      if fitting rows.length cs v then (s.set o.addr (rows.zipWith (changeRow (fun _ w => w) cs) v), o, none)
      else (s, o, some .runtimeError)

/-- A program that goes on after exceptions. -/
def Owner.run (s : Tensors) (o : Owner α) : List (Stmt α) → Tensors × Owner α
  | [] => (s, o)
  | st :: sts => Owner.run (o.exec s st).1 (o.exec s st).2.1 sts

end

end Tomopt
