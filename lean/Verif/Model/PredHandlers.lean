import Verif.Model.Wrapper

/-
Model of optimisation/callbacks/pred_callbacks.py: the callbacks that collect predictions.

Python lists are objects: the lists of pairs live in a store and are passed by address. The HDF5 file of `Save2HDF5PredHandler` is a value with two datasets;
what h5py does when a row is assigned to a dataset of another shape is a parameter.
-/
namespace Tomopt

noncomputable section

namespace Handler

open Fit

variable {P T : Type}

/-- The lists of (prediction, target) pairs that exist and the one `self.preds` points to; before the first prediction the attribute does not exist. -/
structure PH (P T : Type) where
  cells : List (List (P × T))
  cur : Option Nat

/-- pred_callbacks.py 23-29 `on_pred_begin`: a new empty list -/
def PH.begin_ (h : PH P T) : PH P T := ⟨h.cells ++ [[]], some h.cells.length⟩

/-- 39-45 `PredHandler.on_x0_pred_end`, 60-69 `VolumeTargetPredHandler.on_x0_pred_end`. `t` is the target read from the volume: the cube of X0 values, or the volume
target mapped to a class, which raises for an X0 that is not in the table. `None.detach()` raises. -/
def PH.take (mode : Mode) (pred : Option P) (t : Except Err T) (h : PH P T) : Except Err (PH P T) :=
  if mode = .test then
    match t, pred, h.cur with
    | .error e, _, _ => .error e
    | .ok _, none, _ => .error .attributeError
    | .ok _, some _, none => .error .attributeError
    | .ok t, some p, some a => .ok { h with cells := h.cells.modify a fun l => l ++ [(p, t)] }
  else .ok h

/-- the interjections of a handler -/
def PH.step (e : Ev) (mode : Mode) (pred : Option P) (t : Except Err T) (h : PH P T) : Except Err (PH P T) :=
  match e with
  | .predBegin => .ok h.begin_
  | .x0PredEnd => h.take mode pred t
  | _ => .ok h

/-- 31-37 `get_preds`: the list itself, not a copy -/
def PH.getPreds (h : PH P T) : Except Err Nat :=
  match h.cur with
  | none => .error .attributeError
  | some a => .ok a

variable {W V : Type}

/-- Callback `k` of the environment is a handler. `ph` is where it keeps its lists, `vol` what it reads as target from the volume. Loading a volume sets the target
(`targ`), nothing else changes it. `hist` is a record of what the inferrer has predicted so far. Other callbacks may change the prediction after it was made
(`adj`; e.g. benchmarks/ladle_furnace/inference.py 393-427), and anything else but these. -/
structure Handles (E : Env W V P) (k : Nat) (ph : W → PH P T) (vol : W → Except Err T) (targ : V → Except Err T) (hist : W → List (Option P))
    (adj : Nat → Option P → Option P) : Prop where
  self : ∀ e fp w, match (ph w).step e fp.mode fp.pred (vol w) with
    | .ok h => (E.cb k e fp w).1 = .ok () ∧ ph (E.cb k e fp w).2.2 = h
    | .error x => (E.cb k e fp w).1 = .error x ∧ ph (E.cb k e fp w).2.2 = ph w
  other : ∀ i e fp w, i ≠ k → ph (E.cb i e fp w).2.2 = ph w
  pred : ∀ i e fp w, (E.cb i e fp w).2.1.pred = if e = .x0PredEnd ∧ i ≠ k then adj i fp.pred else fp.pred
  cbVol : ∀ i e fp w, vol (E.cb i e fp w).2.2 = vol w
  cbHist : ∀ i e fp w, hist (E.cb i e fp w).2.2 = hist w
  load : ∀ v fp w, (E.prim (.load v) fp w).1 = .ok () → vol (E.prim (.load v) fp w).2 = targ v
  primVol : ∀ a fp w, (∀ v, a ≠ .load v) → vol (E.prim a fp w).2 = vol w
  primPh : ∀ a fp w, ph (E.prim a fp w).2 = ph w
  primHist : ∀ a fp w, hist (E.prim a fp w).2 = hist w
  inferPh : ∀ fp w, ph (E.pred fp w).2 = ph w
  inferVol : ∀ fp w, vol (E.pred fp w).2 = vol w
  inferHist : ∀ fp w p, (E.pred fp w).1 = .ok p → hist (E.pred fp w).2 = hist w ++ [p]

/-! ### The HDF5 file -/

/-- A numpy array: shape and values. -/
structure Arr where
  shape : List Nat
  data : List ℝ

/-- A dataset whose rows have the given shape. -/
structure Ds where
  shape : List Nat
  rows : List (List ℝ)

/-- the file: the datasets `preds` and `targs`, if they have been created -/
structure File where
  preds : Option Ds
  targs : Option Ds

/-- h5py and float32: `put s a` is the row stored when `a[None]` is assigned to a row of shape `s` (or the error raised), `f32` the rounding to single precision. -/
structure H5 where
  put : List Nat → Arr → Except Err (List ℝ)
  f32 : ℝ → ℝ

/-- 115-122, 123-130: append one row to a dataset, creating it if there is none. The dataset is extended (by a row of zeros) before the row is assigned. -/
def Ds.write (L : H5) (d : Option Ds) (a : Arr) : Except Err Unit × Option Ds :=
  match d with
  | none => (.ok (), some ⟨a.shape, [a.data.map L.f32]⟩)
  | some d =>
    match L.put d.shape ⟨a.shape, a.data.map L.f32⟩ with
    | .error e => (.error e, some { d with rows := d.rows ++ [List.replicate d.shape.prod 0] })
    | .ok r => (.ok (), some { d with rows := d.rows ++ [r] })

/-- 105-130 `_write_data`: the predictions are written before the targets -/
def File.write (L : H5) (f : File) (pred targ : Arr) : Except Err Unit × File :=
  match Ds.write L f.preds pred with
  | (.error e, d) => (.error e, { f with preds := d })
  | (.ok (), d) =>
    let r := Ds.write L f.targs targ
    (r.1, ⟨d, r.2⟩)

/-- pred_callbacks.py 87-93 `__init__`: an existing file is only removed here, and only if asked for. `disk` is the file there is. -/
def File.init (overwrite : Bool) (disk : Option File) : Option File := if overwrite then none else disk

/-- 95-103 `_open_file`, 132-145 `on_x0_pred_end`: one prediction; a missing prediction raises before the file is opened. -/
def File.take (L : H5) (mode : Mode) (pred : Option Arr) (t : Except Err Arr) (disk : Option File) : Except Err Unit × Option File :=
  if mode = .test then
    match t, pred with
    | .error e, _ => (.error e, disk)
    | .ok _, none => (.error .attributeError, disk)
    | .ok t, some p =>
      let r := File.write L (disk.getD ⟨none, none⟩) p t
      (r.1, some r.2)
  else (.ok (), disk)

/-- A history of predictions: each raises or not, the file stays. -/
def File.runs (L : H5) (disk : Option File) : List (Mode × Option Arr × Except Err Arr) → Option File
  | [] => disk
  | x :: xs => File.runs L (File.take L x.1 x.2.1 x.2.2 disk).2 xs

end Handler

end

end Tomopt
