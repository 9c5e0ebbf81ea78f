import Verif.Model.Muon

/-
What calls on a `MuonBatch` (tomopt/muon/muon_batch.py) leave behind when they fail. `Batch.step` of `Model/Muon.lean` says only that a call
fails; here a call gives the batch after it and the exception, if any.
-/
namespace Tomopt

noncomputable section

variable {α : Type}

namespace Batch

/-- muon_batch.py 279-280: `xy_pos[keep_mask]` for the tensors of one variable, in order, until one of them has another number of rows (IndexError). -/
def keepTensors (keep : List Bool) : List (List α) → List (List α) × Bool
  | [] => ([], true)
  | t :: ts =>
    if t.length = keep.length then (pick keep t :: (keepTensors keep ts).1, (keepTensors keep ts).2)
    else (t :: ts, false)

/-- muon_batch.py 278-280: the variables of one position, in order. -/
def keepVars (keep : List Bool) : Dict String (List (List α)) → Dict String (List (List α)) × Bool
  | [] => ([], true)
  | (v, ts) :: d =>
    if (keepTensors keep ts).2 then ((v, (keepTensors keep ts).1) :: (keepVars keep d).1, (keepVars keep d).2)
    else ((v, (keepTensors keep ts).1) :: d, false)

/-- muon_batch.py 277-280: all positions, in order. -/
def keepHits (keep : List Bool) : Dict String (Dict String (List (List α))) → Dict String (Dict String (List (List α))) × Bool
  | [] => ([], true)
  | (p, vars) :: d =>
    if (keepVars keep vars).2 then ((p, (keepVars keep vars).1) :: (keepHits keep d).1, (keepHits keep d).2)
    else ((p, (keepVars keep vars).1) :: d, false)

/-- muon_batch.py 260-280 `filter_muons` when the rows of `_muons` are `raws`: the removed muons are stored and the others kept before the hits are
filtered. -/
def filterExec (b : Batch α) (raws : List RawMuon) (keep : List Bool) : Batch α × Option Err :=
  if countTrue keep < raws.length then
    if keep.length ≠ raws.length then (b, some .indexError)
    else
      ({ b with
          removed := b.removed ++ pick (Tomopt.inv keep) raws
          muons := (pick keep raws).filterMap RawMuon.toMuon?
          hits := (keepHits keep b.hits).1 },
        if (keepHits keep b.hits).2 then none else some .indexError)
  else ({ b with muons := raws.filterMap RawMuon.toMuon? }, none)

/-- muon_batch.py 190-197, 213-223: a change of a column, if there is one: IndexError for a mask of the wrong length, RuntimeError for a change of the
wrong length (simplification: also for a `dtheta_vol` of the wrong length and one selected muon, where torch raises IndexError). -/
def updExec (mask : List Bool) (ms : List Muon) (a : Option Arg) (f : Muon → ℝ → Muon) : Except Err (List Muon) :=
  match a with
  | none => .ok ms
  | some a => if mask.length ≠ ms.length then .error .indexError else optUpd mask ms (some a) f

/-- muon_batch.py 190-191: the default mask -/
def maskOr (b : Batch α) (mask : Option (List Bool)) : List Bool := mask.getD (List.replicate b.muons.length true)

/-- muon_batch.py 176-197 `scatter_dxyz`: x, y and z are changed one after the other. -/
def dxyzExec (b : Batch α) (dx dy dz : Option Arg) (mask : Option (List Bool)) : Batch α × Option Err :=
  match updExec (b.maskOr mask) b.muons dx (fun m v => { m with x := m.x + v }) with
  | .error e => (b, some e)
  | .ok m1 =>
    match updExec (b.maskOr mask) m1 dy (fun m v => { m with y := m.y + v }) with
    | .error e => ({ b with muons := m1 }, some e)
    | .ok m2 =>
      match updExec (b.maskOr mask) m2 dz (fun m v => { m with z := m.z + v }) with
      | .error e => ({ b with muons := m2 }, some e)
      | .ok m3 => ({ b with muons := m3 }, none)

/-- muon_batch.py 199-224 `scatter_dtheta_dphi`: phi first, then theta, then the removal of upwards muons (251-258). -/
def dthetaDphiExec (b : Batch α) (dth dph : Option Arg) (mask : Option (List Bool)) : Batch α × Option Err :=
  match updExec (b.maskOr mask) b.muons dph addPhi with
  | .error e => (b, some e)
  | .ok m1 =>
    match updExec (b.maskOr mask) m1 dth addTheta with
    | .error e => ({ b with muons := m1 }, some e)
    | .ok m2 => b.filterExec (m2.map MuonOf.toRaw) ((m2.map MuonOf.toRaw).map keepRow)

/-- muon_batch.py 226-249 `scatter_dtheta_xy`: everything is computed before the directions are written. -/
def dthetaXYExec (b : Batch α) (dtx dty : Option Arg) (mask : Option (List Bool)) : Batch α × Option Err :=
  match resolveMask b.muons.length mask with
  | .error e => (b, some e)
  | .ok mask =>
    match optArg dtx (countTrue mask), optArg dty (countTrue mask) with
    | .error e, _ => (b, some e)
    | .ok _, .error e => (b, some e)
    | .ok xs, .ok ys =>
      let raws := maskedUpd mask (b.muons.map MuonOf.toRaw) (xs.zip ys) fun m d => scatterXYRow m d.1 d.2
      b.filterExec raws (raws.map keepRow)

/-- muon_batch.py 282-319: a propagation by `row` fails before anything is written. -/
def propExec (b : Batch α) (row : Muon → ℝ → Muon) (d : Arg) (mask : Option (List Bool)) : Batch α × Option Err :=
  match resolveMask b.muons.length mask with
  | .error e => (b, some e)
  | .ok mask =>
    match d.expand (countTrue mask) with
    | .error e => (b, some e)
    | .ok vs => ({ b with muons := maskedUpd mask b.muons vs row }, none)

/-- One call: the batch after it and the exception it raises, if any. -/
def exec (b : Batch α) : MuOp α → Batch α × Option Err
  | .dxyz dx dy dz m => b.dxyzExec dx dy dz m
  | .dthetaDphi a c m => b.dthetaDphiExec a c m
  | .dthetaXY a c m => b.dthetaXYExec a c m
  | .filter k => b.filterExec (b.muons.map MuonOf.toRaw) k
  | .propDz d m => b.propExec propDzRow d m
  | .propD d m => b.propExec propDRow d m
  | .snap => (b.snapshot, none)
  | .append h p => (b.appendHits h p, none)

/-- A program that catches every exception and goes on. -/
def execAll (b : Batch α) : List (MuOp α) → Batch α
  | [] => b
  | op :: ops => (b.exec op).1.execAll ops

end Batch

end

end Tomopt
