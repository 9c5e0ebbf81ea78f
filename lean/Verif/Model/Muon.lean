import Verif.Model.Basic
import Mathlib.Analysis.SpecialFunctions.Trigonometric.Arctan

/-
Model of tomopt/muon/muon_batch.py.

* A muon is one row of the `_muons` tensor. The field `id` is a ghost identity (the row number the
  muon had when the batch was created); the code has no such field and no modelled operation
  reads it.
* Angles of a muon that is still in the batch are real numbers. Between an angular scattering and the
  removal of upwards muons an angle may be NaN: `RawMuon` has `none` for NaN.
* Tensor rows of hits have an arbitrary type `α`.
-/
namespace Tomopt

noncomputable section

open Real

/-- One row of `_muons` (muon_batch.py 58-63: x, y, z, p, theta, phi). `A` is the type of angles. -/
structure MuonOf (A : Type) where
  id : Nat
  x : ℝ
  y : ℝ
  z : ℝ
  p : ℝ
  th : A
  ph : A

abbrev Muon := MuonOf ℝ
abbrev RawMuon := MuonOf (Option ℝ)

def MuonOf.toRaw (m : Muon) : RawMuon := ⟨m.id, m.x, m.y, m.z, m.p, some m.th, some m.ph⟩

/-- A raw row whose angles are both numbers, as a muon. -/
def RawMuon.toMuon? (m : RawMuon) : Option Muon :=
  match m.th, m.ph with
  | some t, some f => some ⟨m.id, m.x, m.y, m.z, m.p, t, f⟩
  | _, _ => none

/-- torch `%` (remainder with the sign of the divisor): `a - b*floor(a/b)`. -/
def pmod (a b : ℝ) : ℝ := a - b * ⌊a / b⌋

/-! ### Angle conversions (static methods) -/

/-- muon_batch.py 136-154 `theta_x_from_theta_phi`; `none` is NaN. -/
def thetaXFromThetaPhi (th ph : ℝ) : Option ℝ :=
  if th ≥ π / 2 then none else some (arctan (tan th * cos ph))

/-- muon_batch.py 156-174 `theta_y_from_theta_phi`. -/
def thetaYFromThetaPhi (th ph : ℝ) : Option ℝ :=
  if th ≥ π / 2 then none else some (arctan (tan th * sin ph))

/-- muon_batch.py 116-134 `theta_from_theta_xy`. -/
def thetaFromThetaXY (tx ty : ℝ) : Option ℝ :=
  if |tx| ≥ π / 2 ∨ |ty| ≥ π / 2 then none
  else some (arctan (sqrt (tan tx ^ 2 + tan ty ^ 2)))

/-- `torch.arctan(a / b)` with IEEE division: `±x/0 = ±inf`, whose arctan is `±pi/2`; `0/0` is NaN.
Simplification: the zero is unsigned (see `Model/SignedZero.lean` for the effect of `-0.0`). -/
def arctanDiv (a b : ℝ) : Option ℝ :=
  if b ≠ 0 then some (arctan (a / b))
  else if 0 < a then some (π / 2)
  else if a < 0 then some (-(π / 2))
  else none

/-- muon_batch.py 91-114 `phi_from_theta_xy`. -/
def phiFromThetaXY (tx ty : ℝ) : Option ℝ :=
  if |tx| ≥ π / 2 ∨ |ty| ≥ π / 2 then none
  else
    (arctanDiv (tan ty) (tan tx)).map fun phi =>
      if tx < 0 then phi + π
      else if ty < 0 then phi + 2 * π
      else phi

/-! ### Batch state -/

/-- State of a `MuonBatch` (muon_batch.py 66-83). `hits[pos][var]` is the list of recorded tensors,
each a list of rows. -/
structure Batch (α : Type) where
  muons : List Muon
  removed : List RawMuon
  hits : Dict String (Dict String (List (List α)))
  hist : List (List (ℝ × ℝ × ℝ))

/-- muon_batch.py 66-83 `__init__`: rows (x, y, p, theta, phi) get the initial z; no hits, no history. -/
def Batch.init {α : Type} (rows : List (ℝ × ℝ × ℝ × ℝ × ℝ)) (z : ℝ) : Batch α where
  muons := rows.zipIdx.map fun ri => ⟨ri.2, ri.1.1, ri.1.2.1, z, ri.1.2.2.1, ri.1.2.2.2.1, ri.1.2.2.2.2⟩
  removed := []
  hits := []
  hist := []

/-- A float, one-element tensor or `(N,)` tensor argument. -/
inductive Arg where
  | scalar (v : ℝ)
  | vec (l : List ℝ)

/-- Broadcasting of an argument against `n` selected rows; a length that is neither 1 nor `n` is a
RuntimeError in torch. -/
def Arg.expand : Arg → Nat → Except Err (List ℝ)
  | .scalar v, n => .ok (List.replicate n v)
  | .vec l, n =>
    if l.length = n then .ok l
    else match l with
      | [v] => .ok (List.replicate n v)
      | _ => .error .runtimeError

/-- Default mask (all muons) and the IndexError torch raises for a mask of the wrong length. -/
def resolveMask (n : Nat) : Option (List Bool) → Except Err (List Bool)
  | none => .ok (List.replicate n true)
  | some m => if m.length = n then .ok m else .error .indexError

/-- `self._c[mask] = f(self._c[mask], arg)` for a column update `f`. -/
def maskedUpd {β γ : Type} (mask : List Bool) (rows : List β) (args : List γ) (f : β → γ → β) : List β :=
  put mask rows ((pick mask rows).zipWith f args)

/-- Optional masked update with broadcasting; `None` leaves the rows alone. -/
def optUpd (mask : List Bool) (rows : List Muon) (a : Option Arg) (f : Muon → ℝ → Muon) :
    Except Err (List Muon) :=
  match a with
  | none => .ok rows
  | some a => do
    let vs ← a.expand (countTrue mask)
    .ok (maskedUpd mask rows vs f)

namespace Batch
variable {α : Type}

/-- muon_batch.py 176-197 `scatter_dxyz`. Simplification, here and in `scatterDthetaDphi`: a mask of the wrong length is rejected even if no change is given
(see `Model/MuonExec.lean`, which also says what is left behind by a call that fails). -/
def scatterDxyz (b : Batch α) (dx dy dz : Option Arg) (mask : Option (List Bool)) :
    Except Err (Batch α) := do
  let mask ← resolveMask b.muons.length mask
  let m1 ← optUpd mask b.muons dx fun m v => { m with x := m.x + v }
  let m2 ← optUpd mask m1 dy fun m v => { m with y := m.y + v }
  let m3 ← optUpd mask m2 dz fun m v => { m with z := m.z + v }
  .ok { b with muons := m3 }

/-- muon_batch.py 275-280: keep the rows of every tensor of every variable at every position. -/
def filterHits (hits : Dict String (Dict String (List (List α)))) (keep : List Bool) :
    Dict String (Dict String (List (List α))) :=
  hits.mapVals fun vars => vars.mapVals fun tensors => tensors.map (pick keep)

/-- muon_batch.py 260-280 `filter_muons`, called by a user on a batch without NaN. A mask of the wrong length goes unnoticed if it has
enough `True` elements. Simplification: hits have one row per muon (see `Model/MuonExec.lean` for other hits). -/
def filterMuons (b : Batch α) (keep : List Bool) : Except Err (Batch α) :=
  if countTrue keep < b.muons.length then
    if keep.length ≠ b.muons.length then .error .indexError
    else .ok { b with
      removed := b.removed ++ (pick (Tomopt.inv keep) b.muons).map MuonOf.toRaw
      muons := pick keep b.muons
      hits := filterHits b.hits keep }
  else .ok b

/-- muon_batch.py 257: `(theta < pi/2) & ~theta.isnan() & ~phi.isnan()`. -/
def keepRow (m : RawMuon) : Bool :=
  match m.th, m.ph with
  | some t, some _ => decide (t < π / 2)
  | _, _ => false

/-- muon_batch.py 251-258 `remove_upwards_muons` followed by 260-280 `filter_muons`, on rows whose angles may be NaN. The kept rows have
number angles, so `filterMap toMuon?` only changes their type (see `Lemmas/Muon.lean`, `kept_rows`). -/
def removeUpwards (b : Batch α) (raws : List RawMuon) : Batch α :=
  let keep := raws.map keepRow
  if countTrue keep < raws.length then
    { b with
      removed := b.removed ++ pick (Tomopt.inv keep) raws
      muons := (pick keep raws).filterMap RawMuon.toMuon?
      hits := filterHits b.hits keep }
  else { b with muons := raws.filterMap RawMuon.toMuon? }

/-- muon_batch.py 213-214: `phi = (phi + dphi) % 2pi`. -/
def addPhi (m : Muon) (d : ℝ) : Muon := { m with ph := pmod (m.ph + d) (2 * π) }

/-- muon_batch.py 215-223: `theta = (theta + dtheta) % 2pi`; if `theta > pi`, rotate phi by pi and reflect. -/
def addTheta (m : Muon) (d : ℝ) : Muon :=
  let t := pmod (m.th + d) (2 * π)
  if t > π then { m with ph := pmod (m.ph + π) (2 * π), th := 2 * π - t }
  else { m with th := t }

/-- muon_batch.py 199-224 `scatter_dtheta_dphi`. -/
def scatterDthetaDphi (b : Batch α) (dth dph : Option Arg) (mask : Option (List Bool)) :
    Except Err (Batch α) := do
  let mask ← resolveMask b.muons.length mask
  let m1 ← optUpd mask b.muons dph addPhi
  let m2 ← optUpd mask m1 dth addTheta
  .ok (removeUpwards b (m2.map MuonOf.toRaw))

/-- muon_batch.py 240-247 for one selected muon: project, add, convert back. NaN propagates. -/
def scatterXYRow (m : RawMuon) (dtx dty : ℝ) : RawMuon :=
  match m.th, m.ph with
  | some t, some f =>
    match thetaXFromThetaPhi t f, thetaYFromThetaPhi t f with
    | some tx, some ty =>
      { m with th := thetaFromThetaXY (tx + dtx) (ty + dty), ph := phiFromThetaXY (tx + dtx) (ty + dty) }
    | _, _ => { m with th := none, ph := none }
  | _, _ => { m with th := none, ph := none }

/-- An absent angular change leaves `theta_x` (`theta_y`) as it is; adding zero is the same. -/
def optArg (a : Option Arg) (n : Nat) : Except Err (List ℝ) :=
  match a with
  | none => .ok (List.replicate n 0)
  | some a => a.expand n

/-- muon_batch.py 226-249 `scatter_dtheta_xy`. -/
def scatterDthetaXY (b : Batch α) (dtx dty : Option Arg) (mask : Option (List Bool)) :
    Except Err (Batch α) := do
  let mask ← resolveMask b.muons.length mask
  let xs ← optArg dtx (countTrue mask)
  let ys ← optArg dty (countTrue mask)
  let raws := maskedUpd mask (b.muons.map MuonOf.toRaw) (xs.zip ys) fun m d => scatterXYRow m d.1 d.2
  .ok (removeUpwards b raws)

/-- muon_batch.py 282-300, one muon. `dz / cos theta` is the real quotient: for `cos theta = 0` the code
yields inf, so theorems about positions assume `cos theta ≠ 0`. -/
def propDzRow (m : Muon) (dz : ℝ) : Muon :=
  let r := dz / cos m.th
  let rst := r * sin m.th
  { m with x := m.x + rst * cos m.ph, y := m.y + rst * sin m.ph, z := m.z - dz }

/-- muon_batch.py 302-319, one muon. -/
def propDRow (m : Muon) (d : ℝ) : Muon :=
  let rst := d * sin m.th
  { m with x := m.x + rst * cos m.ph, y := m.y + rst * sin m.ph, z := m.z - d * cos m.th }

/-- muon_batch.py 282-300 `propagate_dz`. -/
def propagateDz (b : Batch α) (dz : Arg) (mask : Option (List Bool)) : Except Err (Batch α) := do
  let mask ← resolveMask b.muons.length mask
  let vs ← dz.expand (countTrue mask)
  .ok { b with muons := maskedUpd mask b.muons vs propDzRow }

/-- muon_batch.py 302-319 `propagate_d`. -/
def propagateD (b : Batch α) (d : Arg) (mask : Option (List Bool)) : Except Err (Batch α) := do
  let mask ← resolveMask b.muons.length mask
  let vs ← d.expand (countTrue mask)
  .ok { b with muons := maskedUpd mask b.muons vs propDRow }

/-- muon_batch.py 321-337 `get_xy_mask` for one muon; a missing bound is `∓inf`. -/
def inWindow (low high : Option (ℝ × ℝ)) (m : Muon) : Bool :=
  (match low with | none => true | some l => decide (m.x ≥ l.1)) &&
  (match high with | none => true | some h => decide (m.x < h.1)) &&
  (match low with | none => true | some l => decide (m.y ≥ l.2)) &&
  (match high with | none => true | some h => decide (m.y < h.2))

/-- muon_batch.py 321-337 `get_xy_mask`. -/
def xyMask (b : Batch α) (low high : Option (ℝ × ℝ)) : List Bool := b.muons.map (inWindow low high)

/-- muon_batch.py 339-344 `snapshot_xyz`. -/
def snapshot (b : Batch α) : Batch α := { b with hist := b.hist ++ [b.muons.map fun m => (m.x, m.y, m.z)] }

/-- muon_batch.py 346-356 `append_hits`: `for k in hits: self._hits[pos][k].append(hits[k])`. -/
def appendHits (b : Batch α) (hits : Dict String (List α)) (pos : String) : Batch α :=
  { b with hits := hits.foldl (fun acc kv =>
      acc.modify pos [] fun vars => vars.modify kv.1 [] fun tensors => tensors ++ [kv.2]) b.hits }

/-- `torch.stack(tensors, dim=1)` of `(N,*)` tensors: row i is the list of the i-th rows.
Fails if the tensors differ in length or there is none (RuntimeError). -/
def stack1 (tensors : List (List α)) : Except Err (List (List α)) :=
  match tensors with
  | [] => .error .runtimeError
  | t :: ts =>
    if ts.all (fun u => u.length == t.length) then
      .ok ((List.range t.length).map fun i => (t :: ts).filterMap fun u => u[i]?)
    else .error .runtimeError

/-- sequencing of a dictionary comprehension whose values may raise -/
def mapValsM {κ v w : Type} (d : Dict κ v) (f : v → Except Err w) : Except Err (Dict κ w) :=
  match d with
  | [] => .ok []
  | (k, x) :: d => do
    let y ← f x
    let r ← mapValsM d f
    .ok ((k, y) :: r)

/-- muon_batch.py 358-380 `get_hits`. -/
def getHits (b : Batch α) (low high : Option (ℝ × ℝ)) :
    Except Err (Dict String (Dict String (List (List α)))) :=
  if b.hits.length = 0 then .error .valueError
  else if low.isNone && high.isNone then
    mapValsM b.hits fun vars => mapValsM vars stack1
  else
    mapValsM b.hits fun vars => mapValsM vars fun ts => do
      let s ← stack1 ts
      .ok (pick (b.xyMask low high) s)

/-- muon_batch.py 421-437 `copy` (values only; addresses are in `Model/Heap.lean`). Ghost identities are kept. -/
def copy (b : Batch α) : Batch α := { muons := b.muons, removed := [], hits := [], hist := [] }

end Batch

/-- The public mutating operations of `MuonBatch`. -/
inductive MuOp (α : Type) where
  | dxyz (dx dy dz : Option Arg) (mask : Option (List Bool))
  | dthetaDphi (dth dph : Option Arg) (mask : Option (List Bool))
  | dthetaXY (dtx dty : Option Arg) (mask : Option (List Bool))
  | filter (keep : List Bool)
  | propDz (dz : Arg) (mask : Option (List Bool))
  | propD (d : Arg) (mask : Option (List Bool))
  | snap
  | append (hits : Dict String (List α)) (pos : String)

/-- One operation. -/
def Batch.step {α : Type} (b : Batch α) : MuOp α → Except Err (Batch α)
  | .dxyz dx dy dz m => b.scatterDxyz dx dy dz m
  | .dthetaDphi a c m => b.scatterDthetaDphi a c m
  | .dthetaXY a c m => b.scatterDthetaXY a c m
  | .filter k => b.filterMuons k
  | .propDz d m => b.propagateDz d m
  | .propD d m => b.propagateD d m
  | .snap => .ok b.snapshot
  | .append h p => .ok (b.appendHits h p)

/-- A finite history of operations; it stops at the first exception. -/
def Batch.run {α : Type} (b : Batch α) : List (MuOp α) → Except Err (Batch α)
  | [] => .ok b
  | op :: ops => match b.step op with
    | .ok b' => b'.run ops
    | .error e => .error e

end

end Tomopt
