import Verif.Model.Muon
import Mathlib.Analysis.SpecialFunctions.Log.Basic

/-
Model of tomopt/volume/layer.py, passive layers. Random numbers are parameters: the standard normal draws used for a muon in a
pass are given by a function of the pass number and of the ghost identity of the muon (any assignment of draws to muons is
allowed, so this loses nothing). Float arithmetic is exact; `x0`, `step_sz` and momenta are positive in all theorems
that use quotients by them.
-/
namespace Tomopt

noncomputable section
open Real

/-- sequencing of an element-wise computation that may raise -/
def mapE {β γ : Type} (f : β → Except Err γ) : List β → Except Err (List γ)
  | [] => .ok []
  | x :: xs =>
    match f x with
    | .error e => .error e
    | .ok y =>
      match mapE f xs with
      | .error e => .error e
      | .ok ys => .ok (y :: ys)

/-- `xs[i]` for a python/torch integer index: negative indices count from the end, others out of range are an IndexError. -/
def getIdx {β : Type} (xs : List β) (i : ℤ) : Except Err β :=
  let j := if i < 0 then i + xs.length else i
  if j < 0 then .error .indexError
  else match xs[j.toNat]? with
    | some x => .ok x
    | none => .error .indexError

/-- The two pairs of standard normal numbers of `_pdg_scatter` (layer.py 281-282: `z1`, `z2` of shape (2,n)) for one muon. -/
structure Draw where
  z1x : ℝ
  z1y : ℝ
  z2x : ℝ
  z2y : ℝ

/-- The dictionary returned by `_pdg_scatter` for one muon; angles may be NaN (`none`). -/
structure Scat where
  dx : ℝ
  dy : ℝ
  dz : ℝ
  dtx : Option ℝ
  dty : Option ℝ

/-- core.py 17 -/
def scatterCoefA : ℝ := 0.0136
/-- core.py 18 -/
def scatterCoefB : ℝ := 0.038

/-- layer.py 278-285: `theta0 = (A / mom) * sqrt(n_x0) * (1 + B * log(n_x0))` with `n_x0 = step_sz / x0`. -/
def pdgTheta0 (x0 mom stepSz : ℝ) : ℝ :=
  (scatterCoefA / mom) * sqrt (stepSz / x0) * (1 + scatterCoefB * log (stepSz / x0))

/-- layer.py 289: `clamp(z2 * theta0, max=pi/2.2)`. -/
def pdgDtheta (z2 theta0 : ℝ) : ℝ := min (z2 * theta0) (π / 2.2)

/-- layer.py 290: `step_sz * theta0 * (z1/sqrt(12) + z2/2)`. -/
def pdgDxy (stepSz theta0 z1 z2 : ℝ) : ℝ := stepSz * theta0 * (z1 / sqrt 12 + z2 / 2)

/-- layer.py 297: displacement along x of the volume -/
def pdgDxVol (th ph d0 d1 : ℝ) : ℝ := if th ≠ 0 then -d0 * sin ph - d1 * cos (-th) * cos ph else d0
/-- layer.py 298 -/
def pdgDyVol (th ph d0 d1 : ℝ) : ℝ := if th ≠ 0 then d0 * cos ph - d1 * cos (-th) * sin ph else d1
/-- layer.py 299 -/
def pdgDzVol (th d1 : ℝ) : ℝ := if th ≠ 0 then d1 * sin (-th) else 0

/-- layer.py 312-331: the vector `d_out`. -/
def pdgDOut (th ph tx ty a0 a1 : ℝ) : ℝ × ℝ × ℝ :=
  let r := sqrt (tan tx ^ 2 + tan ty ^ 2 + 1 ^ 2)
  let dxm := r * tan a0
  let dym := r * tan a1
  (-tan tx + (if th ≠ 0 then -dxm * sin ph - dym * cos th * cos ph else dxm),
   -tan ty + (if th ≠ 0 then dxm * cos ph - dym * cos th * sin ph else dym),
   -1 + (if th ≠ 0 then dym * sin th else 0))

/-- layer.py 258-343 `_pdg_scatter` for one muon. `theta_x`, `theta_y` may be NaN; then both angular changes are. -/
def pdgScatter (x0 th ph : ℝ) (tx ty : Option ℝ) (mom stepSz : ℝ) (d : Draw) : Scat :=
  let theta0 := pdgTheta0 x0 mom stepSz
  let a0 := pdgDtheta d.z2x theta0
  let a1 := pdgDtheta d.z2y theta0
  let d0 := pdgDxy stepSz theta0 d.z1x d.z2x
  let d1 := pdgDxy stepSz theta0 d.z1y d.z2y
  { dx := pdgDxVol th ph d0 d1
    dy := pdgDyVol th ph d0 d1
    dz := pdgDzVol th d1
    dtx := match tx, ty with
      | some tx, some ty => (arctanDiv (pdgDOut th ph tx ty a0 a1).1 (pdgDOut th ph tx ty a0 a1).2.2).map (· - tx)
      | _, _ => none
    dty := match tx, ty with
      | some tx, some ty => (arctanDiv (pdgDOut th ph tx ty a0 a1).2.1 (pdgDOut th ph tx ty a0 a1).2.2).map (· - ty)
      | _, _ => none }

/-- layer.py 69-134 `PassiveLayer` and its loaded X0 values (`rad_length[x][y]`, `None` when nothing is loaded). -/
structure PassiveLayer where
  lw : ℝ × ℝ
  z : ℝ
  size : ℝ
  stepSz : ℝ
  scatterModel : String
  radLength : Option (List (List ℝ))

namespace PassiveLayer
variable {α : Type}

/-- layer.py 224-239 `abs2idx`, one coordinate. -/
def abs2idx (L : PassiveLayer) (x : ℝ) : ℤ := ⌊x / L.size⌋

/-- layer.py 171-172, 203-222: `self.rad_length[xy_idx[:, 0], xy_idx[:, 1]]` for one muon. -/
def lookupX0 (L : PassiveLayer) (cube : List (List ℝ)) (m : Muon) : Except Err ℝ :=
  match getIdx cube (L.abs2idx m.x) with
  | .error e => .error e
  | .ok col => getIdx col (L.abs2idx m.y)

/-- layer.py 174-180: the step used for scattering is cut at the bottom of the layer. -/
def scatterStep (L : PassiveLayer) (m : Muon) : ℝ :=
  let rOut := (m.z - (L.z - L.size)) / cos m.th
  if rOut < L.stepSz then rOut else L.stepSz

/-- layer.py 345-366 `_compute_scattering`, the choice of the model (scatter_model.py 123: 'pgeant' always raises). -/
def checkModel (L : PassiveLayer) : Except Err Unit :=
  if L.scatterModel = "pdg" then .ok ()
  else if L.scatterModel = "pgeant" then .error .notImplemented
  else .error .valueError

/-- layer.py 168-190: X0 look-up, scattering step and scattering of one muon inside the footprint. -/
def scatterOf (L : PassiveLayer) (cube : List (List ℝ)) (draw : Nat → Draw) (m : Muon) : Except Err Scat :=
  match L.lookupX0 cube m with
  | .error e => .error e
  | .ok x0 => .ok (pdgScatter x0 m.th m.ph (thetaXFromThetaPhi m.th m.ph) (thetaYFromThetaPhi m.th m.ph) m.p
      (L.scatterStep m) (draw m.id))

/-- `scatterXYRow` when the angular changes may be NaN. -/
def scatterXYRowO (m : RawMuon) (dtx dty : Option ℝ) : RawMuon :=
  match dtx, dty with
  | some a, some b => Batch.scatterXYRow m a b
  | _, _ => { m with th := none, ph := none }

/-- muon_batch.py 226-249 `scatter_dtheta_xy` with one angular change (possibly NaN) per selected muon. -/
def scatterAngles (b : Batch α) (scats : List Scat) (mask : List Bool) : Batch α :=
  b.removeUpwards (maskedUpd mask (b.muons.map MuonOf.toRaw) scats fun m s => scatterXYRowO m s.dtx s.dty)

/-- layer.py 153-201 `scatter_and_propagate`. -/
def pass (L : PassiveLayer) (draw : Nat → Draw) (b : Batch α) (mask : List Bool) : Except Err (Batch α) :=
  match L.radLength with
  | none => b.propagateD (.scalar L.stepSz) (some mask)
  | some cube => do
    let sm := (b.xyMask (some (0, 0)) (some L.lw)).zipWith (· && ·) mask
    L.checkModel
    let scats ← mapE (L.scatterOf cube draw) (pick sm b.muons)
    let b1 ← b.scatterDxyz (some (.vec (scats.map (·.dx)))) (some (.vec (scats.map (·.dy))))
      (some (.vec (scats.map (·.dz)))) (some sm)
    let b2 ← b1.propagateD (.scalar L.stepSz) (some mask)
    let dz := b2.muons.map fun m => m.z - (L.z - L.size)
    let em := (dz.map fun d => decide (d < 0)).zipWith (· && ·) mask
    let b3 ← b2.propagateDz (.vec (pick em dz)) (some em)
    .ok (scatterAngles b3 scats sm)

/-- layer.py 150: `(mu.z > (self.z - self.size)) & (mu.z <= self.z)`. -/
def inside (L : PassiveLayer) (m : Muon) : Bool := decide (m.z > L.z - L.size) && decide (m.z ≤ L.z)

/-- layer.py 147-150: the `while mask.any()` loop with a limit on the number of passes; `none` when the limit is hit. -/
def loop (L : PassiveLayer) (rng : Nat → Nat → Draw) : Nat → Nat → Batch α → List Bool → Except Err (Option (Batch α))
  | fuel, k, b, mask =>
    if mask.any id then
      match fuel with
      | 0 => .ok none
      | fuel + 1 => do
        let b' ← L.pass (rng k) b mask
        L.loop rng fuel (k + 1) b' (b'.muons.map L.inside)
    else .ok (some b)

/-- layer.py 136-151 `forward`, cut after `fuel` passes (`none`). -/
def forward (L : PassiveLayer) (rng : Nat → Nat → Draw) (fuel : Nat) (b : Batch α) : Except Err (Option (Batch α)) := do
  let b1 ← b.propagateDz (.vec (b.muons.map fun m => m.z - L.z)) none
  let r ← L.loop rng fuel 0 b1 (List.replicate b1.muons.length true)
  match r with
  | none => .ok none
  | some b2 => do
    let b3 ← b2.propagateDz (.vec (b2.muons.map fun m => m.z - (L.z - L.size))) none
    .ok (some b3)

end PassiveLayer

end

end Tomopt
