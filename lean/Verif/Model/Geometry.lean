import Verif.Model.Volume
import Mathlib.Algebra.Order.Round

/-
Model of the voxel geometry of tomopt/volume/volume.py.
-/
namespace Tomopt

noncomputable section

/-- python `round`: to the nearest integer, halves to even. -/
def pyRound (x : ℝ) : ℤ :=
  let f := ⌊x⌋
  let d := x - f
  if d < 1 / 2 then f else if 1 / 2 < d then f + 1 else if f % 2 = 0 then f else f + 1

/-- python `range(a, b)` as used by `np.mgrid[a:b:1]` -/
def irange (a b : ℤ) : List ℤ := (List.range (b - a).toNat).map fun (i : Nat) => a + i

namespace Volume

/-- volume.py 365-371 `lw`: of the last passive layer; IndexError without passive layers. -/
def lw (V : Volume) : Except Err (ℝ × ℝ) :=
  match V.passives.getLast? with
  | some L => .ok L.lw
  | none => .error .indexError

/-- volume.py 374-380 `passive_size`. -/
def passiveSize (V : Volume) : Except Err ℝ :=
  match V.passives.getLast? with
  | some L => .ok L.size
  | none => .error .indexError

/-- volume.py 71-78 `get_passive_z_range`. -/
def zRange (V : Volume) : Except Err (ℝ × ℝ) :=
  match V.passives.head?, V.passives.getLast? with
  | some T, some B => .ok (B.z - B.size, T.z)
  | _, _ => .error .indexError

/-- volume.py 85-96: the mgrid of x, y and z multiples of the voxel size, flattened with z fastest. -/
def gridOf (lw : ℝ × ℝ) (s : ℝ) (zr : ℝ × ℝ) : List (ℝ × ℝ × ℝ) :=
  (irange 0 (pyRound (lw.1 / s))).flatMap fun (i : ℤ) =>
    (irange 0 (pyRound (lw.2 / s))).flatMap fun (j : ℤ) =>
      (irange (pyRound (zr.1 / s)) (pyRound (zr.2 / s))).map fun (k : ℤ) => (s * i, s * j, s * k)

/-- volume.py 80-96 `build_xyz_edges` (also the value of the cached property 392-399 `xyz_edges`: layers do not change after construction). -/
def xyzEdges (V : Volume) : Except Err (List (ℝ × ℝ × ℝ)) := do
  let lw ← V.lw
  let s ← V.passiveSize
  let zr ← V.zRange
  .ok (gridOf lw s zr)

/-- volume.py 402-409 `xyz_centres`. -/
def xyzCentres (V : Volume) : Except Err (List (ℝ × ℝ × ℝ)) := do
  let es ← V.xyzEdges
  let s ← V.passiveSize
  .ok (es.map fun e => (e.1 + s / 2, e.2.1 + s / 2, e.2.2 + s / 2))

/-- volume.py 114-127 `get_rad_cube`: bottom layer first; layers without material are skipped. -/
def radCube (V : Volume) : Except Err (List (List (List ℝ))) :=
  let vols := V.passives.reverse
  if vols.length = 0 then .error .valueError
  else
    let rads := vols.filterMap (·.radLength)
    if rads.length > 0 then .ok rads else .error .attributeError

/-- volume.py 145-148: a row outside the passive volume -/
def outsideRow (lw : ℝ × ℝ) (zr : ℝ × ℝ) (q : ℝ × ℝ × ℝ) : Bool :=
  decide (q.1 > lw.1) || decide (q.1 < 0) || decide (q.2.1 > lw.2) || decide (q.2.1 < 0) || decide (q.2.2 < zr.1) || decide (q.2.2 > zr.2)

/-- volume.py 129-151 `lookup_passive_xyz_coords`. The first component of the result is what the function returns, the second is the content of the
caller's tensor afterwards: line 150 writes into it. -/
def lookup (V : Volume) (xyz : List (ℝ × ℝ × ℝ)) : Except Err (List (ℤ × ℤ × ℤ) × List (ℝ × ℝ × ℝ)) := do
  let lw ← V.lw
  let zr ← V.zRange
  let s ← V.passiveSize
  if xyz.any (outsideRow lw zr) then .error .valueError
  else
    let moved := xyz.map fun q => (q.1, q.2.1, q.2.2 - zr.1)
    .ok (moved.map fun q => (⌊q.1 / s⌋, ⌊q.2.1 / s⌋, ⌊q.2.2 / s⌋), moved)

end Volume

end

end Tomopt
