import Verif.Model.Layer
import Verif.Model.Geometry
import Verif.Model.Classifier

/- Models: voxel look-up and voxel counts with floating-point division. Comparisons and conversions to integers are exact in floating point. -/
namespace Tomopt

noncomputable section

namespace PassiveLayer

/-- layer.py 224-239 `abs2idx`, one coordinate, with the quotient rounded by `fl`. -/
def abs2idxFl (fl : ℝ → ℝ) (L : PassiveLayer) (x : ℝ) : ℤ := ⌊fl (x / L.size)⌋

/-- layer.py 170: `self.rad_length[xy_idx[:, 0], xy_idx[:, 1]]` for one muon, with rounded quotients. -/
def lookupX0Fl (fl : ℝ → ℝ) (L : PassiveLayer) (cube : List (List ℝ)) (m : Muon) : Except Err ℝ :=
  match getIdx cube (L.abs2idxFl fl m.x) with
  | .error e => .error e
  | .ok col => getIdx col (L.abs2idxFl fl m.y)

end PassiveLayer

/-- Number of voxels along a side of a generated layout, `(lw / size).long()` with the quotient rounded by `fl`: passives.py 211, 259, 293; also ladle_furnace/data.py 30, u_lorry/data.py 32,
small_walls/data.py 40 (`astype(int)`) and the example of layer.py 89. For lengths that are not negative truncation is the floor. -/
def filledCount (fl : ℝ → ℝ) (w s : ℝ) : ℤ := ⌊fl (w / s)⌋

/-- Number of voxels along a side of the volume's grid and of predictions, `round(lw / size)` with the quotient rounded by `fl`: volume.py 85-94, inference/volume.py 50-54. -/
def gridCount (fl : ℝ → ℝ) (w s : ℝ) : ℤ := pyRound (fl (w / s))

/-- layer.py 146, 151 and muon_batch.py 300: the height after `propagate_dz(mu.z - t)`, both differences rounded. -/
def moveToFl (fl : ℝ → ℝ) (z t : ℝ) : ℝ := fl (z - fl (z - t))

namespace PassiveLayer

/-- muon_batch.py 319: the height after `propagate_d(step_sz)`, cosine, product and difference rounded. -/
def stepFl (fl : ℝ → ℝ) (L : PassiveLayer) (th z : ℝ) : ℝ := fl (z - fl (L.stepSz * fl (Real.cos th)))

/-- layer.py 150: a muon at height `z` stays in the loop. -/
def insideFl (fl : ℝ → ℝ) (L : PassiveLayer) (z : ℝ) : Prop := z > fl (L.z - L.size) ∧ z ≤ L.z

open Classical in
/-- layer.py 147-150: the height of a muon that is not scattered (no X0 values loaded, or outside the footprint) when it leaves the loop, if it does within the given number of passes. Simplifications: the muon's
horizontal position is left out, and so is the move back to the bottom in 195-198 for muons outside the footprint (`moveToFl`). -/
def sinkFl (fl : ℝ → ℝ) (L : PassiveLayer) (th : ℝ) : Nat → ℝ → Option ℝ
  | 0, _ => none
  | n + 1, z => if insideFl fl L (stepFl fl L th z) then sinkFl fl L th n (stepFl fl L th z) else some (stepFl fl L th z)

end PassiveLayer

namespace Volume

/-- volume.py 71-78 `get_passive_z_range`, with the difference rounded; `zB` and `zT` are the tops of the lowest and the highest passive layer. -/
def zRangeFl (fl : ℝ → ℝ) (zB zT s : ℝ) : ℝ × ℝ := (fl (zB - s), zT)

/-- volume.py 129-151 `lookup_passive_xyz_coords` for one position, with the difference and the quotients rounded; `s` is the voxel size in the precision of positions. -/
def lookupRowFl (fl : ℝ → ℝ) (lw zr : ℝ × ℝ) (s : ℝ) (q : ℝ × ℝ × ℝ) : Except Err (ℤ × ℤ × ℤ) :=
  if outsideRow lw zr q then .error .valueError else .ok (⌊fl (q.1 / s)⌋, ⌊fl (q.2.1 / s)⌋, ⌊fl (fl (q.2.2 - zr.1) / s)⌋)

/-- volume.py 85-96, one coordinate of a voxel's low edge: the product in the precision of python (`fl64`), then converted to that of positions (`fl`). -/
def edgeFl (fl fl64 : ℝ → ℝ) (s : ℝ) (k : ℤ) : ℝ := fl (fl64 (s * k))

/-- volume.py 401-409 `xyz_centres`, one coordinate. -/
def centreFl (fl fl64 : ℝ → ℝ) (s : ℝ) (k : ℤ) : ℝ := fl (edgeFl fl fl64 s k + fl (fl64 (s / 2)))

end Volume

namespace Ladle

/-- ladle_furnace/loss.py 41-45 `_targ2int`, with the difference rounded. `torch.div` with `rounding_mode="floor"` does not floor a rounded quotient: it is the floor of the exact one. -/
def targ2intFl (fl : ℝ → ℝ) (z0 s t : ℝ) : ℤ := ⌊fl (t - z0) / s⌋ - 1

/-- ladle_furnace/inference.py 38-40 `_class2float`, with product and sum rounded. -/
def class2floatFl (fl : ℝ → ℝ) (z0 s : ℝ) (c : ℤ) : ℝ := fl (fl (((c : ℝ) + 1) * s) + z0)

/-- ladle_furnace/data.py 32, 36: a drawn fill height, with all results rounded. -/
def Gen.matZFl (fl : ℝ → ℝ) (g : Gen) (u : ℝ) : ℝ := fl (fl (g.s + fl (g.z0 + g.s)) + fl (fl (g.z1 - fl (fl (g.z0 + g.s) + g.s)) * u))

/-- ladle_furnace/data.py 32, 44-55: the material of the layer with top `z`, with the bottom of the fill rounded. -/
def Gen.layerFl (fl : ℝ → ℝ) (g : Gen) (matZ slagZ z : ℝ) : ℝ :=
  if z ≤ fl (g.z0 + g.s) then g.furnace
  else if z ≤ matZ then g.fill
  else if z ≤ slagZ then g.slag
  else g.air

end Ladle

end

end Tomopt
