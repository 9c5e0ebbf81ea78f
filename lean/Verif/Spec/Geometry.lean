import Verif.Model.Geometry

/- A block of passive layers, described independently of the code. -/
namespace Tomopt

noncomputable section

/-- The passive layers of `V` form one contiguous block of `nz` layers of `nx` by `ny` cubic voxels of side `s` from height `zb` upwards (listed top
first), with material `mat iz ix iy` (layer 0 at the bottom). Detector layers may be anywhere. -/
structure Block (V : Volume) (s zb : ℝ) (nx ny nz : Nat) (mat : Nat → Nat → Nat → ℝ) : Prop where
  pos : 0 < s
  count : V.passives.length = nz
  nonempty : 0 < nz
  layer : ∀ (i : Nat) (L : PassiveLayer), V.passives[i]? = some L →
    L.size = s ∧ L.lw = (nx * s, ny * s) ∧ L.z = zb + ((nz - i : ℕ) : ℝ) * s ∧
    ∃ cube, L.radLength = some cube ∧ cube.length = nx ∧ ∀ ix < nx, ∃ col, cube[ix]? = some col ∧ col.length = ny ∧
      ∀ iy < ny, col[iy]? = some (mat (nz - 1 - i) ix iy)

/-- The point lies in voxel (ix, iy, iz) of the block (half-open cube). -/
def InVoxel (s zb : ℝ) (q : ℝ × ℝ × ℝ) (ix iy iz : Nat) : Prop :=
  ix * s ≤ q.1 ∧ q.1 < (ix + 1) * s ∧ iy * s ≤ q.2.1 ∧ q.2.1 < (iy + 1) * s ∧ zb + iz * s ≤ q.2.2 ∧ q.2.2 < zb + (iz + 1) * s

end

end Tomopt
