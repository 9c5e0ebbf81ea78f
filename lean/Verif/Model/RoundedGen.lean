import Verif.Model.Generation
import Verif.Spec.Floats

/-
Model of muon/generation.py 121-152 with floating-point arithmetic: sums, products and draws are rounded to double precision by `fl`, the muons to single precision by
`fl32` when they become a tensor. The tables of bin centres and fluxes are given, as computed by the constructor.
-/
namespace Tomopt

noncomputable section
open Real

namespace Gen

/-- generation.py 65 `np.cumsum`, which adds one entry after the other -/
def cumsumFlFrom (fl : ℝ → ℝ) : ℝ → List ℝ → List ℝ
  | _, [] => []
  | s, x :: xs => fl (s + x) :: cumsumFlFrom fl (fl (s + x)) xs

def cumsumFl (fl : ℝ → ℝ) (xs : List ℝ) : List ℝ := cumsumFlFrom fl 0 xs

/-- `np.random.uniform(a, b)`: `a + (b - a) * u` for the next double `u` of [0, 1), a multiple of 2⁻⁵³ -/
def uniformFl (fl : ℝ → ℝ) (a b u : ℝ) : ℝ := fl (a + fl (fl (b - a) * u))

/-- generation.py 135-136: the flattened bin of a muon; `none` without bins (IndexError) -/
def binFl (fl : ℝ → ℝ) (fluxes : List ℝ) (u : ℝ) : Option Nat :=
  match (cumsumFl fl fluxes).getLast? with
  | none => none
  | some tot => some (searchsorted (cumsumFl fl fluxes) (uniformFl fl 0 tot u))

/-- generation.py 42-65: what a generator keeps; `fluxes` is laid out theta by theta -/
structure ConfFl where
  xr : ℝ × ℝ
  yr : ℝ × ℝ
  mom : Option ℝ
  energies : List ℝ
  thetas : List ℝ
  fluxes : List ℝ
  /-- `_muon_mass2` -/
  mass2 : ℝ

/-- generation.py 121-152 `generate_set`, for one muon, as it is in the tensor; the momentum is `none` for NaN. `twoPi` is `2 * np.pi` -/
def ConfFl.muon (c : ConfFl) (fl fl32 : ℝ → ℝ) (twoPi : ℝ) (d : Draw) : Except Err (ℝ × ℝ × Option ℝ × ℝ × ℝ) :=
  match binFl fl c.fluxes d.sample with
  | none => .error .indexError
  | some i =>
    match c.thetas[i / c.energies.length]?, c.energies[i % c.energies.length]? with
    | some t, some e =>
      let p := match c.mom with
        | none => (sqrt? (fl (fl (e * e) - c.mass2))).map fl
        | some p => some p
      .ok (fl32 (uniformFl fl c.xr.1 c.xr.2 d.x), fl32 (uniformFl fl c.yr.1 c.yr.2 d.y), p.map fl32, fl32 t, fl32 (uniformFl fl 0 twoPi d.phi))
    | _, _ => .error .indexError

end Gen

end

end Tomopt
