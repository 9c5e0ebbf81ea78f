import Verif.Model.Muon
import Verif.Model.Geometry
import Mathlib.Analysis.SpecialFunctions.Pow.Real

/-
Model of tomopt/muon/generation.py and of tomopt/optimisation/callbacks/data_callbacks.py.
Random draws are arguments: a draw of `np.random.uniform(a, b)` is `a + (b - a) * u` with `u` in [0, 1).
-/
namespace Tomopt

noncomputable section
open Real

namespace Gen

/-- one generated muon: x, y, momentum, theta, phi -/
abbrev Row := ℝ × ℝ × ℝ × ℝ × ℝ

/-- generation.py 58: `np.geomspace(a, b, n + 1)[i]` for positive `a`, `b` -/
def geomEdge (a b : ℝ) (n i : Nat) : ℝ := a * (b / a) ^ ((i : ℝ) / n)

/-- generation.py 60: `np.linspace(a, b, n + 1)[i]` -/
def linEdge (a b : ℝ) (n i : Nat) : ℝ := a + (b - a) * i / n

/-- generation.py 59 and 61: the mean of two neighbouring edges -/
def centre (edge : Nat → ℝ) (i : Nat) : ℝ := (edge i + edge (i + 1)) / 2

/-- generation.py 42-65: the state of a generator (the flux is a parameter; `_n_bins_energy` and `_n_bins_theta` are 200 in the code). -/
structure Conf where
  xr : ℝ × ℝ
  yr : ℝ × ℝ
  /-- `fixed_mom` -/
  mom : Option ℝ
  er : ℝ × ℝ
  tr : ℝ × ℝ
  nE : Nat
  nT : Nat
  /-- flux (energy, theta) -/
  flux : ℝ → ℝ → ℝ

variable (c : Conf)

def Conf.energy (i : Nat) : ℝ := centre (geomEdge c.er.1 c.er.2 c.nE) i
def Conf.theta (i : Nat) : ℝ := centre (linEdge c.tr.1 c.tr.2 c.nT) i

/-- generation.py 64-65: `np.meshgrid(energies, thetas)` is laid out theta by theta -/
def Conf.fluxes : List ℝ := (List.range c.nT).flatMap fun t => (List.range c.nE).map fun e => c.flux (c.energy e) (c.theta t)

/-- `np.cumsum` -/
def cumsumFrom : ℝ → List ℝ → List ℝ
  | _, [] => []
  | s, x :: xs => (s + x) :: cumsumFrom (s + x) xs

def cumsum (xs : List ℝ) : List ℝ := cumsumFrom 0 xs

/-- `a.searchsorted(v)`: the position of the first entry that is not below `v`, found by bisection; for a sorted array this is the number of
entries below `v`. (Fluxes are not negative for theta up to π/2, see `C58.flux2015_pos`, `C58.flux2016_pos`.) -/
def searchsorted (a : List ℝ) (v : ℝ) : Nat := (a.filter fun x => decide (x < v)).length

/-- the draws for one muon -/
structure Draw where
  sample : ℝ
  phi : ℝ
  x : ℝ
  y : ℝ

/-- generation.py 38: the squared muon mass in GeV² (the PDG value 105.6583755 MeV) -/
def mass2 : ℝ := (0.1056583755) ^ 2

/-- generation.py 135-136: the flattened bin of a muon; `none` without bins (`_cumulative_flux[-1]` raises an IndexError) -/
def Conf.bin (u : ℝ) : Option Nat :=
  match (cumsum c.fluxes).getLast? with
  | none => none
  | some tot => some (searchsorted (cumsum c.fluxes) (0 + (tot - 0) * u))

/-- `np.sqrt` with NaN as `none` -/
def sqrt? (x : ℝ) : Option ℝ := if x < 0 then none else some (Real.sqrt x)

/-- generation.py 121-152 `generate_set`, for one muon; the momentum is `none` for NaN. -/
def Conf.muon (d : Draw) : Except Err (ℝ × ℝ × Option ℝ × ℝ × ℝ) :=
  match c.bin d.sample with
  | none => .error .indexError
  | some i =>
    let t := i / c.nE
    let e := i % c.nE
    if t < c.nT ∧ e < c.nE then
      let p := match c.mom with
        | none => sqrt? (c.energy e ^ 2 - mass2)
        | some p => some p
      .ok (c.xr.1 + (c.xr.2 - c.xr.1) * d.x, c.yr.1 + (c.yr.2 - c.yr.1) * d.y, p, c.theta t, 0 + (2 * π - 0) * d.phi)
    else .error .indexError

/-- generation.py 171-199 `MuonGenerator2015.flux` -/
def flux2015 (energy theta : ℝ) : ℝ :=
  let c := cos theta
  let cosine := Real.sqrt ((c ^ 2 + 0.102573 ^ 2 + -0.068287 * c ^ (0.958633 : ℝ) + 0.0407253 * c ^ (0.817285 : ℝ)) / (1 + 0.102573 ^ 2 + -0.068287 + 0.0407253))
  0.14 * (energy * (1 + 3.64 / (energy * cosine ^ (1.29 : ℝ)))) ^ (-2.7 : ℝ) *
    (1 / (1 + 1.1 * energy * cosine / 115) + 0.054 / (1 + 1.1 * energy * cosine / 850)) * c * sin theta

/-- generation.py 218-241 `MuonGenerator2016.flux` -/
def flux2016 (energy theta : ℝ) : ℝ :=
  let n : ℝ := 3
  let N : ℝ := (n - 1) * (3.87 + 0.5) ^ (n - 1)
  let cosine := (Real.sqrt (174 ^ 2 * cos theta ^ 2 + 2 * 174 + 1) - 174 * cos theta) ^ (-(n - 1))
  88 * N * (3.87 + energy) ^ (-n) * (1 + energy * (1 / 854)) ^ (-1 : ℝ) * cosine * cos theta * sin theta

/-- volume.py 383-389 `h`; IndexError without layers -/
def heightOf (V : Volume) : Except Err ℝ :=
  match V.layers with
  | [] => .error .indexError
  | l :: _ => .ok l.z

/-- generation.py 93-119 `from_volume`: the ranges of x and y -/
def fromVolume (V : Volume) (minAngle : ℝ) : Except Err ((ℝ × ℝ) × (ℝ × ℝ)) :=
  match V.lw with
  | .error e => .error e
  | .ok lw => match heightOf V with
    | .error e => .error e
    | .ok h => match V.zRange with
      | .error e => .error e
      | .ok zr => match V.passiveSize with
        | .error e => .error e
        | .ok s =>
          let d := tan minAngle * (h - zr.1 + s)
          .ok ((0 - d, lw.1 + d), (0 - d, lw.2 + d))

/- Resampling. -/

/-- data_callbacks.py 35-39: the loop over the passive layers -/
def checkLoop (lw : ℝ × ℝ) : List PassiveLayer → Batch Unit → List Bool → Except Err (List Bool)
  | [], _, ok => .ok ok
  | L :: Ls, b, ok =>
    match b.propagateDz (.vec (b.muons.map fun m => m.z - L.z)) none with
    | .error e => .error e
    | .ok b' => checkLoop lw Ls b' (List.zipWith (· || ·) ok (b'.xyMask (some (0, 0)) (some lw)))

/-- data_callbacks.py 22-40 `check_mu_batch` on freshly made muons (64). `volume.lw` is only evaluated in the loop; without passive layers it is never
needed. -/
def check (h : ℝ) (lw : ℝ × ℝ) (Ls : List PassiveLayer) (rows : List Row) : Except Err (List Bool) :=
  checkLoop lw Ls (Batch.init rows h).copy (List.replicate rows.length false)

/-- data_callbacks.py 59-73: the loop of `resample`. `gen i k` is what the generator returns for `k` muons at its `i`-th call; `none`: still
running after `fuel` rounds. -/
def resampleLoop (h : ℝ) (lw : ℝ × ℝ) (Ls : List PassiveLayer) (gen : Nat → Nat → List Row) :
    Nat → Nat → List Row → List Bool → Except Err (Option (List Row))
  | 0, _, mus, ok => if countTrue ok < mus.length then .ok none else .ok (some mus)
  | fuel + 1, i, mus, ok =>
    if countTrue ok < mus.length then
      let sel := pick (inv ok) mus
      match check h lw Ls sel with
      | .error e => .error e
      | .ok tmp =>
        let sel' := put (inv tmp) sel (gen i (countTrue (inv tmp)))
        resampleLoop h lw Ls gen fuel (i + 1) (put (inv ok) mus sel') (put (inv ok) ok (List.zipWith (· || ·) (pick (inv ok) ok) tmp))
    else .ok (some mus)

/-- data_callbacks.py 42-73 `resample` -/
def resample (h : ℝ) (lw : ℝ × ℝ) (Ls : List PassiveLayer) (gen : Nat → Nat → List Row) (fuel : Nat) (mus : List Row) : Except Err (Option (List Row)) :=
  resampleLoop h lw Ls gen fuel 0 mus (List.replicate mus.length false)

end Gen

end

end Tomopt
