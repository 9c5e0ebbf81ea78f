import Verif.Model.Geometry
import Mathlib.Analysis.SpecialFunctions.Trigonometric.Inverse

/-
Model of tomopt/inference/scattering.py: track fits, angles, points of closest approach, filtering.

* Hits, uncertainties and efficiencies are IEEE values (`XF`) as recorded by the panels; the arithmetic on finite values is exact.
* A track with a NaN component is represented as `none` as a whole (every use of it in the code gives NaN or drops the muon).
* Derivatives (uncertainties of inferred variables, 515-539) are not modelled here.
-/
namespace Tomopt

noncomputable section

open Real

abbrev V3 := ℝ × ℝ × ℝ
abbrev X3 := XF × XF × XF

/-- A fitted track: (vec, start) as returned by `get_muon_trajectory`. -/
abbrev Track := V3 × V3

namespace XF

/-- `a / b` -/
def div : XF → XF → XF
  | .num a, .num b => quot a b
  | .pinf, .num b => if b ≥ 0 then .pinf else .ninf
  | .ninf, .num b => if b ≥ 0 then .ninf else .pinf
  | .num _, .pinf => .num 0
  | .num _, .ninf => .num 0
  | _, _ => .nan

/-- `x < c` (False for NaN) -/
def lt (x : XF) (c : ℝ) : Bool :=
  match x with
  | .num x => decide (x < c)
  | .ninf => true
  | _ => false

end XF

namespace Scatter

/-- scattering.py 136: infinite hit coordinates are replaced by half the mean of length and width; NaN stays. -/
def hitCoord (lw : ℝ × ℝ) : XF → Option ℝ
  | .num x => some x
  | .pinf => some ((lw.1 + lw.2) / 2 / 2)
  | .ninf => some ((lw.1 + lw.2) / 2 / 2)
  | .nan => none

/-- scattering.py 137 and 141: `nan_to_num(unc) ** -2`. Infinite uncertainties become the largest float32, whose inverse square is 0 in float32. NaN
becomes 0, whose inverse square is inf: every quotient below is then NaN, `none`. -/
def invUnc2 : XF → Option ℝ
  | .num u => if u = 0 then none else some (1 / u ^ 2)
  | .pinf => some 0
  | .ninf => some 0
  | .nan => none

/-- a hit as seen by the fit in one projection: coordinate, height, weight -/
structure FitPt where
  x : ℝ
  z : ℝ
  w : ℝ

/-- scattering.py 141-151: offset and slope of the fit in one projection; `none` where a quotient is 0/0. -/
def fitAxis (l : List FitPt) : Option (ℝ × ℝ) :=
  let s := (l.map fun h => h.w).sum
  if s = 0 then none else
  let mx := (l.map fun h => h.x * h.w).sum / s
  let mz := (l.map fun h => h.z * h.w).sum / s
  let mxz := (l.map fun h => h.x * h.z * h.w).sum / s
  let mz2 := (l.map fun h => h.z * h.z * h.w).sum / s
  if mz2 = 0 then none else
  if 1 - mz ^ 2 / mz2 = 0 then none else
  let star := (mx - mz * mxz / mz2) / (1 - mz ^ 2 / mz2)
  some (star, (mxz - star * mz) / mz2)

/-- scattering.py 136-141: the points of one projection -/
def axisPts (lw : ℝ × ℝ) (c : X3 → XF) : List (X3 × X3) → Option (List FitPt)
  | [] => some []
  | (h, u) :: l => do
    let x ← hitCoord lw (c h)
    let z ← hitCoord lw h.2.2
    let w ← invUnc2 (c u)
    let r ← axisPts lw c l
    some (⟨x, z, w⟩ :: r)

/-- scattering.py 156-157 `_calc_xyz` -/
def calcXYZ (fx fy : ℝ × ℝ) (z : ℝ) : V3 := (fx.1 + fx.2 * z, fy.1 + fy.2 * z, z)

/-- scattering.py 115-162 `get_muon_trajectory` for one muon: hits paired with uncertainties. The track starts at the height of hit 0 and its
vector reaches to the height of hit 1; IndexError with fewer than two hits. -/
def trajectory (lw : ℝ × ℝ) (hits : List (X3 × X3)) : Except Err (Option Track) :=
  match hits[0]?, hits[1]? with
  | some h0, some h1 => .ok do
      let px ← axisPts lw (·.1) hits
      let py ← axisPts lw (·.2.1) hits
      let fx ← fitAxis px
      let fy ← fitAxis py
      let z0 ← hitCoord lw h0.1.2.2
      let z1 ← hitCoord lw h1.1.2.2
      let start := calcXYZ fx fy z0
      let stop := calcXYZ fx fy z1
      some ((stop.1 - start.1, stop.2.1 - start.2.1, stop.2.2 - start.2.2), start)
  | _, _ => .error .indexError

/-! ### Angles -/

def vdot (p q : V3) : ℝ := p.1 * q.1 + p.2.1 * q.2.1 + p.2.2 * q.2.2

/-- `norm(dim=-1)` -/
def vnorm (p : V3) : ℝ := sqrt (vdot p p)

/-- scattering.py 290-302 `_compute_theta_msc`; NaN for a zero vector. -/
def thetaMsc (p q : V3) : Option ℝ :=
  if vnorm p * vnorm q = 0 then none else some (arccos (vdot p q / (vnorm p * vnorm q)))

/-- scattering.py 305-322 `_compute_theta`; NaN for a zero vector. -/
def thetaOf (v : V3) : Option ℝ :=
  if vnorm v = 0 then none
  else
    let arg := -v.2.2 / vnorm v
    some (if arg ≠ 1 then arccos arg else 0)

/-- scattering.py 325-351 `_compute_phi` (the assignments in the code's order). -/
def phiOf (x y : ℝ) : ℝ :=
  let phi := 0
  let phi := if x = 0 ∧ y > 0 then π / 2 else phi
  let phi := if x = 0 ∧ y < 0 then 3 * π / 2 else phi
  let phi := if x ≠ 0 then arctan (y / x) else phi
  let phi := if x < 0 then phi + π else phi
  if x > 0 ∧ y < 0 then phi + 2 * π else phi

/-- scattering.py 378-388: smallest of the three differences in phi -/
def dphiMin (phiIn phiOut : ℝ) : ℝ := min (min (2 * π - phiIn + phiOut) (2 * π - phiOut + phiIn)) |phiIn - phiOut|

/-- scattering.py 354-396 `_compute_dtheta_dphi_scatter`: (dtheta, dphi) of the hypothesis with the smaller total; `tie` is the choice of `argmin` when
both are equal (unspecified by torch). -/
def dthetaDphi (tie : Bool) (thIn phiIn thOut phiOut : ℝ) : ℝ × ℝ :=
  let h0 := (|thIn - thOut|, dphiMin phiIn phiOut)
  let h1 := (thIn + thOut, π - dphiMin phiIn phiOut)
  let t0 := sqrt (h0.1 ^ 2 + h0.2 ^ 2)
  let t1 := sqrt (h1.1 ^ 2 + h1.2 ^ 2)
  if t0 < t1 then h0 else if t1 < t0 then h1 else if tie then h0 else h1

/-! ### Scatter locations -/

/-- `torch.cross` -/
def vcross (p q : V3) : V3 := (p.2.1 * q.2.2 - p.2.2 * q.2.1, p.2.2 * q.1 - p.1 * q.2.2, p.1 * q.2.1 - p.2.1 * q.1)

/-- determinant of the matrix with columns a, b, c -/
def det3 (a b c : V3) : ℝ := vdot a (vcross b c)

/-- scattering.py 492-495: solution of `t1*u - t2*v + t3*(u x v) = rhs` by the inverse matrix; `none` where torch raises for a singular matrix.
Simplification: the inverse is exact (Cramer's rule). -/
def trackCoefs (tin tout : Track) : Option (ℝ × ℝ × ℝ) :=
  let u := tin.1
  let v := tout.1
  let w := vcross u v
  let nv : V3 := (-v.1, -v.2.1, -v.2.2)
  let rhs : V3 := (tout.2.1 - tin.2.1, tout.2.2.1 - tin.2.2.1, tout.2.2.2 - tin.2.2.2)
  let d := det3 u nv w
  if d = 0 then none else some (det3 rhs nv w / d, det3 u rhs w / d, det3 u nv rhs / d)

/-- scattering.py 752-762 `poca_xyz` -/
def poca (tin tout : Track) (c : ℝ × ℝ × ℝ) : V3 :=
  let w := vcross tin.1 tout.1
  let q1 : V3 := (tin.2.1 + c.1 * tin.1.1, tin.2.2.1 + c.1 * tin.1.2.1, tin.2.2.2 + c.1 * tin.1.2.2)
  (q1.1 + c.2.2 * w.1 / 2, q1.2.1 + c.2.2 * w.2.1 / 2, q1.2.2 + c.2.2 * w.2.2 / 2)

/-- scattering.py 776-785 `dxy` -/
def dxy (tin tout : Track) (c : ℝ × ℝ × ℝ) : ℝ × ℝ :=
  let w := vcross tin.1 tout.1
  (c.2.2 * w.1, c.2.2 * w.2.1)

/-- scattering.py 497-504 `_compute_xyz_in`; `none` where the quotient by the track's z component is not finite. -/
def xyzIn (zr : ℝ × ℝ) (t : Track) : Option V3 :=
  if t.1.2.2 = 0 then none
  else
    let r := (zr.2 - t.2.2.2) / t.1.2.2
    some (t.2.1 + r * t.1.1, t.2.2.1 + r * t.1.2.1, t.2.2.2 + r * t.1.2.2)

/-- scattering.py 506-513 `_compute_xyz_out` -/
def xyzOut (zr : ℝ × ℝ) (t : Track) : Option V3 :=
  if t.1.2.2 = 0 then none
  else
    let r := (t.2.2.2 - zr.1) / t.1.2.2
    some (t.2.1 - r * t.1.1, t.2.2.1 - r * t.1.2.1, t.2.2.2 - r * t.1.2.2)

/-- scattering.py 164-178 `get_scatter_mask` for one location -/
def inVolume (lw zr : ℝ × ℝ) (q : V3) : Bool :=
  decide (q.1 ≥ 0) && decide (q.1 < lw.1) && decide (q.2.1 ≥ 0) && decide (q.2.1 < lw.2) && decide (q.2.2 ≥ zr.1) && decide (q.2.2 < zr.2)

/-- scattering.py 974-1008 `theta_xy_in`, `theta_xy_out` -/
def thetaXY (th ph : ℝ) : ℝ × ℝ := (arctan (tan th * cos ph), arctan (tan th * sin ph))

/-- scattering.py 1021-1031 `dtheta_xy` -/
def dthetaXY (a b : ℝ × ℝ) : ℝ × ℝ := (|a.1 - b.1|, |a.2 - b.2|)

/-! ### Batches -/

/-- scattering.py 403-410: the combined tensors, one entry per muon -/
structure Hits where
  nAbove : Nat
  nBelow : Nat
  reco : List (List X3)
  gen : List (List X3)
  unc : List (List X3)
  eff : List (List XF)

/-- a row of three values -/
def parse3 (r : Row) : Except Err X3 :=
  match r with
  | [a, b, c] => .ok (a, b, c)
  | _ => .error .indexError

/-- a row of one value -/
def parse1 (r : Row) : Except Err XF :=
  match r with
  | [a] => .ok a
  | _ => .error .indexError

/-- `torch.cat((a, b), dim=1)` -/
def catDim1 {β : Type} (a b : List (List β)) : Except Err (List (List β)) :=
  if a.length = b.length then .ok (List.zipWith (· ++ ·) a b) else .error .runtimeError

/-- `t.shape[1]` (0 for a batch without muons, where no row is ever split) -/
def shape1 {β : Type} : List (List β) → Nat
  | [] => 0
  | r :: _ => r.length

/-- `self.hits[pos][var]` -/
def hitVar (h : Dict String (Dict String (List (List Row)))) (pos var : String) : Except Err (List (List Row)) :=
  match h.get? pos with
  | none => .error .keyError
  | some vars =>
    match vars.get? var with
    | none => .error .keyError
    | some t => .ok t

/-- one variable, above and below combined -/
def bothSides (h : Dict String (Dict String (List (List Row)))) (var : String) : Except Err (List (List Row)) := do
  let a ← hitVar h "above" var
  let b ← hitVar h "below" var
  catDim1 a b

/-- scattering.py 398-410 `_extract_hits` -/
def extract (h : Dict String (Dict String (List (List Row)))) : Except Err Hits := do
  let a ← hitVar h "above" "reco_xyz"
  let b ← hitVar h "below" "reco_xyz"
  let reco ← bothSides h "reco_xyz"
  let gen ← bothSides h "gen_xyz"
  let unc ← bothSides h "unc_xyz"
  let eff ← bothSides h "eff"
  let reco ← mapE (mapE parse3) reco
  let gen ← mapE (mapE parse3) gen
  let unc ← mapE (mapE parse3) unc
  let eff ← mapE (mapE parse1) eff
  .ok ⟨shape1 a, shape1 b, reco, gen, unc, eff⟩

/-- `unc / eff` -/
def scaleUnc (u : X3) (e : XF) : X3 := (u.1.div e, u.2.1.div e, u.2.2.div e)

/-- scattering.py 412-418 `_compute_tracks` for one muon with `n` hits above (properties 602-713 split at `n`). -/
def muonTracks (lw : ℝ × ℝ) (n : Nat) (reco unc : List X3) (eff : List XF) : Except Err (Option Track × Option Track) := do
  let tin ← trajectory lw ((reco.take n).zip (List.zipWith scaleUnc (unc.take n) (eff.take n)))
  let tout ← trajectory lw ((reco.drop n).zip (List.zipWith scaleUnc (unc.drop n) (eff.drop n)))
  .ok (tin, tout)

/-- `torch.ones_like` -/
def ones3 (_ : X3) : X3 := (.num 1, .num 1, .num 1)

/-- scattering.py 1126-1135 `GenScatterBatch._compute_tracks` for one muon: true hits, unit uncertainties. -/
def muonTracksGen (lw : ℝ × ℝ) (n : Nat) (gen : List X3) : Except Err (Option Track × Option Track) := do
  let tin ← trajectory lw ((gen.take n).map fun h => (h, ones3 h))
  let tout ← trajectory lw ((gen.drop n).map fun h => (h, ones3 h))
  .ok (tin, tout)

/-- one muon's rows of the combined tensors: reco, gen, unc, eff -/
def Hits.rows (h : Hits) : List (List X3 × List X3 × List X3 × List XF) := h.reco.zip (h.gen.zip (h.unc.zip h.eff))

/-- scattering.py 412-418, 1126-1135; `gen` selects the subclass. -/
def rowTracks (gen : Bool) (lw : ℝ × ℝ) (n : Nat) (r : List X3 × List X3 × List X3 × List XF) : Except Err (Option Track × Option Track) :=
  if gen then muonTracksGen lw n r.2.1 else muonTracks lw n r.1 r.2.2.1 r.2.2.2

def computeTracks (gen : Bool) (lw : ℝ × ℝ) (h : Hits) : Except Err (List (Option Track × Option Track)) := mapE (rowTracks gen lw h.nAbove) h.rows

/-- scattering.py 443-458: keep one muon? `unc` are its hit uncertainties (`_hit_uncs`). -/
def keepMuon (lw zr : ℝ × ℝ) (t : Option Track × Option Track) (unc : List X3) : Bool :=
  match t with
  | (some tin, some tout) =>
    (match thetaMsc tin.1 tout.1 with | some a => decide (a ≠ 0) | none => false) &&
    (match thetaOf tin.1 with | some a => decide (a - π / 2 < -1e-5) | none => false) &&
    (match thetaOf tout.1 with | some a => decide (a - π / 2 < -1e-5) | none => false) &&
    (match xyzIn zr tin with
      | some q => decide (q.1 > -10 * lw.1) && decide (q.2.1 > -10 * lw.2) && decide (q.1 < 10 * lw.1) && decide (q.2.1 < 10 * lw.2)
      | none => false) &&
    (match xyzOut zr tout with
      | some q => decide (q.1 > -10 * lw.1) && decide (q.2.1 > -10 * lw.2) && decide (q.1 < 10 * lw.1) && decide (q.2.1 < 10 * lw.2)
      | none => false) &&
    unc.all fun u => u.1.lt 1e10 && u.2.1.lt 1e10
  | _ => false

/-- The state of a `ScatterBatch` -/
structure SB where
  mu : Batch Row
  hits : Hits
  tracks : List (Option Track × Option Track)

/-- uncertainties the filter looks at: 1132 replaces them by ones -/
def rowUnc (gen : Bool) (r : List X3 × List X3 × List X3 × List XF) : List X3 := if gen then r.2.1.map ones3 else r.2.2.1

/-- the mask 443-458 before `squeeze_` -/
def keepMask (gen : Bool) (lw zr : ℝ × ℝ) (s : SB) : List Bool :=
  List.zipWith (fun t r => keepMuon lw zr t (rowUnc gen r)) s.tracks s.hits.rows

/-- scattering.py 420-465 `_filter_scatters`. Line 460 `squeeze_()` of a mask of shape (N,1) has shape (N,) except for N = 1, where it has no dimension at
all: indexing with it prepends a dimension instead of selecting rows, and the recomputation of the tracks fails on the shapes (143), or already the
concatenation in `filter_muons` (muon_batch.py 273) if muons had been removed before. -/
def filterScatters (gen : Bool) (lw zr : ℝ × ℝ) (s : SB) : Except Err SB :=
  let mask := keepMask gen lw zr s
  if mask.all id then .ok s
  else if mask.length = 1 then .error (if s.mu.removed.isEmpty then .runtimeError else .valueError)
  else do
    let mu ← s.mu.filterMuons mask
    let h ← mu.getHits none none
    let hits ← extract h
    let tracks ← computeTracks gen lw hits
    .ok ⟨mu, hits, tracks⟩

/-- the coefficients of one muon; a NaN track never gets here (it is filtered), torch raises for a singular matrix -/
def coefsOf (t : Option Track × Option Track) : Except Err (Track × Track × (ℝ × ℝ × ℝ)) :=
  match t with
  | (some tin, some tout) =>
    match trackCoefs tin tout with
    | some c => .ok (tin, tout, c)
    | none => .error .runtimeError
  | _ => .error .runtimeError

/-- scattering.py 98-109 `__init__` with 467-495 `_compute_scatters`: the batch and, per muon, the tracks and coefficients. -/
def build (gen : Bool) (V : Volume) (mu : Batch Row) : Except Err (SB × List (Track × Track × (ℝ × ℝ × ℝ))) := do
  let h ← mu.getHits none none
  let hits ← extract h
  let lw ← V.lw
  let zr ← V.zRange
  let tracks ← computeTracks gen lw hits
  let s ← filterScatters gen lw zr ⟨mu, hits, tracks⟩
  let cs ← mapE coefsOf s.tracks
  .ok (s, cs)

end Scatter

end

end Tomopt
