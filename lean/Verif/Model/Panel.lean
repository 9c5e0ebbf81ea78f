import Verif.Model.Muon
import Verif.Model.XF
import Mathlib.Analysis.SpecialFunctions.Log.Basic

/-
Model of tomopt/volume/panel.py: Gaussian and sigmoid detector panels. Gradients are not modelled.
-/
namespace Tomopt

noncomputable section
open Real

/-- A row of a hit tensor. -/
abbrev Row := List XF

/-- panel.py 18-95 `DetectorPanel` (`gauss`) and 287-360 `SigmoidDetectorPanel` (`sigmoid smooth`). -/
inductive PanelKind where
  | gauss
  | sigmoid (smooth : ℝ)

/-- The state of a panel: buffers, learnable position and span, budget scale, module mode. -/
structure Panel where
  kind : PanelKind
  res : ℝ
  eff : ℝ
  m2cost : ℝ
  xy : ℝ × ℝ
  z : ℝ
  span : ℝ × ℝ
  budgetScale : ℝ
  realistic : Bool
  training : Bool

/-- torch `clamp_(min, max)`: `min(max(x, lo), hi)`. -/
def clampR (x lo hi : ℝ) : ℝ := min (max x lo) hi

namespace Panel

/-- panel.py 440-449: the smoothness is rejected unless positive. -/
def checkSmooth : PanelKind → Except Err Unit
  | .gauss => .ok ()
  | .sigmoid s => if ¬ s > 0 then .error .valueError else .ok ()

/-- panel.py 440-449 `smooth` setter on an existing sigmoid panel. -/
def setSmooth (p : Panel) (s : ℝ) : Except Err Panel :=
  if ¬ s > 0 then .error .valueError else .ok { p with kind := .sigmoid s }

/-- panel.py 100-108 `get_scaled_xy_span`. -/
def scaledSpan (p : Panel) : ℝ × ℝ := (p.span.1 * p.budgetScale, p.span.2 * p.budgetScale)

/-- panel.py 197-207 `assign_budget`. A negative argument of the square root (NaN in the code) and a zero area are outside the theorems. -/
def assignBudget (p : Panel) : Option ℝ → Panel
  | none => p
  | some b => { p with budgetScale := sqrt (b / (p.m2cost * (p.span.1 * p.span.2))) }

/-- panel.py 248-254 `get_cost`. -/
def getCost (p : Panel) : ℝ := p.m2cost * (p.scaledSpan.1 * p.scaledSpan.2)

/-- panel.py 62-95 and 324-360: constructors; modules start in training mode. -/
def make (kind : PanelKind) (res eff : ℝ) (xyz : ℝ × ℝ × ℝ) (span : ℝ × ℝ) (m2cost : ℝ) (budget : Option ℝ) (realistic : Bool) :
    Except Err Panel :=
  if res ≤ 0 then .error .valueError
  else if eff ≤ 0 then .error .valueError
  else match checkSmooth kind with
    | .error e => .error e
    | .ok _ => .ok (assignBudget ⟨kind, res, eff, m2cost, (xyz.1, xyz.2.1), xyz.2.2, span, 1, realistic, true⟩ budget)

/-- lower left corner, panel.py 119, 225: `xy - span/2` -/
def low (p : Panel) : ℝ × ℝ := (p.xy.1 - p.scaledSpan.1 / 2, p.xy.2 - p.scaledSpan.2 / 2)
/-- upper right corner, panel.py 120, 225: `xy + span/2` -/
def high (p : Panel) : ℝ × ℝ := (p.xy.1 + p.scaledSpan.1 / 2, p.xy.2 + p.scaledSpan.2 / 2)

/-- panel.py 110-124 `get_xy_mask` for one point. -/
def xyMask (p : Panel) (q : ℝ × ℝ) : Bool :=
  decide (q.1 ≥ p.low.1) && decide (q.1 < p.high.1) && decide (q.2 ≥ p.low.2) && decide (q.2 < p.high.2)

/-- The continuous response is used in training, or always when `realistic_validation` is off (panel.py 157, 187). -/
def continuous (p : Panel) : Bool := p.training || !p.realistic

/-- log-density of `torch.distributions.Normal(mu, sigma)` -/
def normalLogProb (mu sigma x : ℝ) : ℝ := -((x - mu) ^ 2) / (2 * sigma ^ 2) - log sigma - log (sqrt (2 * π))

/-- panel.py 126-135: torch's argument check of the Gaussian (sigma = span/4 must be positive). -/
def checkGauss (p : Panel) : Except Err Unit :=
  if 0 < p.scaledSpan.1 / 4 ∧ 0 < p.scaledSpan.2 / 4 then .ok () else .error .valueError

/-- panel.py 159, 189: `exp(log_prob(x)) / exp(log_prob(centre))` along one axis. -/
def gaussRatio (mu span x : ℝ) : ℝ := exp (normalLogProb mu (span / 4) x) / exp (normalLogProb mu (span / 4) mu)

/-- torch.sigmoid -/
def sigm (x : ℝ) : ℝ := 1 / (1 + exp (-x))

/-- torch.sign -/
def sgn (x : ℝ) : ℝ := if x > 0 then 1 else if x < 0 then -1 else 0

/-- panel.py 362-376 `sig_model` along one axis. -/
def sigRatio (smooth mu span x : ℝ) : ℝ :=
  let delta := (x - mu) / (span / 2)
  sigm ((1 - sgn delta * delta) / smooth) / sigm (1 / smooth)

/-- the multiplicative response along one axis -/
def ratio (k : PanelKind) (mu span x : ℝ) : ℝ :=
  match k with
  | .gauss => gaussRatio mu span x
  | .sigmoid s => sigRatio s mu span x

/-- Only the Gaussian panel builds a torch distribution. -/
def checkResponse (p : Panel) : Except Err Unit :=
  match p.kind with
  | .gauss => p.checkGauss
  | .sigmoid _ => .ok ()

/-- panel.py 137-165 and 378-405 `get_resolution` at one point (after the distribution check). -/
def resAt (p : Panel) (q : ℝ × ℝ) (inside : Bool) : ℝ × ℝ :=
  if p.continuous then
    (max (p.res * ratio p.kind p.xy.1 p.scaledSpan.1 q.1) 1e-10, max (p.res * ratio p.kind p.xy.2 p.scaledSpan.2 q.2) 1e-10)
  else if inside then (p.res, p.res) else (0, 0)

/-- panel.py 137-165 `get_resolution` for one point with an optional pre-computed mask. -/
def getResolution (p : Panel) (q : ℝ × ℝ) (mask : Option Bool) : Except Err (ℝ × ℝ) :=
  if p.continuous then
    match p.checkResponse with
    | .error e => .error e
    | .ok _ => .ok (p.resAt q true)
  else .ok (p.resAt q (mask.getD (p.xyMask q)))

/-- panel.py 167-195 and 407-434 `get_efficiency` at one point. Only the sigmoid panel has a lower limit. -/
def effAt (p : Panel) (q : ℝ × ℝ) (inside : Bool) : ℝ :=
  if p.continuous then
    match p.kind with
    | .gauss => p.eff * (ratio p.kind p.xy.1 p.scaledSpan.1 q.1 * ratio p.kind p.xy.2 p.scaledSpan.2 q.2)
    | .sigmoid _ => max (p.eff * (ratio p.kind p.xy.1 p.scaledSpan.1 q.1 * ratio p.kind p.xy.2 p.scaledSpan.2 q.2)) 1e-10
  else if inside then p.eff else 0

/-- panel.py 167-195 `get_efficiency` for one point with an optional pre-computed mask. -/
def getEfficiency (p : Panel) (q : ℝ × ℝ) (mask : Option Bool) : Except Err ℝ :=
  if p.continuous then
    match p.checkResponse with
    | .error e => .error e
    | .ok _ => .ok (p.effAt q true)
  else .ok (p.effAt q (mask.getD (p.xyMask q)))

/-- panel.py 230-236, one coordinate: noise/resolution added to the position relative to the low corner, clamped to the
panel in realistic validation for muons inside, and moved back. -/
def recoCoord (p : Panel) (low span x noise res : ℝ) (inside : Bool) : XF :=
  let rel := XF.addR (x - low) (XF.quot noise res)
  let rel := if !p.training && p.realistic && inside then rel.clamp 0 span else rel
  XF.addR low rel

/-- panel.py 209-246 `get_hits` for one muon at (x, y) with noise (nx, ny): the four hit rows. -/
def hitReco (p : Panel) (q noise : ℝ × ℝ) (inside : Bool) : Row :=
  [recoCoord p p.low.1 p.scaledSpan.1 q.1 noise.1 (p.resAt q inside).1 inside,
   recoCoord p p.low.2 p.scaledSpan.2 q.2 noise.2 (p.resAt q inside).2 inside, .num p.z]

/-- panel.py 238-239 -/
def hitGen (p : Panel) (q : ℝ × ℝ) : Row := [.num q.1, .num q.2, .num p.z]

/-- panel.py 243: `pad(1/res, (0, 1))` -/
def hitUnc (p : Panel) (q : ℝ × ℝ) (inside : Bool) : Row :=
  [XF.quot 1 (p.resAt q inside).1, XF.quot 1 (p.resAt q inside).2, .num 0]

/-- panel.py 244 -/
def hitEff (p : Panel) (q : ℝ × ℝ) (inside : Bool) : Row := [.num (p.effAt q inside)]

/-- panel.py 209-246 `get_hits`; `noise` gives the two standard normal numbers of each muon. -/
def getHits (p : Panel) (noise : Nat → ℝ × ℝ) (b : Batch Row) : Except Err (Dict String (List Row)) :=
  match (if p.continuous then p.checkResponse else .ok ()) with
  | .error e => .error e
  | .ok _ =>
    let inside := fun m : Muon => Batch.inWindow (some p.low) (some p.high) m
    .ok [("reco_xyz", b.muons.map fun m => p.hitReco (m.x, m.y) (noise m.id) (inside m)),
         ("gen_xyz", b.muons.map fun m => p.hitGen (m.x, m.y)),
         ("unc_xyz", b.muons.map fun m => p.hitUnc (m.x, m.y) (inside m)),
         ("eff", b.muons.map fun m => p.hitEff (m.x, m.y) (inside m))]

/-- panel.py 256-273 `clamp_params`; `eps` is the random jitter in [0, 1e-3). -/
def clampParams (p : Panel) (eps : ℝ) (low high : ℝ × ℝ × ℝ) : Panel :=
  { p with
    xy := (clampR p.xy.1 low.1 high.1, clampR p.xy.2 low.2.1 high.2.1)
    z := clampR p.z (low.2.2 + eps) (high.2.2 - eps)
    span := (clampR p.span.1 (high.1 / 20) (10 * high.1), clampR p.span.2 (high.2.1 / 20) (10 * high.2.1)) }

end Panel

end

end Tomopt
