import Verif.Model.Panel

/-
Model of tomopt/volume/heatmap.py: detectors whose response is a Gaussian mixture.
-/
namespace Tomopt

noncomputable section
open Real

/-- heatmap.py 15-57 `DetectorHeatMap` with the parameters of its mixture (207-250 `GMM`): centres, widths, scale. -/
structure Heatmap where
  res : ℝ
  eff : ℝ
  m2cost : ℝ
  xyFix : ℝ × ℝ
  xySpanFix : ℝ × ℝ
  deltaXy : ℝ
  mu : List (ℝ × ℝ)
  sig : List (ℝ × ℝ)
  norm : ℝ
  z : ℝ
  realistic : Bool
  training : Bool

/-- heatmap.py 55 -/
def rangeMult : ℝ := 1.2

namespace Heatmap

/-- heatmap.py 226-230: initial centres from uniform draws, `span * (0.5 - u) + xy` -/
def initMu (xy : ℝ × ℝ) (d : ℝ) (us : List (ℝ × ℝ)) : List (ℝ × ℝ) :=
  us.map fun u => (d * (0.5 - u.1) + xy.1, d * (0.5 - u.2) + xy.2)

/-- heatmap.py 232-233: initial widths `span * max(u, 0.2)` -/
def initSig (d : ℝ) (us : List (ℝ × ℝ)) : List (ℝ × ℝ) := us.map fun u => (d * max u.1 0.2, d * max u.2 0.2)

/-- heatmap.py 17-57 `__init__` with 210-243 `GMM.__init__`. `um`, `us` are the uniform draws, one pair per cluster. torch's `Normal` rejects
non-positive widths (ValueError). A mixture of no clusters is not considered. -/
def make (res eff : ℝ) (xyz : ℝ × ℝ × ℝ) (span : ℝ × ℝ) (m2cost : ℝ) (budget : Option ℝ) (realistic : Bool)
    (um us : List (ℝ × ℝ)) : Except Err Heatmap :=
  if res ≤ 0 then .error .valueError
  else if eff ≤ 0 then .error .valueError
  else
    let span := if span.2 < span.1 then (span.2, span.1) else span
    let d := span.2 - span.1
    if (initSig d us).all (fun s => decide (0 < s.1) && decide (0 < s.2)) then
      match budget with
      | some _ => .error .notImplemented
      | none => .ok ⟨res, eff, m2cost, (xyz.1, xyz.2.1), span, d, initMu (xyz.1, xyz.2.1) d um, initSig d us, 1, xyz.2.2, realistic, true⟩
    else .error .valueError

/-- heatmap.py 108-110 `assign_budget`. -/
def assignBudget (h : Heatmap) : Option ℝ → Except Err Heatmap
  | none => .ok h
  | some _ => .error .notImplemented

/-- heatmap.py 105-106 `get_cost`: `m2_cost * sig.prod(1).mean()`. -/
def getCost (h : Heatmap) : ℝ := h.m2cost * ((h.sig.map fun s => s.1 * s.2).sum / h.sig.length)

/-- density of the equal-weight mixture of uncorrelated 2D Gaussians (heatmap.py 235-243) -/
def density (h : Heatmap) (q : ℝ × ℝ) : ℝ :=
  ((h.mu.zip h.sig).map fun c =>
    exp (Panel.normalLogProb c.1.1 c.2.1 q.1 + Panel.normalLogProb c.1.2 c.2.2 q.2)).sum / h.mu.length

/-- the largest density at a cluster centre, as the maximum of the list (heatmap.py 246) -/
def peak (h : Heatmap) : ℝ := (h.mu.map h.density).foldr max 0

/-- heatmap.py 245-250 `GMM.forward`: `sqrt(norm * exp(log p(x) - max log p(mu)))`, the same number for both axes. -/
def gmm (h : Heatmap) (q : ℝ × ℝ) : ℝ := sqrt (h.norm * exp (log (h.density q) - log h.peak))

def continuous (h : Heatmap) : Bool := h.training || !h.realistic

/-- heatmap.py 73-85 `get_resolution` at one point. -/
def resAt (h : Heatmap) (q : ℝ × ℝ) (inside : Bool) : ℝ × ℝ :=
  if h.continuous then (h.res * h.gmm q, h.res * h.gmm q)
  else if inside then (h.res, h.res) else (0, 0)

/-- heatmap.py 87-103 `get_efficiency` at one point. -/
def effAt (h : Heatmap) (q : ℝ × ℝ) (inside : Bool) : ℝ :=
  if h.continuous then h.eff * (min 1 (h.gmm q) * min 1 (h.gmm q))
  else if inside then h.eff else 0

/-- heatmap.py 129-136, one coordinate. The low corner uses `delta_xy/2`, the clamp uses `xy_span_fix`. -/
def recoCoord (h : Heatmap) (c span x noise res : ℝ) (inside : Bool) : XF :=
  let low := c - h.deltaXy / 2
  let rel := XF.addR (x - low) (XF.quot noise res)
  let rel := if !h.training && h.realistic && inside then rel.clamp 0 span else rel
  XF.addR low rel

/-- heatmap.py 112-142 `get_hits`. In this function the mask is supplied, so `get_xy_mask` is not called. -/
def getHits (h : Heatmap) (noise : Nat → ℝ × ℝ) (b : Batch Row) : Dict String (List Row) :=
  let r := rangeMult * h.deltaXy
  let inside := fun m : Muon =>
    Batch.inWindow (some (h.xyFix.1 - r, h.xyFix.2 - r)) (some (h.xyFix.1 + r, h.xyFix.2 + r)) m
  [("reco_xyz", b.muons.map fun m =>
      [h.recoCoord h.xyFix.1 h.xySpanFix.1 m.x (noise m.id).1 (h.resAt (m.x, m.y) (inside m)).1 (inside m),
       h.recoCoord h.xyFix.2 h.xySpanFix.2 m.y (noise m.id).2 (h.resAt (m.x, m.y) (inside m)).2 (inside m), .num h.z]),
   ("gen_xyz", b.muons.map fun m => [.num m.x, .num m.y, .num h.z]),
   ("unc_xyz", b.muons.map fun m =>
      [XF.quot 1 (h.resAt (m.x, m.y) (inside m)).1, XF.quot 1 (h.resAt (m.x, m.y) (inside m)).2, .num 0]),
   ("eff", b.muons.map fun m => [.num (h.effAt (m.x, m.y) (inside m))])]

/-- heatmap.py 186-192 `clamp_params`. -/
def clampParams (h : Heatmap) (eps : ℝ) (low high : ℝ × ℝ × ℝ) : Heatmap :=
  { h with
    mu := h.mu.map fun m => (clampR m.1 low.1 high.1, clampR m.2 low.1 high.1)
    z := clampR h.z (low.2.2 + eps) (high.2.2 - eps)
    sig := h.sig.map fun s => (clampR s.1 (low.2.1 / rangeMult) (rangeMult * high.2.1), clampR s.2 (low.2.1 / rangeMult) (rangeMult * high.2.1))
    norm := clampR h.norm 0.01 1.5 }

end Heatmap

end

end Tomopt
