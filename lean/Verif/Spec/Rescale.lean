import Verif.Model.Volume

/- Specification: the same muons, layers, panels and records, measured in another unit of length (`k` times as many units). Directions, momenta, efficiencies, budgets and random numbers have no unit of length;
radiation lengths are lengths, resolutions are inverse lengths and costs are given per area. -/
namespace Tomopt

noncomputable section

namespace Rescale

/-- a length that may be infinite or NaN -/
def len (k : ℝ) : XF → XF
  | .num x => .num (k * x)
  | x => x

/-- a pair of lengths -/
def pair (k : ℝ) (q : ℝ × ℝ) : ℝ × ℝ := (k * q.1, k * q.2)

/-- a muon (or a row with angles that may be NaN) -/
def muon {A : Type} (k : ℝ) (m : MuonOf A) : MuonOf A := { m with x := k * m.x, y := k * m.y, z := k * m.z }

/-- what a panel records for a muon: positions and their uncertainties are lengths, efficiencies are not -/
def row (k : ℝ) (var : String) (r : Row) : Row := if var = "reco_xyz" ∨ var = "gen_xyz" ∨ var = "unc_xyz" then r.map (len k) else r

/-- the records of one side -/
def vars (k : ℝ) (d : Dict String (List (List Row))) : Dict String (List (List Row)) := d.map fun kv => (kv.1, kv.2.map fun t => t.map (row k kv.1))

/-- a batch of muons with everything that belongs to it -/
def batch (k : ℝ) (b : Batch Row) : Batch Row where
  muons := b.muons.map (muon k)
  removed := b.removed.map (muon k)
  hits := b.hits.map fun kv => (kv.1, vars k kv.2)
  hist := b.hist.map fun l => l.map fun p => (k * p.1, k * p.2.1, k * p.2.2)

def passive (k : ℝ) (L : PassiveLayer) : PassiveLayer :=
  { L with lw := pair k L.lw, z := k * L.z, size := k * L.size, stepSz := k * L.stepSz, radLength := L.radLength.map fun c => c.map fun col => col.map (k * ·) }

def simplePanel (k : ℝ) (p : Panel) : Panel := { p with res := p.res / k, m2cost := p.m2cost / (k * k), xy := pair k p.xy, z := k * p.z, span := pair k p.span }

def heatmap (k : ℝ) (p : Heatmap) : Heatmap :=
  { p with res := p.res / k, m2cost := p.m2cost / (k * k), xyFix := pair k p.xyFix, xySpanFix := pair k p.xySpanFix, deltaXy := k * p.deltaXy, mu := p.mu.map (pair k), sig := p.sig.map (pair k), z := k * p.z }

def panel (k : ℝ) : AnyPanel → AnyPanel
  | .panel p => .panel (simplePanel k p)
  | .heatmap p => .heatmap (heatmap k p)

def detector (k : ℝ) (D : DetLayer) : DetLayer := { D with lw := pair k D.lw, z := k * D.z, size := k * D.size, panels := D.panels.map (panel k) }

def layer (k : ℝ) : AnyLayer → AnyLayer
  | .passive L => .passive (passive k L)
  | .detector D => .detector (detector k D)

/-- a volume -/
def volume (k : ℝ) (V : Volume) : Volume := { V with layers := V.layers.map (layer k) }

/-- Panels are in evaluation with `realistic_validation` (the resolution of a panel is then a number rather than a function of the place with a floor of 1e-10), or heat maps whose widths are positive. -/
def Plain : AnyPanel → Prop
  | .panel p => p.realistic = true ∧ p.training = false
  | .heatmap p => ∀ s ∈ p.sig, 0 < s.1 ∧ 0 < s.2

/-- all panels of a layer are -/
def PlainLayer : AnyLayer → Prop
  | .passive _ => True
  | .detector D => ∀ p ∈ D.panels, Plain p

end Rescale

end

end Tomopt
