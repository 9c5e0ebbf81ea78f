import Verif.Model.Volume

/- Specification: the same muons, layers, panels and records, all of them higher by the same amount. -/
namespace Tomopt

noncomputable section

namespace Lift

/-- a muon (or a row with angles that may be NaN), `h` higher -/
def muon {A : Type} (h : ℝ) (m : MuonOf A) : MuonOf A := { m with z := m.z + h }

/-- what a panel records for a muon, `h` higher: positions have a height, uncertainties and efficiencies have not -/
def row (h : ℝ) (var : String) (r : Row) : Row :=
  if var = "reco_xyz" ∨ var = "gen_xyz" then
    match r with
    | [x, y, .num z] => [x, y, .num (z + h)]
    | r => r
  else r

/-- the records of one side, `h` higher -/
def vars (h : ℝ) (d : Dict String (List (List Row))) : Dict String (List (List Row)) := d.map fun kv => (kv.1, kv.2.map fun t => t.map (row h kv.1))

/-- a batch of muons with everything that belongs to it, `h` higher -/
def batch (h : ℝ) (b : Batch Row) : Batch Row where
  muons := b.muons.map (muon h)
  removed := b.removed.map (muon h)
  hits := b.hits.map fun kv => (kv.1, vars h kv.2)
  hist := b.hist.map fun l => l.map fun p => (p.1, p.2.1, p.2.2 + h)

def passive (h : ℝ) (L : PassiveLayer) : PassiveLayer := { L with z := L.z + h }

def panel (h : ℝ) : AnyPanel → AnyPanel
  | .panel p => .panel { p with z := p.z + h }
  | .heatmap p => .heatmap { p with z := p.z + h }

def detector (h : ℝ) (D : DetLayer) : DetLayer := { D with z := D.z + h, panels := D.panels.map (panel h) }

def layer (h : ℝ) : AnyLayer → AnyLayer
  | .passive L => .passive (passive h L)
  | .detector D => .detector (detector h D)

/-- a volume, `h` higher -/
def volume (h : ℝ) (V : Volume) : Volume := { V with layers := V.layers.map (layer h) }

end Lift

end

end Tomopt
