import Verif.Spec.Exchange
import Verif.Model.Scatter

/- Specification: panels, recorded hits and tracks with the horizontal axes exchanged. -/
namespace Tomopt

noncomputable section

namespace Exchange

/-- a point, vector or row of three numbers with the horizontal axes exchanged -/
def sw3 {β : Type} (a : β × β × β) : β × β × β := (a.2.1, a.1, a.2.2)

/-- a panel with the horizontal axes exchanged -/
def exPanel : AnyPanel → AnyPanel
  | .panel p => .panel { p with xy := (p.xy.2, p.xy.1), span := (p.span.2, p.span.1) }
  | .heatmap h => .heatmap { h with
      xyFix := (h.xyFix.2, h.xyFix.1), xySpanFix := (h.xySpanFix.2, h.xySpanFix.1)
      mu := h.mu.map fun m => (m.2, m.1), sig := h.sig.map fun s => (s.2, s.1) }

/-- a layer with the horizontal axes exchanged -/
inductive ExD : AnyLayer → AnyLayer → Prop
  | passive (L L' : PassiveLayer) : ExL L L' → 0 < L.size → ExD (.passive L) (.passive L')
  | detector (D : DetLayer) : ExD (.detector D) (.detector { D with lw := (D.lw.2, D.lw.1), panels := D.panels.map exPanel })

/-- a volume with the horizontal axes of all layers exchanged; its budget, if it has one, is the same and is shared in the same way -/
structure SwVolume (V W : Volume) : Prop where
  layers : List.Forall₂ ExD V.layers W.layers
  budget : W.budget = V.budget
  weights : W.weights = V.weights
  nCosts : W.nCosts = V.nCosts

/-- what is recorded for a muon, with the axes exchanged: efficiencies have no axes -/
def swRow (var : String) (r : Row) : Row :=
  if var = "eff" then r
  else match r with
    | a :: b :: l => b :: a :: l
    | r => r

/-- the same noise with the axes exchanged -/
def swNoise (noise : Nat → Nat → Nat → ℝ × ℝ) : Nat → Nat → Nat → ℝ × ℝ := fun i j k => ((noise i j k).2, (noise i j k).1)

/-- a track with the axes exchanged -/
def swTrack (t : Track) : Track := (sw3 t.1, sw3 t.2)

/-- a reconstructed scattering with the axes exchanged: its tracks, its place and its distances in the plane are exchanged, its angle is the same -/
structure SwScatter (c c' : Track × Track × (ℝ × ℝ × ℝ)) : Prop where
  tracks : c'.1 = swTrack c.1 ∧ c'.2.1 = swTrack c.2.1
  place : Scatter.poca c'.1 c'.2.1 c'.2.2 = sw3 (Scatter.poca c.1 c.2.1 c.2.2)
  distance : Scatter.dxy c'.1 c'.2.1 c'.2.2 = ((Scatter.dxy c.1 c.2.1 c.2.2).2, (Scatter.dxy c.1 c.2.1 c.2.2).1)
  angle : Scatter.thetaMsc c'.1.1 c'.2.1.1 = Scatter.thetaMsc c.1.1 c.2.1.1

end Exchange

end

end Tomopt
