import Verif.Spec.Detector
import Verif.Spec.Scatter

/- Vocabulary for the passage of muons through detectors above and below a passive volume. -/
namespace Tomopt

noncomputable section
open Real Scatter

/-- heights of the panels of a layer -/
def DetLayer.heights (D : DetLayer) : List ℝ := D.panels.map AnyPanel.z

/-- Detector layers from the top down: no two panels of a layer at the same height, every panel above all panels of later layers. -/
def Stacked (Ds : List DetLayer) : Prop :=
  (∀ D ∈ Ds, D.heights.Nodup) ∧ Ds.Pairwise fun D E => ∀ z ∈ D.heights, ∀ w ∈ E.heights, w < z

/-- A muon telescope: detectors above, passive layers, detectors below; at least two panels on each side. -/
def Telescope (ls : List AnyLayer) : Prop :=
  ∃ (A : List DetLayer) (P : List PassiveLayer) (B : List DetLayer), ls = A.map .detector ++ (P.map .passive ++ B.map .detector) ∧
    (∀ D ∈ A, D.pos = "above") ∧ (∀ D ∈ B, D.pos = "below") ∧ Stacked A ∧ Stacked B ∧
    2 ≤ (A.flatMap (·.heights)).length ∧ 2 ≤ (B.flatMap (·.heights)).length

/-- the point reached from the muon's position by moving `s` along its direction -/
def MuonOf.at (m : Muon) (s : ℝ) : V3 := (m.x + s * (dir m.th m.ph).1, m.y + s * (dir m.th m.ph).2.1, m.z + s * (dir m.th m.ph).2.2)

/-- The track is the straight line of the muon, run through in flight direction. -/
def IsLineOf (t : Track) (m : Muon) : Prop := SameWay (dir m.th m.ph) t.1 ∧ ∃ s, t.2 = m.at s

/-- The muon that entered as `m` and left as `m'` can be used: neither flies within 1e-5 of the horizontal, its direction has changed, and it entered and left the passive
volume (footprint `lw`, heights `zr`) less than ten lengths and widths from the origin. -/
def Bends (lw zr : ℝ × ℝ) (m m' : Muon) : Prop :=
  m.th < π / 2 - 1e-5 ∧ m'.th < π / 2 - 1e-5 ∧ dir m.th m.ph ≠ dir m'.th m'.ph ∧
    |(crossing m zr.2).1| < 10 * lw.1 ∧ |(crossing m zr.2).2| < 10 * lw.2 ∧ |(crossing m' zr.1).1| < 10 * lw.1 ∧ |(crossing m' zr.1).2| < 10 * lw.2

/-- every panel is a Gaussian or sigmoid panel with positive resolution and efficiency -/
def Sound (D : DetLayer) : Prop := ∀ p ∈ D.panels, ∃ q, p = .panel q ∧ 0 < q.res ∧ 0 < q.eff

/-- The panel sees the muon: its resolution where the muon crosses it is better than a length of 1e10 in x and y. In realistic evaluation this means that the muon
crosses inside the panel. -/
def Panel.Sees (p : Panel) (m : Muon) : Prop :=
  if p.training = true ∨ p.realistic = false then
    1e-10 < p.res * Panel.ratio p.kind p.xy.1 p.scaledSpan.1 (crossing m p.z).1 ∧ 1e-10 < p.res * Panel.ratio p.kind p.xy.2 p.scaledSpan.2 (crossing m p.z).2
  else
    1e-10 < p.res ∧ (p.low.1 ≤ (crossing m p.z).1 ∧ (crossing m p.z).1 < p.high.1) ∧ (p.low.2 ≤ (crossing m p.z).2 ∧ (crossing m p.z).2 < p.high.2)

/-- Every panel above sees the muon as it enters (`m`), every panel below as it leaves (`m'`). -/
def Watched (V : Volume) (m m' : Muon) : Prop :=
  ∀ D, .detector D ∈ V.layers → ∀ p, .panel p ∈ D.panels → (D.pos = "above" → p.Sees m) ∧ (D.pos = "below" → p.Sees m')

end

end Tomopt
