import Verif.Model.Scatter
import Verif.Spec.Direction
import Verif.Spec.MuonFrame

/- Vocabulary for the properties of track fits and scatters, independent of the code's formulas. -/
namespace Tomopt

noncomputable section

open Real Scatter

/-- weighted sum of squared residuals of the line `x = a + b z` -/
def chi2 (l : List FitPt) (a b : ℝ) : ℝ := (l.map fun h => h.w * (h.x - a - b * h.z) ^ 2).sum

/-- point of the line of a track -/
def Track.point (t : Track) (s : ℝ) : V3 := (t.2.1 + s * t.1.1, t.2.2.1 + s * t.1.2.1, t.2.2.2 + s * t.1.2.2)

/-- squared distance -/
def dist2 (p q : V3) : ℝ := (p.1 - q.1) ^ 2 + (p.2.1 - q.2.1) ^ 2 + (p.2.2 - q.2.2) ^ 2

/-- midpoint -/
def mid3 (p q : V3) : V3 := ((p.1 + q.1) / 2, (p.2.1 + q.2.1) / 2, (p.2.2 + q.2.2) / 2)

/-- length -/
def len3 (p : V3) : ℝ := sqrt (p.1 ^ 2 + p.2.1 ^ 2 + p.2.2 ^ 2)

/-- parallel and pointing the same way -/
def SameWay (p q : V3) : Prop := ∃ c : ℝ, 0 < c ∧ q = scale3 c p

/-- parallel (either way) -/
def Parallel (p q : V3) : Prop := ∃ a b : ℝ, (a ≠ 0 ∨ b ≠ 0) ∧ scale3 a p = scale3 b q

end

end Tomopt
