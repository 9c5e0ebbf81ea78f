import Verif.Spec.Layer

/- Specification of the way of a muon through a passive layer. -/
namespace Tomopt.Crossing

noncomputable section
open Real

/-- The muon a length `s` further along its line. -/
def onward (m : Muon) (s : ℝ) : Muon :=
  { m with x := m.x + s * (sin m.th * cos m.ph), y := m.y + s * (sin m.th * sin m.ph), z := m.z - s * cos m.th }

/-- `s` is the length of the next step within the layer: a full step, or less if and only if the bottom face comes first; the step then ends there. -/
def Within (L : PassiveLayer) (m : Muon) (s : ℝ) : Prop :=
  0 < s ∧ s ≤ L.stepSz ∧ L.z - L.size ≤ (onward m s).z ∧ (s < L.stepSz → (onward m s).z = L.z - L.size)

/-- The muon flies straight to the bottom face and arrives there as the second muon; the number is the total of the lengths of its steps within the layer. -/
inductive Crosses (L : PassiveLayer) : Muon → Muon → ℝ → Prop
  | there (m : Muon) : m.z = L.z - L.size → Crosses L m m 0
  | step (m m' : Muon) (s d : ℝ) : L.z - L.size < m.z → Within L m s → Crosses L (onward m s) m' d → Crosses L m m' (s + d)

end

end Tomopt.Crossing
