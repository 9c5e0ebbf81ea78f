import Verif.Model.Volume
import Verif.Spec.Detector

/- Specification: the same muons, layers and random numbers with the horizontal axes exchanged. -/
namespace Tomopt

noncomputable section
open Real

namespace Exchange

/-- the same muon with the horizontal axes exchanged -/
structure Sw (m m' : Muon) : Prop where
  id : m'.id = m.id
  x : m'.x = m.y
  y : m'.y = m.x
  z : m'.z = m.z
  p : m'.p = m.p
  th : m'.th = m.th
  cosPh : cos m'.ph = sin m.ph
  sinPh : sin m'.ph = cos m.ph

/-- the same layer with the horizontal axes exchanged: its voxels are transposed -/
structure ExL (L L' : PassiveLayer) : Prop where
  lw : L'.lw = (L.lw.2, L.lw.1)
  z : L'.z = L.z
  size : L'.size = L.size
  stepSz : L'.stepSz = L.stepSz
  model : L'.scatterModel = L.scatterModel
  none : L.radLength = none → L'.radLength = none
  some : ∀ c, L.radLength = some c → ∃ c', L'.radLength = some c' ∧ ∀ (i j : Nat) (r : List ℝ) (v : ℝ), c[i]? = some r → r[j]? = some v → ∃ r', c'[j]? = some r' ∧ r'[i]? = some v

/-- no draw is cut off by the limit on deflections, for whatever material and momentum -/
def Free (L : PassiveLayer) (momenta : List ℝ) (d : Draw) : Prop :=
  ∀ c, L.radLength = some c → ∀ r ∈ c, ∀ x0 ∈ r, ∀ p ∈ momenta, ∀ s ≤ L.stepSz, |d.z2x * pdgTheta0 x0 p s| ≤ π / 2.2

/-- the random numbers of another flight: each with two signs changed or the axes exchanged -/
def Mirrored (d d' : Draw) : Prop := d' = ⟨-d.z1x, d.z1y, -d.z2x, d.z2y⟩ ∨ d' = ⟨d.z1y, d.z1x, d.z2y, d.z2x⟩

/-- the same stack of layers with the axes exchanged; detectors are at the same heights, whatever their panels -/
inductive ExA : AnyLayer → AnyLayer → Prop
  | passive (L L' : PassiveLayer) : ExL L L' → 0 < L.size → ExA (.passive L) (.passive L')
  | detector (D D' : DetLayer) : D'.z = D.z → D'.size = D.size → (∀ p ∈ D'.panels, p.CanRespond) → ExA (.detector D) (.detector D')

/-- a recorded position with the axes exchanged -/
def SwXyz (a a' : ℝ × ℝ × ℝ) : Prop := a' = (a.2.1, a.1, a.2.2)

end Exchange

end

end Tomopt
