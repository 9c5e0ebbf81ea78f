import Verif.Model.Volume

/-
What a well-formed stack of layers is.
-/
namespace Tomopt.Spec

/-- From `top` downwards the layers follow one another without gap or overlap, down to the ground. -/
def Stacked : ℝ → List AnyLayer → Prop
  | top, [] => top = 0
  | top, l :: ls => l.z = top ∧ 0 < l.size ∧ Stacked (top - l.size) ls

/-- Every panel is inside its detector layer. -/
def PanelsInside (ls : List AnyLayer) : Prop :=
  ∀ D, AnyLayer.detector D ∈ ls → ∀ p ∈ D.panels, D.z - D.size ≤ p.z ∧ p.z ≤ D.z

/-- Every panel has the given resolution and efficiency. -/
def PanelsAre (res eff : ℝ) (ls : List AnyLayer) : Prop :=
  ∀ D, AnyLayer.detector D ∈ ls → ∀ p ∈ D.panels, ∃ q, p = .panel q ∧ q.res = res ∧ q.eff = eff

end Tomopt.Spec
