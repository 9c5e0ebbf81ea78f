import Verif.Model.Volume
import Verif.Spec.Muon
import Verif.Spec.Layer

/- Specifications for detector layers and volumes. -/
namespace Tomopt

noncomputable section
open Real

/-- What `np.argsort` promises: a rearrangement of the indices under which the values do not decrease (ties in any order). -/
def IsArgsort (argsort : List ℝ → List Nat) : Prop :=
  ∀ zs : List ℝ, (argsort zs).Perm (List.range zs.length) ∧
    (argsort zs).Pairwise fun i j => ∀ a b, zs[i]? = some a → zs[j]? = some b → a ≤ b

/-- Where the straight line of a muon crosses height `z`. -/
def crossing (m : Muon) (z : ℝ) : ℝ × ℝ :=
  (m.x + (m.z - z) * tan m.th * cos m.ph, m.y + (m.z - z) * tan m.th * sin m.ph)

/-- The muon moved along its straight line to height `z`. -/
def atHeight (z : ℝ) (m : Muon) : Muon := { m with x := (crossing m z).1, y := (crossing m z).2, z := z }

/-- The batch with every muon moved along its line to height `z`. -/
def Batch.atHeight {α : Type} (z : ℝ) (b : Batch α) : Batch α := { b with muons := b.muons.map (Tomopt.atHeight z) }

/-- The panel can respond: a continuous Gaussian response needs a panel of positive size in both directions. -/
def AnyPanel.CanRespond : AnyPanel → Prop
  | .panel p => (p.training = true ∨ p.realistic = false) → p.kind = .gauss → 0 < p.scaledSpan.1 ∧ 0 < p.scaledSpan.2
  | .heatmap _ => True

/-- The tensor a panel records under `var` for the muons of `b` moved to the panel's height. -/
def AnyPanel.tensorAt (p : AnyPanel) (noise : Nat → ℝ × ℝ) (b : Batch Row) (var : String) : Option (List Row) :=
  match p.getHits noise (b.atHeight p.z) with
  | .ok d => d.get? var
  | .error _ => none

/-- The panel is of the Gaussian or sigmoid type with a positive area cost. -/
def AnyPanel.Priced : AnyPanel → Prop
  | .panel p => 0 < p.m2cost * (p.span.1 * p.span.2)
  | .heatmap _ => False

/-- All panels of a volume, layer after layer. -/
def Volume.panels (V : Volume) : List AnyPanel := V.detectors.flatMap (·.panels)

/-- The volume has a budget and one weight per panel, in the arrangement set up at construction. -/
structure Volume.Budgeted (V : Volume) (b : ℝ) : Prop where
  budget : V.budget = some b
  costs : V.nCosts = V.detectors.map fun D => D.panels.length
  weights : V.weights.length = V.panels.length

/-- The point is on the physical panel: the half-open rectangle of its scaled span around its centre. -/
def OnPanel (p : Panel) (q : ℝ × ℝ) : Prop :=
  p.xy.1 - p.scaledSpan.1 / 2 ≤ q.1 ∧ q.1 < p.xy.1 + p.scaledSpan.1 / 2 ∧
  p.xy.2 - p.scaledSpan.2 / 2 ≤ q.2 ∧ q.2 < p.xy.2 + p.scaledSpan.2 / 2

/-- The same panel up to its budget scale. -/
def SamePanel (p q : AnyPanel) : Prop := ∃ a s, p = .panel a ∧ q = .panel { a with budgetScale := s }

/-- The same layer up to the budget scales of its panels. -/
def SameLayer : AnyLayer → AnyLayer → Prop
  | .passive L, .passive L' => L' = L
  | .detector D, .detector D' => List.Forall₂ SamePanel D.panels D'.panels ∧ D' = { D with panels := D'.panels }
  | _, _ => False

/-- `order` lists the panels of the layer from the highest to the lowest. -/
def TopDown (D : DetLayer) (order : List AnyPanel) : Prop := order.Perm D.panels ∧ order.Pairwise fun p q => q.z ≤ p.z

end

end Tomopt
