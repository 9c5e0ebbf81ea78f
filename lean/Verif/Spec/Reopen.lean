import Verif.Model.Reopen

/- Specification of opening a saved detector: what is restored, and when volumes are alike. -/
namespace Tomopt

noncomputable section

namespace Reopen

/-- panel number `j` of layer number `i` -/
def panelAt (V : Volume) (i j : Nat) : Option AnyPanel := (V.layers[i]?).bind fun l => (dets l)[j]?

/-- a saved panel in the place of another: all of the saved one but the share of the budget and the modes -/
def reopen : AnyPanel → AnyPanel → AnyPanel
  | .panel p, .panel q => .panel { p with budgetScale := q.budgetScale, realistic := q.realistic, training := q.training }
  | .heatmap h, .heatmap g => .heatmap { h with deltaXy := g.deltaXy, realistic := g.realistic, training := g.training }
  | _, q => q

/-- panels of the same kind; heat maps with as many Gaussians -/
inductive AlikeP : AnyPanel → AnyPanel → Prop
  | gauss (p q : Panel) : p.kind = .gauss → q.kind = .gauss → AlikeP (.panel p) (.panel q)
  | sigmoid (p q : Panel) (s t : ℝ) : p.kind = .sigmoid s → q.kind = .sigmoid t → AlikeP (.panel p) (.panel q)
  | heat (h g : Heatmap) : g.mu.length = h.mu.length → g.sig.length = h.sig.length → AlikeP (.heatmap h) (.heatmap g)

/-- volumes with panels of the same kinds in the same places, and as many weights of budgets -/
structure Alike (V W : Volume) : Prop where
  panels : ∀ i j, (panelAt V i j = none ∧ panelAt W i j = none) ∨ ∃ p q, panelAt V i j = some p ∧ panelAt W i j = some q ∧ AlikeP p q
  budget : V.budget.isSome = W.budget.isSome
  weights : V.budget.isSome → V.weights.length = W.weights.length

/-- panels built alike: the same kind, the same modes; heat maps of the same width; without budget (`c`) the same scale -/
inductive BuiltP (c : Prop) : AnyPanel → AnyPanel → Prop
  | panel (p q : Panel) : AlikeP (.panel p) (.panel q) → q.realistic = p.realistic → q.training = p.training → (c → q.budgetScale = p.budgetScale) → BuiltP c (.panel p) (.panel q)
  | heat (h g : Heatmap) : AlikeP (.heatmap h) (.heatmap g) → g.realistic = h.realistic → g.training = h.training → g.deltaXy = h.deltaXy → BuiltP c (.heatmap h) (.heatmap g)

/-- layers built alike: the same material, or panels built alike at whatever places -/
inductive BuiltL (c : Prop) : AnyLayer → AnyLayer → Prop
  | passive (L : PassiveLayer) : BuiltL c (.passive L) (.passive L)
  | detector (D E : DetLayer) : E.pos = D.pos → E.lw = D.lw → E.z = D.z → E.size = D.size → List.Forall₂ (BuiltP c) D.panels E.panels → BuiltL c (.detector D) (.detector E)

/-- volumes built alike -/
structure Built (V W : Volume) : Prop where
  layers : List.Forall₂ (BuiltL (V.budget = none)) V.layers W.layers
  budget : W.budget = V.budget
  nCosts : W.nCosts = V.nCosts
  weights : W.weights.length = V.weights.length

/-- how many numbers of a panel can be learnt -/
def learnable : AnyPanel → Nat
  | .panel _ => 5
  | .heatmap h => 2 * h.mu.length + 2 * h.sig.length + 2

variable {S : Type}

/-- optimisers of the same names for the same parameters -/
def SameParams (a b : Dict String (Opt S)) : Prop := List.Forall₂ (fun x y => x.1 = y.1 ∧ x.2.groups.map (·.params) = y.2.groups.map (·.params)) a b

/-- an optimiser has every parameter once and remembers nothing about others -/
def Proper (o : Opt S) : Prop := o.params.Nodup ∧ ∀ k, k ∉ o.params → o.state k = none

end Reopen

end

end Tomopt
