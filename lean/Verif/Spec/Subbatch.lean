import Verif.Model.Volume
import Verif.Spec.Muon
import Verif.Spec.Detector

/- Specification: batches that hold some of the muons of another batch, volumes that differ in their detectors only. -/
namespace Tomopt

variable {α : Type}

/-- `c` holds exactly the muons of `b` whose identity is selected by `q`: the same positions, momenta and directions, in the same order; likewise for the
muons that were removed. -/
structure Sub (q : Nat → Bool) (b c : Batch α) : Prop where
  muons : c.muons = b.muons.filter fun m => q m.id
  removed : c.removed = b.removed.filter fun m => q m.id

/-- Both batches have equally many recordings under `pos`, `var`, and each holds the same row for a muon that is in both batches. -/
def SameRows (b c : Batch Row) (pos var : String) : Prop :=
  (b.tensors pos var).length = (c.tensors pos var).length ∧
  ∀ (k i j : Nat) (t u : List Row), (b.tensors pos var)[k]? = some t → (c.tensors pos var)[k]? = some u →
    ∀ m n : Muon, b.muons[i]? = some m → c.muons[j]? = some n → m.id = n.id → ∃ r : Row, t[i]? = some r ∧ u[j]? = some r

/-- The same passive layer, or detector layers that begin and end at the same heights; their panels need have nothing in common. -/
def SameOutside : AnyLayer → AnyLayer → Prop
  | .passive L, .passive L' => L' = L
  | .detector D, .detector D' => D'.z = D.z ∧ D'.size = D.size
  | _, _ => False

end Tomopt
