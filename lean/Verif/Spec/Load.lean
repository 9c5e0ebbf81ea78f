import Verif.Model.Load

/- Specification: what a volume holds after a configuration was loaded, and histories of loads. -/
namespace Tomopt

noncomputable section

open Passives

namespace Load

/-- any loads, successful or not -/
def history {τ : Type} : List (Layout × Option τ) → St τ → St τ
  | [], s => s
  | (f, t) :: h, s => history h (load s f t).1

/-- a layer as it is after the layout was put in: detectors as they were, passive layers with the layout's answer for their height, extent and voxels -/
def Filled (f : Layout) : AnyLayer → AnyLayer → Prop
  | .detector D, l' => l' = .detector D
  | .passive L, l' => ∃ x, f L.z L.lw L.size = .ok x ∧ l' = .passive { L with radLength := some x }

/-- a layer without regard to its material -/
def shape : AnyLayer → AnyLayer
  | .detector D => .detector D
  | .passive L => .passive { L with radLength := none }

/-- the passive layers among these -/
def passivesOf : List AnyLayer → List PassiveLayer
  | [] => []
  | .detector _ :: ls => passivesOf ls
  | .passive L :: ls => L :: passivesOf ls

end Load

end

end Tomopt
