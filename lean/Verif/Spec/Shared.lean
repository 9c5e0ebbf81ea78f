import Verif.Model.Shared

/- Specification of inference from values: what the answers would be if a scatter batch were copied, with its momenta, when it is added. -/
namespace Tomopt

noncomputable section

namespace Shared

open Infer

/-- the muon batches after an event -/
def after {α : Type} (mus : List (Batch α)) : Event α → List (Batch α)
  | .call i op => mus.modify i fun b => (b.exec op).1
  | .momenta i v => mus.modify i fun b => if v.length = b.muons.length then setMoms b v else b
  | _ => mus

/-- the same program with every scatter batch copied when it is added, so that the muon batches no longer matter -/
def copied {α : Type} : List (Batch α) → List (Event α) → List Op
  | _, [] => []
  | mus, .add i own :: es => .add (Held.now mus ⟨own, i⟩) :: copied mus es
  | mus, .ask q :: es => q.op :: copied mus es
  | mus, e :: es => copied (after mus e) es

/-- Once scatters of a muon batch were added, no call removes one of its muons and nobody writes its momenta. `used` are the muon batches in use. -/
def Undisturbed {α : Type} : List (Batch α) → List Nat → List (Event α) → Prop
  | _, _, [] => True
  | mus, used, .add i _ :: es => Undisturbed mus (i :: used) es
  | mus, used, .ask _ :: es => Undisturbed mus used es
  | mus, used, .call i op :: es =>
    (i ∈ used → ∀ b, mus[i]? = some b → (b.exec op).1.muons.length = b.muons.length) ∧ Undisturbed (after mus (.call i op)) used es
  | mus, used, .momenta i v :: es => i ∉ used ∧ Undisturbed (after mus (.momenta i v)) used es

/-- a scatter batch with one row per muon of its muon batch -/
def Fresh {α : Type} (mus : List (Batch α)) (i : Nat) (own : ScVars) : Prop :=
  ∃ b, mus[i]? = some b ∧ ∀ v, v ≠ .mom → (own.vals v).length = b.muons.length

/-- every scatter batch that the program adds is made of the muons there are at that time -/
def AllFresh {α : Type} : List (Batch α) → List (Event α) → Prop
  | _, [] => True
  | mus, .add i own :: es => Fresh mus i own ∧ AllFresh mus es
  | mus, .ask _ :: es => AllFresh mus es
  | mus, e :: es => AllFresh (after mus e) es

/-- the answer is an exception -/
def Failed : Ans → Prop
  | .done => False
  | .pred r => ∃ e, r = .error e
  | .vars r => ∃ e, r = .error e
  | .eff r => ∃ e, r = .error e
  | .n r => ∃ e, r = .error e
  | .probs r => ∃ e, r = .error e

/-- what the program asks for and gets -/
def Event.isAsk {α : Type} : Event α → Bool
  | .ask _ => true
  | _ => false

end Shared

end

end Tomopt
