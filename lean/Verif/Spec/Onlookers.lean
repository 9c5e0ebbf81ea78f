import Verif.Model.Wrapper

/- Specification: callbacks that only look on. -/
namespace Tomopt

noncomputable section
open Fit

namespace Onlookers

variable {W W' V P D : Type}

/-- Environment `E` has more callbacks than `E'`: `no i` is the number in `E'` of callback `i` of `E`, if it is there at all. `part` and `part'` are what matters of the two worlds (detectors, optimisers, random numbers, other callbacks …).
* Callbacks of `E` which are not in `E'` only look on: they do not raise, leave `fit_params` as it is and do not touch what matters. They may keep records, print, draw and write files.
* All other callbacks, and everything else the loops call, depend only on `fit_params` and on what matters, and do the same in both. -/
structure LookOn (E : Env W V P) (E' : Env W' V P) (no : Nat → Option Nat) (part : W → D) (part' : W' → D) : Prop where
  onlooker : ∀ i e f w, no i = none → (E.cb i e f w).1 = .ok () ∧ (E.cb i e f w).2.1 = ⟨f.pred, f.stop, f.skip⟩ ∧ part (E.cb i e f w).2.2 = part w
  other : ∀ i j e f w w', no i = some j → part w = part' w' → (E.cb i e f w).1 = (E'.cb j e f w').1 ∧ (E.cb i e f w).2.1 = (E'.cb j e f w').2.1 ∧ part (E.cb i e f w).2.2 = part' (E'.cb j e f w').2.2
  prim : ∀ a f w w', part w = part' w' → (E.prim a f w).1 = (E'.prim a f w').1 ∧ part (E.prim a f w).2 = part' (E'.prim a f w').2
  pred : ∀ f w w', part w = part' w' → (E.pred f w).1 = (E'.pred f w').1 ∧ part (E.pred f w).2 = part' (E'.pred f w').2
  loss : ∀ p w w', part w = part' w' → (E.loss p w).1 = (E'.loss p w').1 ∧ part (E.loss p w).2 = part' (E'.loss p w').2
  hasLoss : E.hasLoss = E'.hasLoss

/-- a call as it is without onlookers -/
def without (no : Nat → Option Nat) : Act V → Option (Act V)
  | .cb i e => (no i).map (.cb · e)
  | a => some a

end Onlookers

end

end Tomopt
