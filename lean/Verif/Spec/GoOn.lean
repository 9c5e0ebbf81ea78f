import Verif.Model.Wrapper

/- Specification: callbacks and volumes for which it does not matter where one fit ends and the next begins. -/
namespace Tomopt

noncomputable section
open Fit

namespace GoOn

variable {W V P : Type}

/-- The fields of `fit_params` that were set since the epoch began, as far as it is known at an interjection: everywhere whether it is a training epoch; from the beginning of a batch of volumes on the number of the volume and the loss so far;
from the first muons of a volume on its prediction; from the end of a batch of volumes on their mean loss. The number of the epoch is never among them. -/
def Same (e : Ev) (f g : FP P) : Prop := f.mode = g.mode ∧
  match e with
  | .volBatchBegin | .volBegin => f.volumeId = g.volumeId ∧ f.lossVal = g.lossVal
  | .muBegin | .scatterEnd | .muEnd | .x0PredBegin | .x0PredEnd | .volEnd => f.volumeId = g.volumeId ∧ f.lossVal = g.lossVal ∧ f.pred = g.pred
  | .volBatchEnd | .backBegin | .backEnd | .stepEnd => f.volumeId = g.volumeId ∧ f.lossVal = g.lossVal ∧ f.pred = g.pred ∧ f.meanLoss = g.meanLoss
  | _ => True

/-- Callbacks look only at what was set since the epoch began, do not stop the fit nor skip updates, and do nothing at the beginning and the end of the fit. What else the loops call does not look at `fit_params`. -/
structure Steady (E : Env W V P) : Prop where
  same : ∀ i e f g w, Same e f g → (E.cb i e f w).1 = (E.cb i e g w).1 ∧ (E.cb i e f w).2.2 = (E.cb i e g w).2.2 ∧ (f.pred = g.pred → (E.cb i e f w).2.1.pred = (E.cb i e g w).2.1.pred)
  goes : ∀ i e f w, (E.cb i e f w).2.1.stop = f.stop ∧ (E.cb i e f w).2.1.skip = f.skip
  ends : ∀ i e f w, e = .setWrapper ∨ e = .trainBegin ∨ e = .trainEnd → (E.cb i e f w).1 = .ok () ∧ (E.cb i e f w).2.2 = w
  prim : ∀ a f g w, E.prim a f w = E.prim a g w
  pred : ∀ f g w, E.pred f w = E.pred g w

/-- every call but those of callbacks at the beginning and the end of a fit -/
def inner : Act V → Bool
  | .cb _ .setWrapper | .cb _ .trainBegin | .cb _ .trainEnd => false
  | _ => true

end GoOn

end

end Tomopt
