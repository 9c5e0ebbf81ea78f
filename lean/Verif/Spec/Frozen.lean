import Verif.Model.Wrapper

/- Specification: a part of the world, such as the parameters of the detectors, that only updates change. -/
namespace Tomopt

noncomputable section
open Fit

namespace Frozen

variable {W V P D : Type}

/-- Whatever the loops call leaves the part alone, but for the steps of optimisers and putting detectors back into their layers; this holds also for calls that raise an error. -/
structure OnlyUpdates (part : W → D) (E : Env W V P) : Prop where
  cb : ∀ i e f w, part (E.cb i e f w).2.2 = part w
  prim : ∀ a f w, a ≠ .step → a ≠ .conform → part (E.prim a f w).2 = part w
  pred : ∀ f w, part (E.pred f w).2 = part w
  loss : ∀ p w, part (E.loss p w).2 = part w

end Frozen

end

end Tomopt
