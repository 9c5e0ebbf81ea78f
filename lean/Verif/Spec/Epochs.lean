import Verif.Model.Wrapper

/- The states of a fit at the ends of its epochs. -/
namespace Tomopt

noncomputable section

namespace Fit

variable {W V P : Type}

/-- `Reached … e s`: a fit started in world `w` has been through `e` whole epochs without an exception, nobody having asked to stop before the last of them, and is now in state `s`. -/
inductive Reached (E : Env W V P) (c : Conf) (trn : Passives V) (val : Option (Passives V)) (w : W) (log : List (Act V)) : Nat → S W V P → Prop
  | start {s : S W V P} : (cbs E c .setWrapper ;; cbs E c .trainBegin) ⟨initFp .train, w, log⟩ = (.ok (), s) → Reached E c trn val w log 0 s
  | next {e : Nat} {s s' : S W V P} : Reached E c trn val w log e s → (e = 0 ∨ s.fp.stop = false) → fitEpoch E c trn val s = (.ok (), s') →
      Reached E c trn val w log (e + 1) s'

end Fit

end

end Tomopt
