import Verif.Model.Wrapper

/- Specification: what predicting a passive volume may look at. -/
namespace Tomopt

noncomputable section
open Fit

namespace Separate

variable {W V P A L I : Type}

/-- The world has a `core` (detectors, muon generator, random numbers), a loaded passive volume `vol`, an inferrer `inf`, the predictions made by inferrers so far, `hist`, and the losses of volumes computed so far, `losses`. `ready` says of a core that the volume is in evaluation mode.
* loading: what is then loaded depends on the volume that is loaded and the core, not on what was loaded before;
* making an inferrer: it depends on core and loaded volume, not on the inferrer before;
* all other calls depend on core, loaded volume and inferrer only, in particular not on predictions made before;
* this need hold only of calls that do not raise: a load that raises may leave half of what was there before (C160);
* callbacks change neither of the three. They may change predictions (`adj`), keep records and raise errors. -/
structure Only (E : Env W V P) (core : W → A) (vol : W → L) (inf : W → I) (hist : W → List (Option P)) (losses : W → List ℝ) (adj : Nat → Ev → Option P → Option P) (ready : A → Prop) : Prop where
  cb : ∀ i e f w, core (E.cb i e f w).2.2 = core w ∧ vol (E.cb i e f w).2.2 = vol w ∧ inf (E.cb i e f w).2.2 = inf w ∧ hist (E.cb i e f w).2.2 = hist w ∧ losses (E.cb i e f w).2.2 = losses w
  cbPred : ∀ i e f w, (E.cb i e f w).2.1.pred = adj i e f.pred
  load : ∀ v f f' w w', core w = core w' → (E.prim (.load v) f w).1 = .ok () → (E.prim (.load v) f' w').1 = .ok () → core (E.prim (.load v) f w).2 = core (E.prim (.load v) f' w').2 ∧ vol (E.prim (.load v) f w).2 = vol (E.prim (.load v) f' w').2
  make : ∀ f f' w w', core w = core w' → vol w = vol w' → (E.prim .newInferrer f w).1 = .ok () → (E.prim .newInferrer f' w').1 = .ok () → core (E.prim .newInferrer f w).2 = core (E.prim .newInferrer f' w').2 ∧
    vol (E.prim .newInferrer f w).2 = vol (E.prim .newInferrer f' w').2 ∧ inf (E.prim .newInferrer f w).2 = inf (E.prim .newInferrer f' w').2
  prim : ∀ a f f' w w', core w = core w' → vol w = vol w' → inf w = inf w' → (E.prim a f w).1 = .ok () → (E.prim a f' w').1 = .ok () →
    core (E.prim a f w).2 = core (E.prim a f' w').2 ∧ vol (E.prim a f w).2 = vol (E.prim a f' w').2 ∧ inf (E.prim a f w).2 = inf (E.prim a f' w').2
  eval : ∀ f f' w w', core w = core w' → (E.prim (.volMode false) f w).1 = .ok () → (E.prim (.volMode false) f' w').1 = .ok () → core (E.prim (.volMode false) f w).2 = core (E.prim (.volMode false) f' w').2
  primHist : ∀ a f w, hist (E.prim a f w).2 = hist w ∧ losses (E.prim a f w).2 = losses w
  pred : ∀ f f' w w' p p', core w = core w' → vol w = vol w' → inf w = inf w' → (E.pred f w).1 = .ok p → (E.pred f' w').1 = .ok p' →
    p = p' ∧ core (E.pred f w).2 = core (E.pred f' w').2 ∧ vol (E.pred f w).2 = vol (E.pred f' w').2 ∧ inf (E.pred f w).2 = inf (E.pred f' w').2
  predHist : ∀ f w p, (E.pred f w).1 = .ok p → hist (E.pred f w).2 = hist w ++ [p] ∧ losses (E.pred f w).2 = losses w
  loss : ∀ p w w' x x', core w = core w' → vol w = vol w' → inf w = inf w' → (E.loss p w).1 = .ok x → (E.loss p w').1 = .ok x' →
    x = x' ∧ core (E.loss p w).2 = core (E.loss p w').2 ∧ vol (E.loss p w).2 = vol (E.loss p w').2 ∧ inf (E.loss p w).2 = inf (E.loss p w').2
  lossHist : ∀ p w x, (E.loss p w).1 = .ok x → hist (E.loss p w).2 = hist w ∧ losses (E.loss p w).2 = losses w ++ [x]
  readyEval : ∀ f w, ready (core (E.prim (.volMode false) f w).2)
  readyStay : ∀ f w, ready (core w) → core (E.prim (.volMode false) f w).2 = core w
  readyPrim : ∀ a f w, a ≠ .volMode true → ready (core w) → ready (core (E.prim a f w).2)
  readyPred : ∀ f w, ready (core w) → ready (core (E.pred f w).2)
  readyLoss : ∀ p w, ready (core w) → ready (core (E.loss p w).2)

end Separate

end

end Tomopt
