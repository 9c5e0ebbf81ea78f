import Verif.Model.Warmup
import Verif.Model.Wrapper

/-
Warm-ups inside of the fitting loop: an environment of the loops (Model/Wrapper) whose callbacks are warm-ups, callbacks waiting for them, and others
(optimisation/callbacks/warmup_callbacks.py 15-83, 193-225; volume_wrapper.py 307-372).
-/
namespace Tomopt

noncomputable section

namespace Warmup

open Fit

/-- warmup_callbacks.py 33-39, 57-83: what one callback does to the warm-ups and the flag at an interjection -/
def cbStep (mode : Mode) (e : Ev) : Cb → St → St
  | .warm i, s =>
    match e with
    | .trainBegin => reset i s
    | .epochBegin => if mode = .train then check s else s
    | .epochEnd => if mode = .train then epochEnd1 i s else s
    | _ => s
  | _, s => s

/-- The callbacks of the environment are `cs`, `ws` is where the warm-ups keep their state. Nobody else touches it, and callbacks that are not warm-ups leave the
flag `skip_opt_step` alone. Apart from that callbacks, volume, inferrer and loss may do what they like. -/
structure Warms {W V P : Type} (E : Env W V P) (cs : List Cb) (ws : W → List Wu) : Prop where
  cb : ∀ i b, cs[i]? = some b → ∀ e fp w, (E.cb i e fp w).1 = .ok () →
    (⟨ws (E.cb i e fp w).2.2, (E.cb i e fp w).2.1.skip⟩ : St) = cbStep fp.mode e b ⟨ws w, fp.skip⟩
  prim : ∀ a fp w, ws (E.prim a fp w).2 = ws w
  pred : ∀ fp w, ws (E.pred fp w).2 = ws w
  loss : ∀ p w, ws (E.loss p w).2 = ws w

end Warmup

end

end Tomopt
