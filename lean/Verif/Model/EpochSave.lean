import Verif.Model.Wrapper
import Verif.Model.SaveLoad

/-
Model of `EpochSave` (opt_callbacks.py 143-151) in the fitting loop: the callback that saves the wrapper at the end of every training epoch. Files are a map from
paths to contents; what `save` writes is given by a part `snap` of the world.
-/
namespace Tomopt

noncomputable section

namespace EpochSave

open Fit

variable {W V P D : Type}

/-- the file system, as far as it is used -/
abbrev Files (D : Type) := String → Option D

/-- `torch.save(…, str(name))`: an existing file is replaced -/
def write (fs : Files D) (p : String) (d : D) : Files D := fun q => if q = p then some d else fs q

/-- opt_callbacks.py 151: `cb_savepath / f"volume_state_{epoch}.pt"` -/
def path (folder : String) (epoch : Nat) : String := folder ++ "/volume_state_" ++ toString epoch ++ ".pt"

/-- opt_callbacks.py 149-151 `on_epoch_end`; the other interjections do nothing. -/
def act (folder : String) (e : Ev) (v : View) (d : D) (fs : Files D) : Files D :=
  match e with
  | .epochEnd => if v.mode = .train then write fs (path folder v.epoch) d else fs
  | _ => fs

/-- Callback number `k` of environment `E` is an `EpochSave` for `folder`: `files` are the files of the world, `snap` is what `save` would write. Nobody else
writes the files. If the callback raises, the file it was to write may hold anything. -/
structure Saves (E : Env W V P) (k : Nat) (folder : String) (files : W → Files D) (snap : W → D) : Prop where
  self : ∀ e fp w, (E.cb k e fp w).1 = .ok () → files (E.cb k e fp w).2.2 = act folder e (viewOf fp) (snap w) (files w)
  fails : ∀ e fp w q, (e = .epochEnd → fp.mode = .train → q ≠ path folder fp.epoch) → files (E.cb k e fp w).2.2 q = files w q
  keeps : ∀ e fp w, snap (E.cb k e fp w).2.2 = snap w
  other : ∀ i e fp w, i ≠ k → files (E.cb i e fp w).2.2 = files w
  prim : ∀ a fp w, files (E.prim a fp w).2 = files w
  pred : ∀ fp w, files (E.pred fp w).2 = files w
  loss : ∀ p w, files (E.loss p w).2 = files w

/-- The parameters and optimisers are changed by steps and by making the detector conform, and by callbacks in training epochs (such as schedules of learning
rates), but at the end of a training epoch only by those that come before the saving one. -/
structure Calm (E : Env W V P) (k : Nat) (snap : W → D) : Prop where
  prim : ∀ a fp w, a ≠ .step → a ≠ .conform → snap (E.prim a fp w).2 = snap w
  pred : ∀ fp w, snap (E.pred fp w).2 = snap w
  loss : ∀ p w, snap (E.loss p w).2 = snap w
  cb : ∀ i e fp w, fp.mode = .valid ∨ e = .trainEnd ∨ (e = .epochEnd ∧ k < i) → snap (E.cb i e fp w).2.2 = snap w

end EpochSave

end

end Tomopt
