import Verif.Lemmas.Frozen
import Verif.Props.C155
import Mathlib.Tactic.NormNum

/- C156: validating and predicting leave the detectors alone.  Property theorems; what only updates change is in Spec/Frozen.lean, the lemmas are in Lemmas/Frozen.lean. -/
namespace Tomopt

noncomputable section
open Fit

namespace C156

open Frozen

/-- **C156: predicting.** Whatever only the steps of optimisers and the putting back of detectors change, predicting leaves alone, for any passive volumes, and also if it raises an error at any point. -/
theorem predicting {W V P C R D : Type} {E : Env W V P} (part : W → D) (hE : OnlyUpdates part E) (c : Conf) (predCb : C) (getPreds : W → Except Err R) (ps : Passives V) (o : Outer W V P C) :
    part (predict E c predCb getPreds ps o).2.w = part o.w := by
  have h : part (predictBody E { c with nCb := (o.cbList ++ [predCb]).length } ps ⟨initFp .test, o.w, o.log⟩).2.w = part o.w := by
    generalize ({ c with nCb := (o.cbList ++ [predCb]).length } : Conf) = c'
    have pre : K part (cbs E c' .setWrapper ;; call E (.volMode false) ;; cbs E c' .predBegin) := (K.cbs c' hE _).seq <| (K.call hE _ (by simp) (by simp)).seq <| K.cbs c' hE _
    obtain ⟨a1, a2⟩ := pre ⟨initFp .test, o.w, o.log⟩
    rw [predictBody, ← GoOn.seq_assoc (call E (.volMode false)), ← GoOn.seq_assoc, Fit.seq]
    rcases e : (cbs E c' .setWrapper ;; call E (.volMode false) ;; cbs E c' .predBegin) ⟨initFp .test, o.w, o.log⟩ with ⟨r, s1⟩
    rw [e] at a1 a2
    cases r with
    | error x => exact a1
    | ok x =>
      simp only at a1 a2 ⊢
      have b1 := (scan_keeps c' hE ps.len ps.vols 0 s1 (.inl (by rw [a2]; simp [initFp]))).1
      simp only [Fit.seq, scanVolumes]
      rcases e' : scanFrom E c' ps.len 0 ps.vols s1 with ⟨r, s2⟩
      rw [e'] at b1
      cases r with
      | error x => exact b1.trans a1
      | ok x =>
        simp only at b1 ⊢
        exact (K.cbs c' hE .predEnd s2).1.trans (b1.trans a1)
  simp only [predict]
  split <;> exact h

/-- **C156: validating.** So does a fit with any passive volumes for validation whose volumes for training do not make up a batch, for any number of epochs, and also if it raises an error at any point: neither validating nor
training on less than a batch of volumes changes the detectors. -/
theorem validating {W V P C D : Type} {E : Env W V P} (part : W → D) (hE : OnlyUpdates part E) (c : Conf) (mkdir : W → Except Err Unit × W) (hm : ∀ w, part (mkdir w).2 = part w) (n : Nat) (trn : Passives V) (val : Option (Passives V))
    (h : trn.vols.length < c.bs) (o : Outer W V P C) : part (fit E c mkdir n trn val o).2.w = part o.w := by
  simp only [fit]
  have h0 := hm o.w
  rcases e : mkdir o.w with ⟨r, w⟩
  rw [e] at h0
  cases r with
  | error x => exact h0
  | ok x =>
    simp only at h0 ⊢
    have k : K' part (fitBody E { c with nCb := o.cbList.length } n trn val) :=
      (K.cbs _ hE _).weak.seq <| (K.cbs _ hE _).weak.seq <| (epochs_keep { c with nCb := o.cbList.length } hE trn val (.inl h) n).seq <| (K.cbs _ hE _).weak
    exact (k _).trans h0

/-! ### The assumptions can be met -/

/-- the detector's parameter in the fits of C155, without the callback that changes it -/
def env : Env (ℝ × Nat × List (Option ℝ)) Nat ℝ := { C155.env with
  cb := fun _ _ f w => (.ok (), ⟨f.pred, f.stop, f.skip⟩, w)
  prim := fun a f w => match a with
    | .backward x => (.ok (), w.1, w.2.1, w.2.2 ++ [some x])
    | a => C155.env.prim a f w }

theorem env_only : OnlyUpdates Prod.fst env where
  cb _ _ _ _ := rfl
  prim a f w h1 h2 := by
    cases a with
    | step => exact (h1 rfl).elim
    | conform => exact (h2 rfl).elim
    | load v => simp only [env, C155.env]; split <;> rfl
    | _ => rfl
  pred _ _ := rfl
  loss _ _ := rfl

/-- predicting two volumes, of which the second cannot be loaded, changes the number of muons but not the detector -/
example : (predict env ⟨0, 1, 2, 1⟩ "c" (fun w => (.ok w.2.1 : Except Err Nat)) ⟨[0, 7], 2⟩ (⟨none, (4, 0, []), [], ["a"], true⟩ : Outer _ _ _ String)).2.w.1 = 4 ∧
    (predict env ⟨0, 1, 2, 1⟩ "c" (fun w => (.ok w.2.1 : Except Err Nat)) ⟨[0, 7], 2⟩ (⟨none, (4, 0, []), [], ["a"], true⟩ : Outer _ _ _ String)).2.w.2.1 = 2 := by
  refine ⟨predicting Prod.fst env_only _ _ _ _ _, by decide +kernel⟩

/-- two epochs with one volume for training in batches of two, and three for validation, do not change the detector; with batches of one they do -/
example : (fit env ⟨0, 2, 1, 1⟩ (fun w => (.ok (), w)) 2 ⟨[0], 1⟩ (some ⟨[1, 2, 3], 3⟩) (⟨none, (4, 0, []), [], ["a"], true⟩ : Outer _ _ _ String)).2.w.1 = 4 :=
  validating Prod.fst env_only _ _ (fun _ => rfl) _ _ _ (by decide) _

example : (fit env ⟨0, 1, 1, 1⟩ (fun w => (.ok (), w)) 1 ⟨[0], 1⟩ none (⟨none, (4, 0, []), [], [], true⟩ : Outer _ _ _ String)).2.w.1 = 2 := by
  have : (fit env ⟨0, 1, 1, 1⟩ (fun w => (.ok (), w)) 1 ⟨[0], 1⟩ none (⟨none, (4, 0, []), [], [], true⟩ : Outer _ _ _ String)).2.w.1 = 4 / 2 := by
    simp [fit, fitBody, cbs, each, epochs, fitEpoch, runEpoch, scanVolumes, scanFrom, batchBegin, oneVolume, scanVolume, muBatch, getPred, addLoss, batchEnd, update, setMean, call, note, setFp, Fit.seq, nop, env, C155.env, initFp, List.range_succ]
  rw [this]
  norm_num

end C156

end

end Tomopt
