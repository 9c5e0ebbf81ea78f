import Verif.Lemmas.GoOn

/- C155: a fit can be continued by another fit.  Property theorems; for which callbacks is in Spec/GoOn.lean, the lemmas are in Lemmas/GoOn.lean. -/
namespace Tomopt

noncomputable section
open Fit

namespace C155

open GoOn

/-- **C155.** Callbacks that look only at what was set since the epoch began (`Steady`), a volume, muons, inference and optimisers of any kind. A fit of `n` epochs that ends normally, followed by one of `m` epochs with the same volumes and callbacks,
ends like one fit of `n + m` epochs: normally or with the same error, with the rest of the world (detectors, optimisers, random numbers, callbacks, files) in the same state, and after the same calls in the same order but for those of
callbacks at the beginning and the end of a fit. -/
theorem continued {W V P C : Type} {E : Env W V P} (hE : Steady E) (c : Conf) (mkdir : W → Except Err Unit × W) (hm : ∀ w, mkdir w = (.ok (), w)) (n m : Nat) (trn : Passives V) (val : Option (Passives V)) (o : Outer W V P C)
    (h : (fit E c mkdir n trn val o).1 = .ok ()) :
    let first := (fit E c mkdir n trn val o).2
    let second := fit E c mkdir m trn val first
    let both := fit E c mkdir (n + m) trn val o
    both.1 = second.1 ∧ both.2.w = second.2.w ∧ both.2.log.filter inner = second.2.log.filter inner ∧ both.2.fp.isSome = second.2.fp.isSome ∧ both.2.cbList = second.2.cbList ∧ both.2.shuffle = second.2.shuffle := by
  intro first second both
  have hc : ∀ (k : Nat) (o : Outer W V P C), (fit E c mkdir k trn val o).2.cbList = o.cbList ∧ (fit E c mkdir k trn val o).2.shuffle = o.shuffle ∧ (fit E c mkdir k trn val o).2.fp.isSome = false := by
    intro k o
    simp only [fit, hm]
    exact ⟨trivial, trivial, rfl⟩
  obtain ⟨a1, a2, a3⟩ := fit_epochs c hE mkdir hm n trn val o
  obtain ⟨b1, b2, b3⟩ := fit_epochs c hE mkdir hm m trn val first
  obtain ⟨d1, d2, d3⟩ := fit_epochs c hE mkdir hm (n + m) trn val o
  change first.w = _ at a2
  change first.log.filter inner = _ at a3
  rw [show first.cbList = o.cbList from (hc n o).1] at b1 b2 b3
  generalize ({ c with nCb := o.cbList.length } : Conf) = c' at a1 a2 a3 b1 b2 b3 d1 d2 d3
  generalize hs0 : (⟨initFp .train, o.w, o.log⟩ : S W V P) = s0 at a1 a2 a3 d1 d2 d3
  have k0 : s0.fp.stop = false ∧ s0.fp.skip = false ∧ s0.fp.mode ≠ .test := by rw [← hs0]; exact ⟨rfl, rfl, by simp [initFp]⟩
  rw [epochs_add c' hE trn val m n s0 k0.1 k0.2.1 k0.2.2, Fit.seq] at d1 d2 d3
  obtain ⟨-, hb, -⟩ := T.epochs c' hE trn val n s0 s0 ⟨rfl, rfl, rfl, k0.2.2, k0.1, k0.1, k0.2.1, k0.2.1⟩ (lev0 _ _)
  rcases e : epochs E c' trn val n s0 with ⟨r, s1⟩
  rw [e] at a1 a2 a3 d1 d2 d3 hb
  rw [h] at a1
  simp only at a1 a2 a3 d1 d2 d3 hb
  subst a1
  simp only at d1 d2 d3
  obtain ⟨-, -, -, q4, q5, -, q7, -⟩ := hb
  obtain ⟨g1, g2, g3⟩ := epochs_fresh c' hE trn val m s1 ⟨initFp .train, first.w, first.log⟩ ⟨a2.symm, a3.symm, ⟨q5, rfl⟩, q7, rfl⟩
  exact ⟨d1.trans (g1.trans b1.symm), d2.trans (g2.trans b2.symm), d3.trans (g3.trans b3.symm), (hc _ o).2.2.trans (hc _ first).2.2.symm, (hc _ o).1.trans ((hc _ first).1.trans (hc n o).1).symm,
    (hc _ o).2.1.trans ((hc _ first).2.1.trans (hc n o).2.1).symm⟩

/-- **C155: errors.** If the first of the two fits raises an error, so does the long one, with the rest of the world in the same state and after the same calls. -/
theorem broken_off {W V P C : Type} {E : Env W V P} (hE : Steady E) (c : Conf) (mkdir : W → Except Err Unit × W) (hm : ∀ w, mkdir w = (.ok (), w)) (n m : Nat) (trn : Passives V) (val : Option (Passives V)) (o : Outer W V P C) (x : Err)
    (h : (fit E c mkdir n trn val o).1 = .error x) :
    (fit E c mkdir (n + m) trn val o).1 = .error x ∧ (fit E c mkdir (n + m) trn val o).2.w = (fit E c mkdir n trn val o).2.w ∧
      (fit E c mkdir (n + m) trn val o).2.log.filter inner = (fit E c mkdir n trn val o).2.log.filter inner := by
  obtain ⟨a1, a2, a3⟩ := fit_epochs c hE mkdir hm n trn val o
  obtain ⟨d1, d2, d3⟩ := fit_epochs c hE mkdir hm (n + m) trn val o
  rw [epochs_add _ hE trn val m n _ rfl rfl (by simp [initFp]), Fit.seq] at d1 d2 d3
  rw [h] at a1
  rcases e : epochs E { c with nCb := o.cbList.length } trn val n ⟨initFp .train, o.w, o.log⟩ with ⟨r, s1⟩
  rw [e] at a1 a2 a3 d1 d2 d3
  simp only at a1 a2 a3 d1 d2 d3
  subst a1
  exact ⟨d1, d2.trans a2.symm, d3.trans a3.symm⟩

/-! ### A fit that can be continued -/

/-- A detector with one parameter, which is also what is predicted and the loss. An update halves it and adds the mean loss of the batch times the number of muon batches so far; one callback takes back updates that go below 1, another
collects the losses it is shown after every batch. Loading the volume 7 fails. -/
def env : Env (ℝ × Nat × List (Option ℝ)) Nat ℝ where
  cb i e f w := (.ok (), ⟨f.pred, f.stop, f.skip⟩,
    match i, e with
    | 0, .stepEnd => (max w.1 1, w.2)
    | 1, .volBatchEnd => (w.1, w.2.1, w.2.2 ++ [f.meanLoss])
    | _, _ => w)
  prim a _ w :=
    match a with
    | .load v => if v = 7 then (.error .valueError, w) else (.ok (), w)
    | .makeMuons => (.ok (), w.1, w.2.1 + 1, w.2.2)
    | .backward x => (.ok (), w.1 + x * w.2.1, w.2)
    | .step => (.ok (), w.1 / 2, w.2)
    | _ => (.ok (), w)
  pred _ w := (.ok (some w.1), w)
  loss p w := (.ok p, w)
  hasLoss := true

theorem steady : Steady env where
  same i e f g w h := by
    refine ⟨rfl, ?_, fun hp => hp⟩
    simp only [env]
    split
    · rfl
    · rename_i he
      obtain ⟨-, -, -, -, hm⟩ := h
      rw [hm]
    · rfl
  goes _ _ _ _ := ⟨rfl, rfl⟩
  ends i e f w he := by
    refine ⟨rfl, ?_⟩
    simp only [env]
    rcases he with rfl | rfl | rfl <;> split <;> first | rfl | (rename_i h; cases h)
  prim _ _ _ _ := rfl
  pred _ _ _ := rfl

/-- two volumes and two batches of muons each, two callbacks and a validation -/
def start : Outer (ℝ × Nat × List (Option ℝ)) Nat ℝ String := ⟨none, (4, 0, []), [], ["a", "b"], true⟩

theorem start_ok : (fit env ⟨0, 1, 2, 1⟩ (fun w => (.ok (), w)) 3 ⟨[0, 1], 2⟩ (some ⟨[2], 1⟩) start).1 = .ok () := by
  have h : (fit env ⟨0, 1, 2, 1⟩ (fun w => (.ok (), w)) 3 ⟨[0, 1], 2⟩ (some ⟨[2], 1⟩) start).1.isOk = true := by decide +kernel
  revert h
  generalize (fit env ⟨0, 1, 2, 1⟩ (fun w => (.ok (), w)) 3 ⟨[0, 1], 2⟩ (some ⟨[2], 1⟩) start).1 = r
  cases r <;> simp [Except.isOk, Except.toBool]

/-- three epochs and then two more -/
example : ∃ w log, (fit env ⟨0, 1, 2, 1⟩ (fun w => (.ok (), w)) 3 ⟨[0, 1], 2⟩ (some ⟨[2], 1⟩) start).2 = ⟨none, w, log, ["a", "b"], true⟩ ∧
    (fit env ⟨0, 1, 2, 1⟩ (fun w => (.ok (), w)) (3 + 2) ⟨[0, 1], 2⟩ (some ⟨[2], 1⟩) start).2.w =
      (fit env ⟨0, 1, 2, 1⟩ (fun w => (.ok (), w)) 2 ⟨[0, 1], 2⟩ (some ⟨[2], 1⟩) (⟨none, w, log, ["a", "b"], true⟩ : Outer _ _ _ String)).2.w := by
  have h := continued steady ⟨0, 1, 2, 1⟩ (fun w => (.ok (), w)) (fun _ => rfl) 3 2 ⟨[0, 1], 2⟩ (some ⟨[2], 1⟩) start start_ok
  have e : ∃ w log, (fit env ⟨0, 1, 2, 1⟩ (fun w => (.ok (), w)) 3 ⟨[0, 1], 2⟩ (some ⟨[2], 1⟩) start).2 = ⟨none, w, log, ["a", "b"], true⟩ := ⟨_, _, rfl⟩
  obtain ⟨w, log, e⟩ := e
  rw [e] at h
  exact ⟨w, log, e, h.2.1⟩

/-- with a volume that cannot be loaded the first fit raises the error -/
example : (fit env ⟨0, 1, 2, 1⟩ (fun w => (.ok (), w)) 3 ⟨[0, 7], 2⟩ none (⟨none, (4, 0, []), [], ["a", "b"], true⟩ : Outer _ _ _ String)).1 = .error .valueError := by
  simp [fit, fitBody, cbs, callCb, each, epochs, fitEpoch, runEpoch, scanVolumes, scanFrom, batchBegin, oneVolume, scanVolume, muBatch, getPred, addLoss, batchEnd, update, setMean, call, note, setFp, Fit.seq, nop, env, initFp, List.range_succ]

end C155

end

end Tomopt
