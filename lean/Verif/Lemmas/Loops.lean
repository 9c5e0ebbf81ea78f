import Verif.Lemmas.EpochSave

/- What every call of a scan keeps, the scan keeps. -/
namespace Tomopt

noncomputable section

namespace Fit

open EpochSave

variable {W V P : Type} {E : Env W V P} {c : Conf} {I : S W V P → Prop}

/-- the interjections made during a scan -/
def InScan (e : Ev) : Prop := e ≠ .setWrapper ∧ e ≠ .trainBegin ∧ e ≠ .epochBegin ∧ e ≠ .epochEnd ∧ e ≠ .trainEnd ∧ e ≠ .predBegin ∧ e ≠ .predEnd

/-- `I` is kept by whatever a scan does -/
structure Kept (E : Env W V P) (I : S W V P → Prop) : Prop where
  set : ∀ g : FP P → FP P, (∀ x, (g x).mode = x.mode ∧ (g x).epoch = x.epoch ∧ (g x).stop = x.stop) → Inv I (setFp g : Prog W V P)
  cb : ∀ i e, InScan e → Inv I (callCb E i e)
  call : ∀ a, Inv I (call E a)
  pred : Inv I (getPred E)
  loss : Inv I (addLoss E)

theorem Kept.cbs (h : Kept E I) (e : Ev) (he : InScan e) : Inv I (cbs E c e) := inv_each _ _ fun i => h.cb i e he

theorem Kept.scan (h : Kept E I) (len i : Nat) (vs : List V) : Inv I (scanFrom E c len i vs) := by
  have hcb : ∀ e : Ev, InScan e → Inv I (Fit.cbs E c e) := fun e he => h.cbs e he
  have hmu : Inv I (muBatch E c) := inv_seq (h.call _) (inv_seq (hcb _ (by simp [InScan])) (inv_seq (h.call _) (inv_seq (h.call _)
    (inv_seq (hcb _ (by simp [InScan])) (inv_seq (h.call _) (hcb _ (by simp [InScan])))))))
  have hvol : ∀ v, Inv I (oneVolume E c v) := by
    intro v
    unfold oneVolume scanVolume
    refine inv_seq (h.call _) (inv_seq (hcb _ (by simp [InScan])) (inv_seq (inv_seq (h.set _ fun _ => ⟨rfl, rfl, rfl⟩) (inv_seq ?_ (inv_seq (h.call _)
      (inv_seq (inv_each _ _ fun _ => hmu) (inv_seq (hcb _ (by simp [InScan])) (inv_seq h.pred (inv_seq (hcb _ (by simp [InScan])) h.loss))))))) (hcb _ (by simp [InScan]))))
    split
    · exact inv_raise _
    · exact inv_nop
  have hend : Inv I (batchEnd E c) := by
    unfold batchEnd
    refine inv_seq (h.set _ fun _ => ⟨rfl, rfl, rfl⟩) (inv_seq (hcb _ (by simp [InScan])) (inv_dep (m := fun s => _) fun s hs => ?_))
    split
    · unfold update
      refine inv_seq (h.call _) (inv_seq (hcb _ (by simp [InScan])) (inv_seq (inv_dep (m := fun s => _) fun s hs => ?_) (inv_seq (hcb _ (by simp [InScan])) (inv_seq
        (inv_dep (m := fun s => _) fun s hs => ?_) (inv_seq (hcb _ (by simp [InScan])) (h.call _))))))
      · cases s.fp.meanLoss with
        | none => exact inv_nop
        | some x => exact h.call _
      · split
        · exact h.call _
        · exact inv_nop
    · exact inv_nop
  induction vs generalizing i with
  | nil => exact inv_nop
  | cons v vs ih =>
    rw [scanFrom]
    refine inv_seq (h.set _ fun _ => ⟨rfl, rfl, rfl⟩) (inv_seq ?_ (inv_seq (hvol v) (inv_dep (m := fun s => _) fun s hs => ?_)))
    · unfold batchBegin
      refine inv_dep (m := fun s => _) fun s hs => ?_
      split
      · exact inv_nop
      · split
        · exact inv_raise _
        · split
          · exact inv_seq (h.set _ fun _ => ⟨rfl, rfl, rfl⟩) (hcb _ (by simp [InScan]))
          · exact inv_nop
    · split
      · refine inv_seq hend ?_
        split
        · exact inv_nop
        · exact ih _
      · exact ih _

end Fit

end

end Tomopt
