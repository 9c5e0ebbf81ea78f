import Verif.Model.Records
import Verif.Lemmas.Observe

/- The loops with a recorder. -/
namespace Tomopt

noncomputable section

namespace C91

open Fit Records

variable {W V P α : Type} {E : Env W V P} {k : Nat} {record : W → List α} {obs : W → α} {hist : W → List α}

/-- is this act the inference of scatters from a batch of muons -/
def isInfer : Act V → Bool
  | .inferScatter => true
  | _ => false

/-- What is inferred during a program is appended to the record, except perhaps for the last batch if it raises. -/
def Grows (record hist : W → List α) (m : Prog W V P) : Prop := ∀ s r s', m s = (r, s') → ∃ a b t, s'.log = s.log ++ t ∧ hist s'.w = hist s.w ++ a ∧
  record s'.w = record s.w ++ b ∧ (r = .ok () → b = a ∧ a.length = t.countP isInfer) ∧ (∀ e, r = .error e → b = a ∨ ∃ x, a = b ++ [x])

theorem grows_seq {m n : Prog W V P} (h1 : Grows record hist m) (h2 : Grows record hist n) : Grows record hist (m ;; n) := by
  intro s r s' h
  unfold seq at h
  rcases hm : m s with ⟨r1, s1⟩
  rw [hm] at h
  obtain ⟨a, b, t, l1, g1, g2, g3, g4⟩ := h1 _ _ _ hm
  cases r1 with
  | error e =>
    simp only [Prod.mk.injEq] at h
    obtain ⟨rfl, rfl⟩ := h
    exact ⟨a, b, t, l1, g1, g2, g3, g4⟩
  | ok u =>
    obtain ⟨a', b', t', l1', g1', g2', g3', g4'⟩ := h2 _ _ _ h
    obtain ⟨rfl, hc⟩ := g3 rfl
    refine ⟨b ++ a', b ++ b', t ++ t', by rw [l1', l1, List.append_assoc], by rw [g1', g1, List.append_assoc], by rw [g2', g2, List.append_assoc], ?_, ?_⟩
    · intro hr
      obtain ⟨e1, e2⟩ := g3' hr
      exact ⟨by rw [e1], by rw [List.length_append, List.countP_append, hc, e2]⟩
    · intro e he
      rcases g4' e he with h | ⟨x, h⟩
      · exact Or.inl (by rw [h])
      · exact Or.inr ⟨x, by rw [h, List.append_assoc]⟩

/-- nothing happens to the record -/
theorem grows_of {m : Prog W V P} (h : ∀ s r s', m s = (r, s') → ∃ t, s'.log = s.log ++ t ∧ t.countP isInfer = 0 ∧ record s'.w = record s.w ∧ hist s'.w = hist s.w) :
    Grows record hist m := by
  intro s r s' hm
  obtain ⟨t, l, h0, h1, h2⟩ := h _ _ _ hm
  exact ⟨[], [], t, l, by simp [h2], by simp [h1], fun _ => ⟨rfl, by simp [h0]⟩, fun _ _ => Or.inl rfl⟩

theorem grows_nop : Grows record hist (nop : Prog W V P) := by
  refine grows_of fun s r s' h => ?_
  cases h
  exact ⟨[], by simp, rfl, rfl, rfl⟩

theorem grows_raise (e : Err) : Grows record hist (raise e : Prog W V P) := by
  refine grows_of fun s r s' h => ?_
  cases h
  exact ⟨[], by simp, rfl, rfl, rfl⟩

theorem grows_setFp (f : FP P → FP P) : Grows record hist (setFp f : Prog W V P) := by
  refine grows_of fun s r s' h => ?_
  cases h
  exact ⟨[], by simp, rfl, rfl, rfl⟩

theorem grows_note (a : Act V) (ha : isInfer a = false) : Grows record hist (note a : Prog W V P) := by
  refine grows_of fun s r s' h => ?_
  cases h
  exact ⟨[a], rfl, by simp [ha], rfl, rfl⟩

theorem grows_each {β : Type} (l : List β) (f : β → Prog W V P) (h : ∀ a, Grows record hist (f a)) : Grows record hist (each l f) := by
  induction l with
  | nil => exact grows_nop
  | cons a l ih => exact grows_seq (h a) ih

theorem grows_dep {f : S W V P → Prog W V P} (h : ∀ s, Grows record hist (f s)) : Grows record hist fun s => f s s := by
  intro s r s' hm
  exact h s s r s' hm

theorem grows_call (hW : Keeps E k record obs hist) (a : Act V) (ha : isInfer a = false) : Grows record hist (call E a) := by
  refine grows_of fun s r s' h => ?_
  unfold call seq note at h
  simp only [Prod.mk.injEq] at h
  obtain ⟨h1, h2⟩ := h
  subst h2
  refine ⟨[a], rfl, by simp [ha], hW.prim _ _ _, hW.primHist _ _ _ ?_⟩
  rintro rfl
  simp [isInfer] at ha

/-- one interjection -/
theorem callCb_eq {i : Nat} {e : Ev} {s s' : S W V P} {r : Except Err Unit} (h : callCb E i e s = (r, s')) :
    (E.cb i e s.fp s.w).1 = r ∧ s'.w = (E.cb i e s.fp s.w).2.2 ∧ s'.log = s.log ++ [.cb i e] := by
  unfold callCb seq note at h
  simp only [Prod.mk.injEq] at h
  obtain ⟨h1, h2⟩ := h
  subst h2
  exact ⟨h1, rfl, rfl⟩

theorem step_quiet {e : Ev} (h1 : e ≠ .trainBegin) (h2 : e ≠ .predBegin) (h3 : e ≠ .scatterEnd) (x : α) (l : List α) : step e x l = l := by
  cases e <;> simp_all [step]

theorem record_cb (hW : Keeps E k record obs hist) {i : Nat} {e : Ev} {s s' : S W V P} {r : Except Err Unit} (h : callCb E i e s = (r, s'))
    (hq : i ≠ k ∨ e ≠ .trainBegin ∧ e ≠ .predBegin ∧ e ≠ .scatterEnd) : record s'.w = record s.w := by
  obtain ⟨h1, h2, -⟩ := callCb_eq h
  rw [h2]
  rcases hq with hi | ⟨q1, q2, q3⟩
  · exact hW.other _ _ _ _ hi
  · by_cases hi : i = k
    · subst hi
      cases r with
      | ok u => rw [hW.self _ _ _ h1, step_quiet q1 q2 q3]
      | error x => exact hW.selfErr _ _ _ _ h1
    · exact hW.other _ _ _ _ hi

theorem grows_callCb (hW : Keeps E k record obs hist) {i : Nat} {e : Ev} (hq : i ≠ k ∨ e ≠ .trainBegin ∧ e ≠ .predBegin ∧ e ≠ .scatterEnd) :
    Grows record hist (callCb E i e) := by
  refine grows_of fun s r s' h => ?_
  obtain ⟨h1, h2, h3⟩ := callCb_eq h
  exact ⟨_, h3, by simp [isInfer], record_cb hW h hq, by rw [h2, hW.cbHist]⟩

theorem grows_cbs (hW : Keeps E k record obs hist) (c : Conf) (e : Ev) (h1 : e ≠ .trainBegin) (h2 : e ≠ .predBegin) (h3 : e ≠ .scatterEnd) : Grows record hist (cbs E c e) :=
  grows_each _ _ fun _ => grows_callCb hW (Or.inr ⟨h1, h2, h3⟩)

/-- all callbacks up to `n`, about an event that makes the recorder act -/
theorem cbs_upto (hW : Keeps E k record obs hist) (e : Ev) (l : List Nat) (hn : l.Nodup) (s s' : S W V P) (r : Except Err Unit)
    (h : each l (fun i => callCb E i e) s = (r, s')) : ∃ t, s'.log = s.log ++ t ∧ t.countP isInfer = 0 ∧ hist s'.w = hist s.w ∧ obs s'.w = obs s.w ∧
      (r = .ok () → record s'.w = if k ∈ l then step e (obs s.w) (record s.w) else record s.w) ∧
      (record s'.w = record s.w ∨ record s'.w = step e (obs s.w) (record s.w)) := by
  induction l generalizing s with
  | nil =>
    cases h
    exact ⟨[], by simp, rfl, rfl, rfl, by simp, Or.inl rfl⟩
  | cons i l ih =>
    rw [each] at h
    unfold seq at h
    rcases hm : callCb E i e s with ⟨r1, s1⟩
    rw [hm] at h
    obtain ⟨h1, h2, h3⟩ := callCb_eq hm
    have ho : obs s1.w = obs s.w := by rw [h2, hW.cbObs]
    have hh : hist s1.w = hist s.w := by rw [h2, hW.cbHist]
    cases r1 with
    | error x =>
      simp only [Prod.mk.injEq] at h
      obtain ⟨rfl, rfl⟩ := h
      refine ⟨_, h3, by simp [isInfer], hh, ho, by simp, Or.inl ?_⟩
      rw [h2]
      by_cases hi : i = k
      · subst hi; exact hW.selfErr _ _ _ _ h1
      · exact hW.other _ _ _ _ hi
    | ok u =>
      obtain ⟨hil, hnl⟩ := List.nodup_cons.mp hn
      obtain ⟨t, l1, l2, l3, l4, l5, l6⟩ := ih hnl s1 h
      refine ⟨.cb i e :: t, by rw [l1, h3]; simp, by simp [isInfer, l2], by rw [l3, hh], by rw [l4, ho], ?_, ?_⟩
      · intro hr
        rw [l5 hr, ho]
        by_cases hi : i = k
        · subst hi
          rw [if_neg hil, if_pos (by simp), h2, hW.self _ _ _ h1]
        · have : record s1.w = record s.w := by rw [h2]; exact hW.other _ _ _ _ hi
          rw [this]
          by_cases hk : k ∈ l
          · rw [if_pos hk, if_pos (by simp [hk])]
          · rw [if_neg hk, if_neg (by simp [hk, Ne.symm hi])]
      · by_cases hi : i = k
        · subst hi
          have hs1 : record s1.w = step e (obs s.w) (record s.w) := by rw [h2, hW.self _ _ _ h1]
          have : record s'.w = record s1.w := by
            clear ih l5 l6
            have key : ∀ (l : List Nat) (s1 : S W V P), i ∉ l → each l (fun j => callCb E j e) s1 = (r, s') → record s'.w = record s1.w := by
              intro l
              induction l with
              | nil => intro s1 _ h; cases h; rfl
              | cons j l ih =>
                intro s1 hj h
                rw [each] at h
                unfold seq at h
                rcases hm : callCb E j e s1 with ⟨r2, s2⟩
                rw [hm] at h
                have hji : j ≠ i := by rintro rfl; simp at hj
                have e1 := record_cb hW hm (Or.inl hji)
                cases r2 with
                | error x =>
                  simp only [Prod.mk.injEq] at h
                  obtain ⟨rfl, rfl⟩ := h
                  exact e1
                | ok u => rw [ih s2 (by simp at hj; exact hj.2) h, e1]
            exact key l s1 hil h
          exact Or.inr (by rw [this, hs1])
        · have : record s1.w = record s.w := by rw [h2]; exact hW.other _ _ _ _ hi
          rw [this, ho] at l6
          exact l6

theorem grows_infer (hW : Keeps E k record obs hist) (c : Conf) (hk : k < c.nCb) : Grows record hist (call E .inferScatter ;; cbs E c .scatterEnd) := by
  intro s r s' h
  unfold seq at h
  rcases hm : call E .inferScatter s with ⟨r1, s1⟩
  rw [hm] at h
  unfold call seq note at hm
  simp only [Prod.mk.injEq] at hm
  obtain ⟨h1, h2⟩ := hm
  have hrec : record s1.w = record s.w := by rw [← h2]; exact hW.prim _ _ _
  have hlog : s1.log = s.log ++ [.inferScatter] := by rw [← h2]
  cases r1 with
  | error x =>
    simp only [Prod.mk.injEq] at h
    obtain ⟨rfl, rfl⟩ := h
    have hh : hist s1.w = hist s.w := by rw [← h2]; exact hW.inferErr _ _ _ h1
    exact ⟨[], [], _, hlog, by simp [hh], by simp [hrec], by simp, fun _ _ => Or.inl rfl⟩
  | ok u =>
    have hh : hist s1.w = hist s.w ++ [obs s1.w] := by rw [← h2]; exact hW.infer _ _ h1
    obtain ⟨t, l1, l2, l3, l4, l5, l6⟩ := cbs_upto hW .scatterEnd _ List.nodup_range s1 s' r h
    have e5 : r = .ok () → record s'.w = record s.w ++ [obs s1.w] := by
      intro hr
      rw [l5 hr, if_pos (by simpa using hk), hrec]
      rfl
    by_cases hs : record s'.w = record s.w ++ [obs s1.w]
    · exact ⟨[obs s1.w], [obs s1.w], .inferScatter :: t, by rw [l1, hlog]; simp, by rw [l3, hh], hs, fun _ => ⟨rfl, by rw [List.countP_cons, l2]; rfl⟩, fun _ _ => Or.inl rfl⟩
    · refine ⟨[obs s1.w], [], .inferScatter :: t, by rw [l1, hlog]; simp, by rw [l3, hh], ?_, fun hr => absurd (e5 hr) hs, fun _ _ => Or.inr ⟨_, rfl⟩⟩
      rcases l6 with l6 | l6
      · rw [l6, hrec]; simp
      · rw [hrec] at l6; exact absurd l6 hs

theorem grows_muBatch (hW : Keeps E k record obs hist) (c : Conf) (hk : k < c.nCb) : Grows record hist (muBatch E c) := by
  unfold muBatch
  rw [← seq_assoc (call E .inferScatter)]
  exact grows_seq (grows_call hW _ rfl) (grows_seq (grows_cbs hW c _ (by simp) (by simp) (by simp)) (grows_seq (grows_call hW _ rfl) (grows_seq (grows_infer hW c hk)
    (grows_seq (grows_call hW _ rfl) (grows_cbs hW c _ (by simp) (by simp) (by simp))))))

theorem grows_getPred (hW : Keeps E k record obs hist) : Grows record hist (getPred E) := by
  refine grows_seq (grows_note _ rfl) (grows_of fun s r s' h => ?_)
  rcases hp : E.pred s.fp s.w with ⟨q, w⟩
  have := hW.pred s.fp s.w
  rw [hp] at h this
  cases q <;> · cases h; exact ⟨[], by simp, rfl, this⟩

theorem grows_addLoss (hW : Keeps E k record obs hist) : Grows record hist (addLoss E) := by
  unfold addLoss
  refine grows_dep fun s0 => grows_seq (grows_note _ rfl) ?_
  by_cases hp : s0.fp.mode ≠ .test ∧ E.hasLoss = true
  · rw [if_pos hp]
    cases hq : s0.fp.pred with
    | none => exact grows_nop
    | some p =>
      refine grows_of fun s r s' h => ?_
      have := hW.loss p s.w
      rcases hl : E.loss p s.w with ⟨x, w⟩
      simp only [hl] at h this
      cases x with
      | error e => cases h; exact ⟨[], by simp, rfl, this⟩
      | ok x => cases h; exact ⟨[.loss x], rfl, by simp [isInfer], this⟩
  · rw [if_neg hp]
    exact grows_nop

theorem grows_scanVolume (hW : Keeps E k record obs hist) (c : Conf) (hk : k < c.nCb) : Grows record hist (scanVolume E c) := by
  unfold scanVolume
  refine grows_seq (grows_setFp _) (grows_seq ?_ (grows_seq (grows_call hW _ rfl) (grows_seq (grows_each _ _ fun _ => grows_muBatch hW c hk)
    (grows_seq (grows_cbs hW c _ (by simp) (by simp) (by simp)) (grows_seq (grows_getPred hW) (grows_seq (grows_cbs hW c _ (by simp) (by simp) (by simp)) (grows_addLoss hW)))))))
  split
  · exact grows_raise _
  · exact grows_nop

theorem grows_update (hW : Keeps E k record obs hist) (c : Conf) : Grows record hist (update E c) := by
  unfold update
  refine grows_seq (grows_call hW _ rfl) (grows_seq (grows_cbs hW c _ (by simp) (by simp) (by simp)) (grows_seq (grows_dep fun s => ?_)
    (grows_seq (grows_cbs hW c _ (by simp) (by simp) (by simp)) (grows_seq (grows_dep fun s => ?_)
      (grows_seq (grows_cbs hW c _ (by simp) (by simp) (by simp)) (grows_call hW _ rfl))))))
  · split
    · exact grows_call hW _ rfl
    · exact grows_nop
  · split
    · exact grows_call hW _ rfl
    · exact grows_nop

theorem grows_batchEnd (hW : Keeps E k record obs hist) (c : Conf) : Grows record hist (batchEnd E c) := by
  unfold batchEnd
  refine grows_seq (grows_setFp _) (grows_seq (grows_cbs hW c _ (by simp) (by simp) (by simp)) (grows_dep fun s => ?_))
  split
  · exact grows_update hW c
  · exact grows_nop

theorem grows_batchBegin (hW : Keeps E k record obs hist) (c : Conf) (i : Nat) : Grows record hist (batchBegin E c i) := by
  unfold batchBegin
  refine grows_dep fun s => ?_
  split
  · exact grows_nop
  · split
    · exact grows_raise _
    · split
      · exact grows_seq (grows_setFp _) (grows_cbs hW c _ (by simp) (by simp) (by simp))
      · exact grows_nop

theorem grows_scanFrom (hW : Keeps E k record obs hist) (c : Conf) (hk : k < c.nCb) (len : Nat) (vs : List V) (i : Nat) : Grows record hist (scanFrom E c len i vs) := by
  induction vs generalizing i with
  | nil => exact grows_nop
  | cons v vs ih =>
    unfold scanFrom
    refine grows_seq (grows_setFp _) (grows_seq (grows_batchBegin hW c i) (grows_seq (grows_seq (grows_call hW _ rfl)
      (grows_seq (grows_cbs hW c _ (by simp) (by simp) (by simp)) (grows_seq (grows_scanVolume hW c hk) (grows_cbs hW c _ (by simp) (by simp) (by simp))))) (grows_dep fun s => ?_)))
    split
    · refine grows_seq (grows_batchEnd hW c) ?_
      split
      · exact grows_nop
      · exact ih _
    · exact ih _

theorem grows_runEpoch (hW : Keeps E k record obs hist) (c : Conf) (hk : k < c.nCb) (ps : Passives V) : Grows record hist (runEpoch E c ps) :=
  grows_seq (grows_cbs hW c _ (by simp) (by simp) (by simp)) (grows_seq (grows_scanFrom hW c hk _ _ _) (grows_cbs hW c _ (by simp) (by simp) (by simp)))

theorem grows_epochs (hW : Keeps E k record obs hist) (c : Conf) (hk : k < c.nCb) (trn : Passives V) (val : Option (Passives V)) (n : Nat) :
    Grows record hist (epochs E c trn val n) := by
  induction n with
  | zero => exact grows_nop
  | succ n ih =>
    unfold epochs
    refine grows_seq ?_ (grows_dep fun s => ?_)
    · unfold fitEpoch
      refine grows_seq (grows_setFp _) (grows_seq (grows_call hW _ rfl) (grows_seq (grows_setFp _) (grows_seq (grows_runEpoch hW c hk trn) ?_)))
      cases val with
      | none => exact grows_nop
      | some v => exact grows_seq (grows_call hW _ rfl) (grows_seq (grows_setFp _) (grows_runEpoch hW c hk v))
    · split
      · exact grows_nop
      · exact ih

/-- What a recorder holds after a run that starts with `e`: everything inferred in the run. -/
theorem run_record (hW : Keeps E k record obs hist) (c : Conf) (hk : k < c.nCb) (e : Ev) (he : e = .trainBegin ∨ e = .predBegin) (a m : Prog W V P)
    (ha : Grows record hist a) (ha0 : ∀ s r s', a s = (r, s') → hist s'.w = hist s.w)
    (ha1 : ∀ s r s', a s = (r, s') → ∃ t, s'.log = s.log ++ t ∧ t.countP isInfer = 0)
    (hm : Grows record hist m) (s s' : S W V P) (r : Except Err Unit) (h : (a ;; cbs E c e ;; m) s = (r, s')) :
    ∃ new t, s'.log = s.log ++ t ∧ hist s'.w = hist s.w ++ new ∧ (r = .ok () → record s'.w = new ∧ new.length = t.countP isInfer) ∧
      (new ≠ [] → record s'.w = new ∨ ∃ x, new = record s'.w ++ [x]) := by
  unfold seq at h
  rcases h1 : a s with ⟨r1, s1⟩
  rw [h1] at h
  obtain ⟨t1, l1, c1⟩ := ha1 _ _ _ h1
  have i1 := ha0 _ _ _ h1
  cases r1 with
  | error x =>
    simp only [Prod.mk.injEq] at h
    obtain ⟨rfl, rfl⟩ := h
    exact ⟨[], t1, l1, by simp [i1], by simp, by simp⟩
  | ok u =>
    simp only at h
    rcases h2 : cbs E c e s1 with ⟨r2, s2⟩
    rw [h2] at h
    obtain ⟨t2, l2, c2, i2, -, rec2, -⟩ := cbs_upto hW e _ List.nodup_range s1 s2 r2 h2
    cases r2 with
    | error x =>
      simp only [Prod.mk.injEq] at h
      obtain ⟨rfl, rfl⟩ := h
      exact ⟨[], t1 ++ t2, by rw [l2, l1, List.append_assoc], by simp [i2, i1], by simp, by simp⟩
    | ok u =>
      have hrec : record s2.w = [] := by
        rw [rec2 rfl, if_pos (by simpa using hk)]
        rcases he with rfl | rfl <;> rfl
      obtain ⟨x, y, t3, l3, i3, j3, o3, e3⟩ := hm _ _ _ h
      rw [hrec, List.nil_append] at j3
      refine ⟨x, t1 ++ t2 ++ t3, by rw [l3, l2, l1]; simp, by rw [i3, i2, i1], ?_, ?_⟩
      · intro hr
        obtain ⟨q1, q2⟩ := o3 hr
        exact ⟨by rw [j3, q1], by rw [q2]; simp [List.countP_append, c1, c2]⟩
      · intro _
        rw [j3]
        cases r with
        | ok u => exact Or.inl (o3 rfl).1
        | error z =>
          rcases e3 z rfl with q | ⟨v, q⟩
          · exact Or.inl q
          · exact Or.inr ⟨v, q⟩

end C91

end

end Tomopt
