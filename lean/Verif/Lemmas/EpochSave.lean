import Verif.Model.EpochSave
import Verif.Lemmas.Observe
import Mathlib.Tactic.Push

/- What the fitting loop does to the saved files. -/
namespace Tomopt

noncomputable section

namespace EpochSave

open Fit

variable {W V P D : Type} {E : Env W V P} {k : Nat} {folder : String} {files : W → Files D} {snap : W → D}

theorem path_inj {a b : Nat} (h : path folder a = path folder b) : a = b := by
  unfold path at h
  rw [String.append_left_inj, String.append_right_inj] at h
  have h2 : (toString a).toList = (toString b).toList := by rw [h]
  have e : ∀ n : Nat, (toString n).toList = Nat.toDigits 10 n := fun n => Nat.toList_repr
  rw [e, e] at h2
  rw [← Nat.ofDigitChars_toDigits (b := 10) (n := a) (by omega) (by omega), h2, Nat.ofDigitChars_toDigits (by omega) (by omega)]

/-- whatever happens, `I` is kept -/
def Inv (I : S W V P → Prop) (m : Prog W V P) : Prop := ∀ s, I s → I (m s).2

section
variable {I : S W V P → Prop}

theorem inv_seq {m n : Prog W V P} (h1 : Inv I m) (h2 : Inv I n) : Inv I (m ;; n) := by
  intro s hs
  have := h1 s hs
  unfold seq
  rcases hm : m s with ⟨r, s1⟩
  rw [hm] at this
  cases r with
  | ok u => exact h2 _ this
  | error e => exact this

theorem inv_nop : Inv I (nop : Prog W V P) := fun _ h => h

theorem inv_raise (e : Err) : Inv I (raise e : Prog W V P) := fun _ h => h

theorem inv_each {α : Type} (l : List α) (g : α → Prog W V P) (h : ∀ a, Inv I (g a)) : Inv I (each l g) := by
  induction l with
  | nil => exact inv_nop
  | cons a l ih => exact inv_seq (h a) ih

theorem inv_dep {m : S W V P → Prog W V P} (h : ∀ s, I s → Inv I (m s)) : Inv I fun s => m s s := fun s hs => h s hs s hs
end

/-- during an epoch: the mode, the number of the epoch and the files stay, and in validation the state of the wrapper too -/
def During (files : W → Files D) (snap : W → D) (md : Mode) (n : Nat) (F : Files D) (o : D) (s : S W V P) : Prop :=
  s.fp.mode = md ∧ s.fp.epoch = n ∧ files s.w = F ∧ (md = .valid → snap s.w = o)

variable {md : Mode} {n : Nat} {F : Files D} {o : D}

theorem during_setFp (g : FP P → FP P) (hg : ∀ x, (g x).mode = x.mode ∧ (g x).epoch = x.epoch) :
    Inv (During files snap md n F o) (setFp g : Prog W V P) := by
  rintro s ⟨h1, h2, h3, h4⟩
  exact ⟨(hg _).1.trans h1, (hg _).2.trans h2, h3, h4⟩

theorem during_note (a : Act V) : Inv (During files snap md n F o) (note a : Prog W V P) := fun _ h => h

theorem during_call (hS : Saves E k folder files snap) (hC : Calm E k snap) (a : Act V) (ha : md = .valid → a ≠ .step ∧ a ≠ .conform) :
    Inv (During files snap md n F o) (call E a) := by
  refine inv_seq (during_note a) ?_
  rintro s ⟨h1, h2, h3, h4⟩
  exact ⟨h1, h2, (hS.prim _ _ _).trans h3, fun h => (hC.prim _ _ _ (ha h).1 (ha h).2).trans (h4 h)⟩

theorem during_cb (hS : Saves E k folder files snap) (hC : Calm E k snap) (i : Nat) (e : Ev) (he : md = .train → e ≠ .epochEnd) :
    Inv (During files snap md n F o) (callCb E i e) := by
  refine inv_seq (during_note _) ?_
  rintro s ⟨h1, h2, h3, h4⟩
  refine ⟨h1, h2, ?_, fun h => (hC.cb i e _ _ (.inl (h1.trans h))).trans (h4 h)⟩
  rw [← h3]
  by_cases hi : i = k
  · subst hi
    funext q
    refine hS.fails e _ _ q fun h h' => ?_
    exact absurd h (he (h1.symm.trans h'))
  · exact hS.other i e _ _ hi

variable {c : Conf}

theorem during_cbs (hS : Saves E k folder files snap) (hC : Calm E k snap) (e : Ev) (he : md = .train → e ≠ .epochEnd) :
    Inv (During files snap md n F o) (cbs E c e) := inv_each _ _ fun i => during_cb hS hC i e he

theorem during_getPred (hS : Saves E k folder files snap) (hC : Calm E k snap) : Inv (During files snap md n F o) (getPred E) := by
  refine inv_seq (during_note _) ?_
  rintro s ⟨h1, h2, h3, h4⟩
  have a := hS.pred s.fp s.w
  have b := hC.pred s.fp s.w
  dsimp only
  rcases h : E.pred s.fp s.w with ⟨r, w⟩
  rw [h] at a b
  cases r with
  | ok p => exact ⟨h1, h2, a.trans h3, fun h => b.trans (h4 h)⟩
  | error e => exact ⟨h1, h2, a.trans h3, fun h => b.trans (h4 h)⟩

theorem during_addLoss (hS : Saves E k folder files snap) (hC : Calm E k snap) : Inv (During files snap md n F o) (addLoss E) := by
  unfold addLoss
  refine inv_dep (m := fun s => _) fun s0 hs0 => ?_
  refine inv_seq (during_note _) ?_
  split
  · cases s0.fp.pred with
    | none => exact inv_nop
    | some p =>
      rintro s ⟨h1, h2, h3, h4⟩
      have a := hS.loss p s.w
      have b := hC.loss p s.w
      dsimp only
      rcases h : E.loss p s.w with ⟨r, w⟩
      rw [h] at a b
      cases r with
      | ok p => exact ⟨h1, h2, a.trans h3, fun h => b.trans (h4 h)⟩
      | error e => exact ⟨h1, h2, a.trans h3, fun h => b.trans (h4 h)⟩
  · exact inv_nop

theorem during_oneVolume (hS : Saves E k folder files snap) (hC : Calm E k snap) (v : V) : Inv (During files snap md n F o) (oneVolume E c v) := by
  have hcb : ∀ e : Ev, e ≠ .epochEnd → Inv (During files snap md n F o) (cbs E c e) := fun e he => during_cbs hS hC e fun _ => he
  have hca : ∀ a : Act V, a ≠ .step → a ≠ .conform → Inv (During files snap md n F o) (call E a) := fun a h1 h2 => during_call hS hC a fun _ => ⟨h1, h2⟩
  unfold oneVolume scanVolume muBatch
  refine inv_seq (hca _ (by simp) (by simp)) (inv_seq (hcb _ (by simp)) (inv_seq (inv_seq (during_setFp _ fun _ => ⟨rfl, rfl⟩) (inv_seq ?_ (inv_seq
    (hca _ (by simp) (by simp)) (inv_seq (inv_each _ _ fun _ => ?_) (inv_seq (hcb _ (by simp)) (inv_seq (during_getPred hS hC) (inv_seq (hcb _ (by simp))
      (during_addLoss hS hC)))))))) (hcb _ (by simp))))
  · split
    · exact inv_raise _
    · exact inv_nop
  · exact inv_seq (hca _ (by simp) (by simp)) (inv_seq (hcb _ (by simp)) (inv_seq (hca _ (by simp) (by simp)) (inv_seq (hca _ (by simp) (by simp))
      (inv_seq (hcb _ (by simp)) (inv_seq (hca _ (by simp) (by simp)) (hcb _ (by simp)))))))

theorem during_batchEnd (hS : Saves E k folder files snap) (hC : Calm E k snap) : Inv (During files snap md n F o) (batchEnd E c) := by
  have hcb : ∀ e : Ev, e ≠ .epochEnd → Inv (During files snap md n F o) (cbs E c e) := fun e he => during_cbs hS hC e fun _ => he
  unfold batchEnd
  refine inv_seq (during_setFp _ fun _ => ⟨rfl, rfl⟩) (inv_seq (hcb _ (by simp)) (inv_dep (m := fun s => _) fun s hs => ?_))
  split
  · rename_i htr
    have hmd : md ≠ .valid := by
      rw [← hs.1, htr]
      simp
    have hca : ∀ a : Act V, Inv (During files snap md n F o) (call E a) := fun a => during_call hS hC a fun h => absurd h hmd
    unfold update
    refine inv_seq (hca _) (inv_seq (hcb _ (by simp)) (inv_seq (inv_dep (m := fun s => _) fun s hs => ?_) (inv_seq (hcb _ (by simp)) (inv_seq
      (inv_dep (m := fun s => _) fun s hs => ?_) (inv_seq (hcb _ (by simp)) (hca _))))))
    · cases s.fp.meanLoss with
      | none => exact inv_nop
      | some x => exact hca _
    · split
      · exact hca _
      · exact inv_nop
  · exact inv_nop

theorem during_scan (hS : Saves E k folder files snap) (hC : Calm E k snap) (len i : Nat) (vs : List V) :
    Inv (During files snap md n F o) (scanFrom E c len i vs) := by
  induction vs generalizing i with
  | nil => exact inv_nop
  | cons v vs ih =>
    rw [scanFrom]
    refine inv_seq (during_setFp _ fun _ => ⟨rfl, rfl⟩) (inv_seq ?_ (inv_seq (during_oneVolume hS hC v) (inv_dep (m := fun s => _) fun s hs => ?_)))
    · unfold batchBegin
      refine inv_dep (m := fun s => _) fun s hs => ?_
      split
      · exact inv_nop
      · split
        · exact inv_raise _
        · split
          · exact inv_seq (during_setFp _ fun _ => ⟨rfl, rfl⟩) (during_cbs hS hC _ fun _ => by simp)
          · exact inv_nop
    · split
      · refine inv_seq (during_batchEnd hS hC) ?_
        split
        · exact inv_nop
        · exact ih _
      · exact ih _

/-- a validation epoch -/
theorem valid_epoch (hS : Saves E k folder files snap) (hC : Calm E k snap) (ps : Passives V) (s : S W V P) (hm : s.fp.mode = .valid) :
    (runEpoch E c ps s).2.fp.epoch = s.fp.epoch ∧ files (runEpoch E c ps s).2.w = files s.w ∧ snap (runEpoch E c ps s).2.w = snap s.w := by
  have h : Inv (During files snap .valid s.fp.epoch (files s.w) (snap s.w)) (runEpoch E c ps) :=
    inv_seq (during_cbs hS hC _ fun h => by simp at h) (inv_seq (during_scan hS hC _ _ _) (during_cbs hS hC _ fun h => by simp at h))
  obtain ⟨-, h2, h3, h4⟩ := h s ⟨hm, rfl, rfl, fun _ => rfl⟩
  exact ⟨h2, h3, h4 rfl⟩

/-- `on_epoch_end` of callbacks in a training epoch -/
theorem saves_cbs (hS : Saves E k folder files snap) (hC : Calm E k snap) (l : List Nat) (hl : l.Pairwise (· < ·)) (s : S W V P) (hm : s.fp.mode = .train)
    (s' : S W V P) (r : Except Err Unit) (h : each l (fun i => callCb E i .epochEnd) s = (r, s')) :
    s'.fp.mode = .train ∧ s'.fp.epoch = s.fp.epoch ∧ (∀ q, q ≠ path folder s.fp.epoch → files s'.w q = files s.w q) ∧
      ((∀ i ∈ l, k < i) → snap s'.w = snap s.w ∧ files s'.w = files s.w) ∧
      (r = .ok () → k ∈ l → files s'.w (path folder s.fp.epoch) = some (snap s'.w)) := by
  induction l generalizing s with
  | nil =>
    cases h
    exact ⟨hm, rfl, fun _ _ => rfl, fun _ => ⟨rfl, rfl⟩, fun _ h => by simp at h⟩
  | cons i l ih =>
    rw [List.pairwise_cons] at hl
    rw [each] at h
    -- the first callback
    obtain ⟨r1, s1, h1⟩ : ∃ r1 s1, callCb E i .epochEnd s = (r1, s1) := ⟨_, _, rfl⟩
    have h1' := h1
    unfold callCb seq note at h1'
    simp only [Prod.mk.injEq] at h1'
    obtain ⟨hr, hs1⟩ := h1'
    have w1 : s1.w = (E.cb i .epochEnd s.fp s.w).2.2 := by rw [← hs1]
    have m1 : s1.fp.mode = .train := by rw [← hs1]; exact hm
    have n1 : s1.fp.epoch = s.fp.epoch := by rw [← hs1]
    have f1 : ∀ q, q ≠ path folder s.fp.epoch → files s1.w q = files s.w q := by
      intro q hq
      rw [w1]
      by_cases hi : i = k
      · subst hi
        exact hS.fails _ _ _ _ fun _ _ => hq
      · rw [hS.other i _ _ _ hi]
    have c1 : k < i → snap s1.w = snap s.w ∧ files s1.w = files s.w := by
      intro hi
      rw [w1]
      exact ⟨hC.cb i _ _ _ (.inr (.inr ⟨rfl, hi⟩)), hS.other i _ _ _ (by omega)⟩
    rw [seq, h1] at h
    cases r1 with
    | error e =>
      simp only [Prod.mk.injEq] at h
      obtain ⟨rfl, rfl⟩ := h
      exact ⟨m1, n1, f1, fun hk => c1 (hk i (by simp)), fun h => by simp at h⟩
    | ok u =>
      obtain ⟨a1, a2, a3, a4, a5⟩ := ih hl.2 s1 m1 h
      refine ⟨a1, a2.trans n1, ?_, ?_, ?_⟩
      · intro q hq
        rw [a3 q (by rw [n1]; exact hq), f1 q hq]
      · intro hk
        obtain ⟨b1, b2⟩ := a4 fun j hj => hk j (by simp [hj])
        obtain ⟨d1, d2⟩ := c1 (hk i (by simp))
        exact ⟨b1.trans d1, b2.trans d2⟩
      · intro hok hk
        rw [List.mem_cons] at hk
        by_cases hi : k = i
        · subst hi
          obtain ⟨b1, b2⟩ := a4 hl.1
          rw [b1, b2, w1, hS.self _ _ _ hr, hS.keeps]
          have : (viewOf s.fp).mode = .train := hm
          simp only [act, this, if_true, write]
          exact if_pos rfl
        · rw [← n1]
          exact a5 hok (hk.resolve_left hi)

theorem seq_cases (m q : Prog W V P) (s s' : S W V P) (r : Except Err Unit) (h : (m ;; q) s = (r, s')) :
    (∃ e, m s = (.error e, s') ∧ r = .error e) ∨ ∃ s1, m s = (.ok (), s1) ∧ q s1 = (r, s') := by
  unfold seq at h
  rcases hm : m s with ⟨r1, s1⟩
  rw [hm] at h
  cases r1 with
  | ok u => exact .inr ⟨s1, rfl, h⟩
  | error e =>
    simp only [Prod.mk.injEq] at h
    exact .inl ⟨e, by rw [h.2], h.1.symm⟩

/-- one epoch -/
theorem fitEpoch_files (hS : Saves E k folder files snap) (hC : Calm E k snap) (hk : k < c.nCb) (trn : Passives V) (val : Option (Passives V)) (s s' : S W V P)
    (r : Except Err Unit) (h : fitEpoch E c trn val s = (r, s')) :
    (∀ q, q ≠ path folder (s.fp.epoch + 1) → files s'.w q = files s.w q) ∧
      (r = .ok () → s'.fp.epoch = s.fp.epoch + 1 ∧ files s'.w (path folder (s.fp.epoch + 1)) = some (snap s'.w)) := by
  unfold fitEpoch at h
  -- up to the training epoch
  rcases seq_cases _ _ _ _ _ h with ⟨e, h1, -⟩ | ⟨s1, h1, h⟩
  · cases h1
  have e1 : s1.fp.epoch = s.fp.epoch + 1 ∧ s1.w = s.w := by cases h1; exact ⟨rfl, rfl⟩
  obtain ⟨e1, w1⟩ := e1
  clear h1
  have hcall : ∀ (a : Act V) (s2 : S W V P), (call E a s2).2.fp = s2.fp ∧ files (call E a s2).2.w = files s2.w := fun a s2 => ⟨rfl, hS.prim _ _ _⟩
  rcases seq_cases _ _ _ _ _ h with ⟨e, h2, rfl⟩ | ⟨s2, h2, h⟩
  · obtain ⟨a, b⟩ := hcall (.volMode true) s1
    rw [h2] at a b
    refine ⟨fun q _ => ?_, fun h => by simp at h⟩
    rw [b, w1]
  obtain ⟨e2, w2⟩ := hcall (.volMode true) s1
  rw [h2] at e2 w2
  simp only at e2 w2
  clear h2
  rcases seq_cases _ _ _ _ _ h with ⟨e, h3, -⟩ | ⟨s3, h3, h⟩
  · cases h3
  have hs3 : s3.fp.epoch = s2.fp.epoch ∧ s3.w = s2.w ∧ s3.fp.mode = .train := by cases h3; exact ⟨rfl, rfl, rfl⟩
  obtain ⟨e3, w3, m3⟩ := hs3
  clear h3
  have E3 : s3.fp.epoch = s.fp.epoch + 1 := by rw [e3, e2, e1]
  have W3 : files s3.w = files s.w := by rw [w3, w2, w1]
  -- the training epoch
  have hrun : ∀ r4 s4, runEpoch E c trn s3 = (r4, s4) → (∀ q, q ≠ path folder (s.fp.epoch + 1) → files s4.w q = files s.w q) ∧
      (r4 = .ok () → s4.fp.epoch = s.fp.epoch + 1 ∧ files s4.w (path folder (s.fp.epoch + 1)) = some (snap s4.w)) := by
    intro r4 s4 h4
    have i1 : Inv (During files snap .train s3.fp.epoch (files s3.w) (snap s3.w)) (cbs E c .epochBegin) := during_cbs hS hC _ fun _ => by simp
    have i2 : Inv (During files snap .train s3.fp.epoch (files s3.w) (snap s3.w)) (scanVolumes E c trn) := during_scan hS hC _ _ _
    have d3 : During files snap .train s3.fp.epoch (files s3.w) (snap s3.w) s3 := ⟨m3, rfl, rfl, fun h => by simp at h⟩
    unfold runEpoch at h4
    rcases seq_cases _ _ _ _ _ h4 with ⟨e, h5, rfl⟩ | ⟨s5, h5, h4⟩
    · have := i1 s3 d3
      rw [h5] at this
      refine ⟨fun q _ => ?_, fun h => by simp at h⟩
      rw [this.2.2.1, W3]
    have d5 := i1 s3 d3
    rw [h5] at d5
    rcases seq_cases _ _ _ _ _ h4 with ⟨e, h6, rfl⟩ | ⟨s6, h6, h4⟩
    · have := i2 s5 d5
      rw [h6] at this
      refine ⟨fun q _ => ?_, fun h => by simp at h⟩
      rw [this.2.2.1, W3]
    have d6 := i2 s5 d5
    rw [h6] at d6
    obtain ⟨m6, n6, f6, -⟩ := d6
    obtain ⟨-, b2, b3, -, b5⟩ := saves_cbs hS hC (List.range c.nCb) (List.pairwise_lt_range) s6 m6 s4 r4 h4
    have E6 : s6.fp.epoch = s.fp.epoch + 1 := n6.trans E3
    rw [E6] at b2 b3 b5
    have F6 : files s6.w = files s.w := f6.trans W3
    rw [F6] at b3
    exact ⟨b3, fun hr => ⟨b2, b5 hr (by simpa using hk)⟩⟩
  rcases seq_cases _ _ _ _ _ h with ⟨e, h4, rfl⟩ | ⟨s4, h4, h⟩
  · exact ⟨(hrun _ _ h4).1, fun h => by simp at h⟩
  obtain ⟨g1, g2⟩ := hrun _ _ h4
  obtain ⟨g2, g3⟩ := g2 rfl
  clear h4 hrun
  cases val with
  | none =>
    cases h
    exact ⟨g1, fun _ => ⟨g2, g3⟩⟩
  | some val =>
    simp only at h
    have key : s'.fp.epoch = s4.fp.epoch ∧ files s'.w = files s4.w ∧ snap s'.w = snap s4.w := by
      have hc5 : (call E (.volMode false) s4).2.fp = s4.fp ∧ files (call E (.volMode false) s4).2.w = files s4.w ∧ snap (call E (.volMode false) s4).2.w = snap s4.w :=
        ⟨rfl, hS.prim _ _ _, hC.prim _ _ _ (by simp) (by simp)⟩
      rcases seq_cases _ _ _ _ _ h with ⟨e, h5, -⟩ | ⟨s5, h5, h⟩
      · rw [h5] at hc5
        exact ⟨by rw [hc5.1], hc5.2⟩
      rw [h5] at hc5
      rcases seq_cases _ _ _ _ _ h with ⟨e, h6, -⟩ | ⟨s6, h6, h⟩
      · cases h6
      have hs6 : s6.fp.epoch = s5.fp.epoch ∧ s6.w = s5.w ∧ s6.fp.mode = .valid := by cases h6; exact ⟨rfl, rfl, rfl⟩
      obtain ⟨e6, w6, m6⟩ := hs6
      have := valid_epoch (c := c) hS hC val s6 m6
      rw [h] at this
      simp only at this hc5
      rw [e6, w6, hc5.1, hc5.2.1, hc5.2.2] at this
      exact this
    obtain ⟨k1, k2, k3⟩ := key
    rw [k1, k2, k3]
    exact ⟨g1, fun _ => ⟨g2, g3⟩⟩

end EpochSave

end

end Tomopt
