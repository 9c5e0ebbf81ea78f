import Verif.Lemmas.Wrapper

/- What a callback can have seen during a fit is determined by the log: its state is the result of replaying the log. -/
namespace Tomopt

noncomputable section

namespace Fit

variable {W V P σ : Type}

/-- Callback number `k` of environment `E` keeps its state in the part `lg` of the world: its interjections, if they do not raise, act on it by `f`, and nobody
else touches it. -/
structure Watches (E : Env W V P) (k : Nat) (lg : W → σ) (f : Ev → View → σ → σ) : Prop where
  self : ∀ e fp w, (E.cb k e fp w).1 = .ok () → lg (E.cb k e fp w).2.2 = f e (viewOf fp) (lg w)
  other : ∀ i e fp w, i ≠ k → lg (E.cb i e fp w).2.2 = lg w
  prim : ∀ a fp w, lg (E.prim a fp w).2 = lg w
  pred : ∀ fp w, lg (E.pred fp w).2 = lg w
  loss : ∀ p w, lg (E.loss p w).2 = lg w

/-- what the loops write before they call `e` -/
def pre (bs : Nat) (e : Ev) (v : View) : View :=
  match e with
  | .volBatchBegin => { v with lossVal := none }
  | .volBatchEnd => { v with meanLoss := v.lossVal.map (· / bs) }
  | _ => v

theorem pre_pre (bs : Nat) (e : Ev) (v : View) : pre bs e (pre bs e v) = pre bs e v := by
  cases e <;> rfl

/-- Replay one entry of the log. -/
def feed (bs k : Nat) (f : Ev → View → σ → σ) (r : View × σ) : Act V → View × σ
  | .cb i e => (pre bs e r.1, if i = k then f e (pre bs e r.1) r.2 else r.2)
  | .volMode true => ({ r.1 with mode := .train, epoch := r.1.epoch + 1 }, r.2)
  | .volMode false => ({ r.1 with mode := .valid }, r.2)
  | .loss x => ({ r.1 with lossVal := some (match r.1.lossVal with
      | none => x
      | some y => y + x) }, r.2)
  | _ => r

variable {E : Env W V P} {k : Nat} {lg : W → σ} {f : Ev → View → σ → σ}

/-- The replay follows the program. -/
def Sim (bs k : Nat) (lg : W → σ) (f : Ev → View → σ → σ) (m : Prog W V P) : Prop :=
  ∀ s s', m s = (.ok (), s') → ∃ t, s'.log = s.log ++ t ∧ t.foldl (feed bs k f) (viewOf s.fp, lg s.w) = (viewOf s'.fp, lg s'.w)

theorem seq_ok {m n : Prog W V P} {s s' : S W V P} (h : (m ;; n) s = (.ok (), s')) : ∃ s1, m s = (.ok (), s1) ∧ n s1 = (.ok (), s') := by
  unfold seq at h
  rcases hm : m s with ⟨r, s1⟩
  rw [hm] at h
  cases r with
  | ok u => exact ⟨s1, rfl, h⟩
  | error e => simp at h

theorem seq_assoc (a b d : Prog W V P) : ((a ;; b) ;; d) = (a ;; (b ;; d)) := by
  funext s
  unfold seq
  rcases a s with ⟨r, s1⟩
  cases r <;> rfl

theorem sim_seq {bs : Nat} {m n : Prog W V P} (h1 : Sim bs k lg f m) (h2 : Sim bs k lg f n) : Sim bs k lg f (m ;; n) := by
  intro s s' h
  obtain ⟨s1, e1, e2⟩ := seq_ok h
  obtain ⟨t1, a1, b1⟩ := h1 _ _ e1
  obtain ⟨t2, a2, b2⟩ := h2 _ _ e2
  exact ⟨t1 ++ t2, by rw [a2, a1, List.append_assoc], by rw [List.foldl_append, b1, b2]⟩

theorem sim_nop {bs : Nat} : Sim bs k lg f (nop : Prog W V P) := by
  intro s s' h
  cases h
  exact ⟨[], by simp, rfl⟩

theorem sim_raise {bs : Nat} (e : Err) : Sim bs k lg f (raise e : Prog W V P) := by
  intro s s' h
  cases h

theorem sim_setFp {bs : Nat} (g : FP P → FP P) (hg : ∀ x, viewOf (g x) = viewOf x) : Sim bs k lg f (setFp g : Prog W V P) := by
  intro s s' h
  cases h
  exact ⟨[], by simp, by simp [hg]⟩

theorem sim_each {bs : Nat} {α : Type} (l : List α) (g : α → Prog W V P) (h : ∀ a, Sim bs k lg f (g a)) : Sim bs k lg f (each l g) := by
  induction l with
  | nil => exact sim_nop
  | cons a l ih => exact sim_seq (h a) ih

theorem sim_ite {bs : Nat} {p : S W V P → Prop} [DecidablePred p] {m n : Prog W V P} (h1 : Sim bs k lg f m) (h2 : Sim bs k lg f n) :
    Sim bs k lg f fun s => (if p s then m else n) s := by
  intro s s' h
  by_cases hp : p s
  · simp only [if_pos hp] at h; exact h1 _ _ h
  · simp only [if_neg hp] at h; exact h2 _ _ h

/-- acts without effect on the view -/
def Quiet (a : Act V) : Prop := ∀ (bs k : Nat) (σ : Type) (f : Ev → View → σ → σ) r, feed bs k f r a = r

theorem sim_call {bs : Nat} (hW : Watches E k lg f) (a : Act V) (ha : Quiet a) : Sim bs k lg f (call E a) := by
  intro s s' h
  unfold call seq note at h
  simp only [Prod.mk.injEq] at h
  obtain ⟨h1, h2⟩ := h
  subst h2
  exact ⟨[a], rfl, by simp [ha bs k σ f, hW.prim]⟩

theorem cbs_ok {bs : Nat} (hW : Watches E k lg f) (e : Ev) (l : List Nat) (s s' : S W V P) (h : each l (fun i => callCb E i e) s = (.ok (), s'))
    (v : View) (hv : pre bs e v = viewOf s.fp) :
    ∃ t, s'.log = s.log ++ t ∧ viewOf s'.fp = viewOf s.fp ∧ t.foldl (feed bs k f) (v, lg s.w) = (if l = [] then v else viewOf s'.fp, lg s'.w) := by
  induction l generalizing s v with
  | nil =>
    cases h
    exact ⟨[], by simp, rfl, by simp⟩
  | cons i l ih =>
    rw [each] at h
    obtain ⟨s1, h1, h2⟩ := seq_ok h
    unfold callCb seq note at h1
    simp only [Prod.mk.injEq] at h1
    obtain ⟨h1, h3⟩ := h1
    have hv1 : viewOf s1.fp = viewOf s.fp := by rw [← h3]; rfl
    obtain ⟨t, a1, a2, a3⟩ := ih s1 h2 (viewOf s.fp) (by rw [hv1, ← hv, pre_pre])
    have hlog : s1.log = s.log ++ [.cb i e] := by rw [← h3]
    refine ⟨.cb i e :: t, by rw [a1, hlog, List.append_assoc]; rfl, by rw [a2, hv1], ?_⟩
    rw [List.foldl_cons]
    have hf : feed bs k f (v, lg s.w) (.cb i e : Act V) = (viewOf s.fp, lg s1.w) := by
      unfold feed
      simp only [hv]
      congr 1
      have hw : s1.w = (E.cb i e s.fp s.w).2.2 := by rw [← h3]
      rw [hw]
      split
      · rename_i hik
        subst hik
        exact (hW.self e _ _ h1).symm
      · rename_i hik
        exact (hW.other i e _ _ hik).symm
    rw [hf, a3]
    congr 1
    rw [if_neg (List.cons_ne_nil _ _)]
    split
    · rw [a2, hv1]
    · rfl

theorem sim_setCbs {c : Conf} (hW : Watches E k lg f) (hk : k < c.nCb) (e : Ev) (g : FP P → FP P) (hg : ∀ x, viewOf (g x) = pre c.bs e (viewOf x)) :
    Sim c.bs k lg f (setFp g ;; cbs E c e) := by
  intro s s' h
  obtain ⟨s1, h1, h2⟩ := seq_ok h
  cases h1
  have hne : List.range c.nCb ≠ [] := by simp; omega
  obtain ⟨t, a1, a2, a3⟩ := cbs_ok (bs := c.bs) hW e (List.range c.nCb) _ s' h2 (viewOf s.fp) (hg _).symm
  exact ⟨t, a1, by rw [a3, if_neg hne]⟩

theorem sim_cbs {c : Conf} (hW : Watches E k lg f) (hk : k < c.nCb) (e : Ev) (he : ∀ v, pre c.bs e v = v) : Sim c.bs k lg f (cbs E c e) := by
  intro s s' h
  exact sim_setCbs hW hk e id (fun x => (he _).symm) s s' h

theorem sim_getPred {bs : Nat} (hW : Watches E k lg f) : Sim bs k lg f (getPred E) := by
  intro s s' h
  unfold getPred seq note at h
  simp only at h
  rcases hp : E.pred s.fp s.w with ⟨r, w⟩
  have := hW.pred s.fp s.w
  rw [hp] at this h
  cases r with
  | error e => simp at h
  | ok p =>
    simp only [Prod.mk.injEq, true_and] at h
    subst h
    exact ⟨[.predict], rfl, by simp only [List.foldl_cons, List.foldl_nil, feed]; rw [← this]; rfl⟩

theorem sim_addLoss {bs : Nat} (hW : Watches E k lg f) : Sim bs k lg f (addLoss E) := by
  intro s s' h
  unfold addLoss seq note at h
  simp only at h
  split at h
  · cases hp : s.fp.pred with
    | none =>
      rw [hp] at h
      simp only [nop, Prod.mk.injEq, true_and] at h
      subst h
      exact ⟨[.havePred false], rfl, rfl⟩
    | some p =>
      rw [hp] at h
      simp only at h
      rcases hl : E.loss p s.w with ⟨r, w⟩
      have := hW.loss p s.w
      rw [hl] at this h
      cases r with
      | error e => simp at h
      | ok x =>
        simp only [Prod.mk.injEq, true_and] at h
        subst h
        refine ⟨[.havePred true, .loss x], by simp, ?_⟩
        simp only [List.foldl_cons, List.foldl_nil, feed]
        rw [← this]
        rfl
  · simp only [nop, Prod.mk.injEq, true_and] at h
    subst h
    exact ⟨[.havePred s.fp.pred.isSome], rfl, rfl⟩

theorem sim_volume {c : Conf} (hW : Watches E k lg f) (hk : k < c.nCb) (v : V) : Sim c.bs k lg f (oneVolume E c v) := by
  have q : ∀ a : Act V, Quiet a → Sim c.bs k lg f (call E a) := fun a => sim_call hW a
  have cb : ∀ e, (∀ v, pre c.bs e v = v) → Sim c.bs k lg f (cbs E c e) := fun e => sim_cbs hW hk e
  refine sim_seq (q _ fun _ _ _ _ _ => rfl) (sim_seq (cb _ fun _ => rfl) (sim_seq ?_ (cb _ fun _ => rfl)))
  refine sim_seq (sim_setFp _ fun _ => rfl) (sim_seq ?_ (sim_seq (q _ fun _ _ _ _ _ => rfl) (sim_seq (sim_each _ _ fun _ => ?_) (sim_seq (cb _ fun _ => rfl)
    (sim_seq (sim_getPred hW) (sim_seq (cb _ fun _ => rfl) (sim_addLoss hW)))))))
  · split
    · exact sim_raise _
    · exact sim_nop
  · exact sim_seq (q _ fun _ _ _ _ _ => rfl) (sim_seq (cb _ fun _ => rfl) (sim_seq (q _ fun _ _ _ _ _ => rfl) (sim_seq (q _ fun _ _ _ _ _ => rfl)
      (sim_seq (cb _ fun _ => rfl) (sim_seq (q _ fun _ _ _ _ _ => rfl) (cb _ fun _ => rfl))))))

theorem sim_update {c : Conf} (hW : Watches E k lg f) (hk : k < c.nCb) : Sim c.bs k lg f (update E c) := by
  have q : ∀ a : Act V, Quiet a → Sim c.bs k lg f (call E a) := fun a => sim_call hW a
  have cb : ∀ e, (∀ v, pre c.bs e v = v) → Sim c.bs k lg f (cbs E c e) := fun e => sim_cbs hW hk e
  refine sim_seq (q _ fun _ _ _ _ _ => rfl) (sim_seq (cb _ fun _ => rfl) (sim_seq ?_ (sim_seq (cb _ fun _ => rfl) (sim_seq ?_ (sim_seq (cb _ fun _ => rfl)
    (q _ fun _ _ _ _ _ => rfl))))))
  · intro s s' h
    cases hm : s.fp.meanLoss with
    | none => simp only [hm] at h; exact sim_nop _ _ h
    | some x => simp only [hm] at h; exact q _ (fun _ _ _ _ _ => rfl) _ _ h
  · exact sim_ite (q _ fun _ _ _ _ _ => rfl) sim_nop

theorem sim_batchEnd {c : Conf} (hW : Watches E k lg f) (hk : k < c.nCb) : Sim c.bs k lg f (batchEnd E c) := by
  unfold batchEnd setMean
  rw [← seq_assoc]
  exact sim_seq (sim_setCbs hW hk _ _ fun _ => rfl) (sim_ite (sim_update hW hk) sim_nop)

theorem sim_scan {c : Conf} (hW : Watches E k lg f) (hk : k < c.nCb) (len i : Nat) (vs : List V) : Sim c.bs k lg f (scanFrom E c len i vs) := by
  induction vs generalizing i with
  | nil => exact sim_nop
  | cons v vs ih =>
    unfold scanFrom
    refine sim_seq (sim_setFp _ fun _ => rfl) (sim_seq ?_ (sim_seq (sim_volume hW hk v) (sim_ite (sim_seq (sim_batchEnd hW hk) ?_) (ih _))))
    · unfold batchBegin
      refine sim_ite sim_nop ?_
      split
      · exact sim_raise _
      · split
        · exact sim_setCbs hW hk _ _ fun _ => rfl
        · exact sim_nop
    · split
      · exact sim_nop
      · exact ih _

theorem sim_runEpoch {c : Conf} (hW : Watches E k lg f) (hk : k < c.nCb) (ps : Passives V) : Sim c.bs k lg f (runEpoch E c ps) :=
  sim_seq (sim_cbs hW hk _ fun _ => rfl) (sim_seq (sim_scan hW hk _ _ _) (sim_cbs hW hk _ fun _ => rfl))

theorem sim_fitEpoch {c : Conf} (hW : Watches E k lg f) (hk : k < c.nCb) (trn : Passives V) (val : Option (Passives V)) :
    Sim c.bs k lg f (fitEpoch E c trn val) := by
  have step : ∀ (g : FP P → FP P) (b : Bool) (m : Mode), (∀ (s : FP P) (x : σ),
      (viewOf { g s with mode := m }, x) = feed c.bs k f (viewOf s, x) (.volMode b : Act V)) →
      Sim c.bs k lg f (setFp g ;; (call E (.volMode b) ;; setFp fun f => { f with mode := m }) : Prog W V P) := by
    intro g b m hg s s' h
    obtain ⟨s1, h1, h2⟩ := seq_ok h
    obtain ⟨s2, h3, h4⟩ := seq_ok h2
    cases h1
    unfold call seq note at h3
    simp only [Prod.mk.injEq] at h3
    obtain ⟨h3, h5⟩ := h3
    subst h5
    cases h4
    exact ⟨[.volMode b], rfl, by rw [List.foldl_cons, List.foldl_nil, ← hg]; simp only [hW.prim]⟩
  unfold fitEpoch
  rw [← seq_assoc (call E (.volMode true)), ← seq_assoc (setFp _)]
  refine sim_seq (step _ _ _ fun _ _ => rfl) (sim_seq (sim_runEpoch hW hk trn) ?_)
  cases val with
  | none => exact sim_nop
  | some val =>
    simp only
    rw [← seq_assoc (call E (.volMode false))]
    refine sim_seq ?_ (sim_runEpoch hW hk val)
    exact step id false .valid fun _ _ => rfl

theorem sim_epochs {c : Conf} (hW : Watches E k lg f) (hk : k < c.nCb) (trn : Passives V) (val : Option (Passives V)) (n : Nat) :
    Sim c.bs k lg f (epochs E c trn val n) := by
  induction n with
  | zero => exact sim_nop
  | succ n ih => exact sim_seq (sim_fitEpoch hW hk trn val) (sim_ite sim_nop ih)

theorem sim_fitBody {c : Conf} (hW : Watches E k lg f) (hk : k < c.nCb) (n : Nat) (trn : Passives V) (val : Option (Passives V)) :
    Sim c.bs k lg f (fitBody E c n trn val) :=
  sim_seq (sim_cbs hW hk _ fun _ => rfl) (sim_seq (sim_cbs hW hk _ fun _ => rfl) (sim_seq (sim_epochs hW hk trn val n) (sim_cbs hW hk _ fun _ => rfl)))

/-- every callback is called once per event -/
theorem feed_evs {V : Type} (bs : Nat) (f : Ev → View → σ → σ) (n : Nat) (hk : k < n) (e : Ev) (r : View × σ) :
    (Spec.evs n e : List (Act V)).foldl (feed bs k f) r = (pre bs e r.1, f e (pre bs e r.1) r.2) := by
  have key : ∀ (l : List Nat) (r : View × σ), l.Nodup → (l.map fun i => (.cb i e : Act V)).foldl (feed bs k f) r =
      (if l = [] then r.1 else pre bs e r.1, if k ∈ l then f e (pre bs e r.1) r.2 else r.2) := by
    intro l
    induction l with
    | nil => intro r _; simp
    | cons i l ih =>
      intro r hl
      rw [List.map_cons, List.foldl_cons, ih _ (List.nodup_cons.mp hl).2]
      simp only [feed, pre_pre, List.cons_ne_nil, if_false, List.mem_cons]
      congr 1
      · split <;> rfl
      · by_cases hik : i = k
        · subst hik
          rw [if_neg (List.nodup_cons.mp hl).1]
          simp
        · rw [if_neg hik]
          simp [show k ≠ i from fun h => hik h.symm]
  have hne : List.range n ≠ [] := by simp; omega
  unfold Spec.evs
  rw [key _ _ List.nodup_range, if_neg hne, if_pos (List.mem_range.mpr hk)]

end Fit

end

end Tomopt
