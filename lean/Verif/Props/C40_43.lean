import Verif.Lemmas.WrapperFit

/- C40 updates per epoch; C41 order of events; C42 loss of a batch; C43 cleaning up. -/
namespace Tomopt

noncomputable section

open Fit

/-- A world where nothing goes wrong and no volume can be predicted. -/
def quiet (V : Type) : Env Unit V Unit where
  cb := fun _ _ f w => (.ok (), ⟨f.pred, f.stop, f.skip⟩, w)
  prim := fun _ _ w => (.ok (), w)
  pred := fun _ w => (.ok none, w)
  loss := fun _ w => (.ok 0, w)
  hasLoss := true

/-- As `quiet`, but every volume is predicted and the loss is 2. -/
def easy (V : Type) : Env Unit V Unit := { quiet V with pred := fun _ w => (.ok (some ()), w), loss := fun _ w => (.ok 2, w) }

namespace C41

variable {W V P : Type}

/-- **C41, complete runs.** Whatever the callbacks, volume, inferrers, loss and optimisers do, if `fit` ends normally then its calls, in order, are those
documented for some number of epochs up to the number asked for, at least one if any is asked for, each over exactly the given passive volumes. -/
theorem fit_trace {C : Type} (E : Env W V P) (c : Conf) (mkdir : W → Except Err Unit × W) (n : Nat) (trn : Passives V) (val : Option (Passives V))
    (htrn : trn.len = trn.vols.length) (hval : ∀ v, val = some v → v.len = v.vols.length) (o o' : Outer W V P C)
    (h : fit E c mkdir n trn val o = (.ok (), o')) :
    ∃ rs : List (Spec.EpochRec V), rs.length ≤ n ∧ (∀ r ∈ rs, Spec.About trn.vols (val.map (·.vols)) r) ∧
      o'.log = o.log ++ Spec.fit ⟨o.cbList.length, c.nMu / c.muBs, c.bs, E.hasLoss, true⟩ val.isSome rs ∧ (0 < n → rs ≠ []) := by
  unfold Fit.fit at h
  rcases hk : mkdir o.w with ⟨r, w⟩
  rw [hk] at h
  cases r with
  | error e => simp at h
  | ok u =>
    have hb := emits_fitBody E { c with nCb := o.cbList.length } n trn val htrn hval ⟨initFp .train, w, o.log⟩
    unfold Emits at hb
    simp only at h
    generalize fitBody E { c with nCb := o.cbList.length } n trn val ⟨initFp .train, w, o.log⟩ = r at h hb
    obtain ⟨r, s'⟩ := r
    simp only [Prod.mk.injEq] at h
    obtain ⟨rfl, rfl⟩ := h
    obtain ⟨t, h1, rs, h2, h3, h4, -, h5⟩ := hb
    exact ⟨rs, h2, h3, by rw [h1, h4]; rfl, h5⟩

/-- **C41, interrupted runs.** If anything raises, the calls made so far are the beginning of such a sequence. -/
theorem fit_trace_error {C : Type} (E : Env W V P) (c : Conf) (mkdir : W → Except Err Unit × W) (n : Nat) (trn : Passives V) (val : Option (Passives V))
    (htrn : trn.len = trn.vols.length) (hval : ∀ v, val = some v → v.len = v.vols.length) (o o' : Outer W V P C) (e : Err)
    (h : fit E c mkdir n trn val o = (.error e, o')) :
    ∃ (rs : List (Spec.EpochRec V)) (t : List (Act V)), rs.length ≤ n ∧ (∀ r ∈ rs, Spec.About trn.vols (val.map (·.vols)) r) ∧ o'.log = o.log ++ t ∧
      t <+: Spec.fit ⟨o.cbList.length, c.nMu / c.muBs, c.bs, E.hasLoss, true⟩ val.isSome rs := by
  unfold Fit.fit at h
  rcases hk : mkdir o.w with ⟨r, w⟩
  rw [hk] at h
  cases r with
  | error e =>
    simp only [Prod.mk.injEq] at h
    obtain ⟨-, rfl⟩ := h
    exact ⟨[], [], by simp, by simp, by simp, List.nil_prefix⟩
  | ok u =>
    have hb := emits_fitBody E { c with nCb := o.cbList.length } n trn val htrn hval ⟨initFp .train, w, o.log⟩
    unfold Emits at hb
    simp only at h
    generalize fitBody E { c with nCb := o.cbList.length } n trn val ⟨initFp .train, w, o.log⟩ = r at h hb
    obtain ⟨r, s'⟩ := r
    simp only [Prod.mk.injEq] at h
    obtain ⟨rfl, rfl⟩ := h
    obtain ⟨t, full, h1, ⟨rs, h2, h3, rfl⟩, h5⟩ := hb
    exact ⟨rs, t, h2, h3, h1, h5⟩

/-- `predict` goes through all volumes once, in order, with the prediction callback last among the callbacks. -/
theorem predict_trace {C R : Type} (E : Env W V P) (c : Conf) (predCb : C) (getPreds : W → Except Err R) (ps : Passives V) (o : Outer W V P C) :
    ∃ xs t, xs.map (·.1) = ps.vols ∧ (predict E c predCb getPreds ps o).2.log = o.log ++ t ∧
      t <+: Spec.predict ⟨o.cbList.length + 1, c.nMu / c.muBs, c.bs, false, false⟩ xs ∧
      ((∃ r, (predict E c predCb getPreds ps o).1 = .ok r) →
        t = Spec.predict ⟨o.cbList.length + 1, c.nMu / c.muBs, c.bs, false, false⟩ xs) := by
  have hb := emits_predictBody E { c with nCb := (o.cbList ++ [predCb]).length } ps ⟨initFp .test, o.w, o.log⟩ rfl
  unfold Emits at hb
  unfold Fit.predict
  simp only
  generalize predictBody E { c with nCb := (o.cbList ++ [predCb]).length } ps ⟨initFp .test, o.w, o.log⟩ = r at hb
  obtain ⟨r, s'⟩ := r
  have hlen : (o.cbList ++ [predCb]).length = o.cbList.length + 1 := by simp
  cases r with
  | ok u =>
    obtain ⟨t, h1, xs, h2, rfl⟩ := hb
    rw [← hlen]
    exact ⟨xs, _, h2, h1, List.prefix_rfl, fun _ => rfl⟩
  | error e =>
    obtain ⟨t, full, h1, ⟨xs, h2, rfl⟩, h5⟩ := hb
    rw [← hlen]
    exact ⟨xs, t, h2, h1, h5, by rintro ⟨r, hr⟩; simp at hr⟩

/-- no callback asks to stop -/
def NeverStops (E : Env W V P) : Prop := ∀ i e f w, (E.cb i e f w).2.1.stop = f.stop

/-- programs that leave `stop` as it is -/
def Pres (m : Prog W V P) : Prop := ∀ s, (m s).2.fp.stop = s.fp.stop

theorem pres_seq {m k : Prog W V P} (h1 : Pres m) (h2 : Pres k) : Pres (m ;; k) := by
  intro s
  unfold seq
  have := h1 s
  rcases hm : m s with ⟨r, s'⟩
  rw [hm] at this
  cases r with
  | ok u => simp only; rw [h2 s']; exact this
  | error e => exact this

theorem pres_each {α : Type} (l : List α) (f : α → Prog W V P) (h : ∀ a, Pres (f a)) : Pres (each l f) := by
  induction l with
  | nil => exact fun s => rfl
  | cons a l ih => exact pres_seq (h a) ih

theorem pres_cbs {E : Env W V P} (hE : NeverStops E) (c : Conf) (e : Ev) : Pres (cbs E c e) :=
  pres_each _ _ fun i s => hE i e _ _

theorem pres_call (E : Env W V P) (a : Act V) : Pres (call E a) := fun s => rfl

theorem pres_ite {p : S W V P → Prop} [DecidablePred p] {m k : Prog W V P} (h1 : Pres m) (h2 : Pres k) :
    Pres fun s => (if p s then m else k) s := by
  intro s
  by_cases h : p s
  · simp only [if_pos h]; exact h1 s
  · simp only [if_neg h]; exact h2 s

theorem pres_nop : Pres (nop : Prog W V P) := fun _ => rfl

theorem pres_addLoss (E : Env W V P) : Pres (addLoss E) := by
  intro s
  unfold addLoss seq note
  simp only
  split
  · cases s.fp.pred with
    | none => rfl
    | some p =>
      simp only
      rcases E.loss p s.w with ⟨r, w⟩
      cases r <;> rfl
  · rfl

theorem pres_getPred (E : Env W V P) : Pres (getPred E) := by
  intro s
  unfold getPred seq note
  simp only
  rcases E.pred s.fp s.w with ⟨r, w⟩
  cases r <;> rfl

theorem pres_volume {E : Env W V P} (hE : NeverStops E) (c : Conf) (v : V) : Pres (oneVolume E c v) := by
  refine pres_seq (pres_call E _) (pres_seq (pres_cbs hE c _) (pres_seq ?_ (pres_cbs hE c _)))
  refine pres_seq (fun s => rfl) (pres_seq ?_ (pres_seq (pres_call E _) (pres_seq (pres_each _ _ fun _ => ?_) (pres_seq (pres_cbs hE c _)
    (pres_seq (pres_getPred E) (pres_seq (pres_cbs hE c _) (pres_addLoss E)))))))
  · split
    · exact fun s => rfl
    · exact pres_nop
  · exact pres_seq (pres_call E _) (pres_seq (pres_cbs hE c _) (pres_seq (pres_call E _) (pres_seq (pres_call E _) (pres_seq (pres_cbs hE c _)
      (pres_seq (pres_call E _) (pres_cbs hE c _))))))

theorem pres_update {E : Env W V P} (hE : NeverStops E) (c : Conf) : Pres (update E c) := by
  refine pres_seq (pres_call E _) (pres_seq (pres_cbs hE c _) (pres_seq ?_ (pres_seq (pres_cbs hE c _) (pres_seq ?_ (pres_seq (pres_cbs hE c _)
    (pres_call E _))))))
  · intro s
    cases h : s.fp.meanLoss with
    | none => simp only [h]; rfl
    | some x => simp only [h]; exact pres_call E _ s
  · exact pres_ite (pres_call E _) pres_nop

theorem pres_scan {E : Env W V P} (hE : NeverStops E) (c : Conf) (len i : Nat) (vs : List V) : Pres (scanFrom E c len i vs) := by
  induction vs generalizing i with
  | nil => exact pres_nop
  | cons v vs ih =>
    unfold scanFrom
    refine pres_seq (fun s => rfl) (pres_seq ?_ (pres_seq (pres_volume hE c v) (pres_ite ?_ (ih _))))
    · unfold batchBegin
      refine pres_ite pres_nop ?_
      split
      · exact fun s => rfl
      · split
        · exact pres_seq (fun s => rfl) (pres_cbs hE c _)
        · exact pres_nop
    · refine pres_seq (pres_seq (fun s => rfl) (pres_seq (pres_cbs hE c _) (pres_ite (pres_update hE c) pres_nop))) ?_
      split
      · exact pres_nop
      · exact ih _

theorem pres_epochs {E : Env W V P} (hE : NeverStops E) (c : Conf) (trn : Passives V) (val : Option (Passives V)) (n : Nat) :
    Pres (epochs E c trn val n) := by
  have hr : ∀ ps : Passives V, Pres (runEpoch E c ps) := fun ps =>
    pres_seq (pres_cbs hE c _) (pres_seq (pres_scan hE c _ _ _) (pres_cbs hE c _))
  induction n with
  | zero => exact pres_nop
  | succ n ih =>
    unfold epochs
    refine pres_seq (pres_seq (fun s => rfl) (pres_seq (pres_call E _) (pres_seq (fun s => rfl) (pres_seq (hr trn) ?_)))) (pres_ite pres_nop ih)
    cases val with
    | none => exact pres_nop
    | some v => exact pres_seq (pres_call E _) (pres_seq (fun s => rfl) (hr v))

/-- **C41, number of epochs.** Unless a callback asks to stop, a fit that ends normally has gone through all epochs. -/
theorem all_epochs {C : Type} (E : Env W V P) (hE : NeverStops E) (c : Conf) (mkdir : W → Except Err Unit × W) (n : Nat) (trn : Passives V)
    (val : Option (Passives V)) (htrn : trn.len = trn.vols.length) (hval : ∀ v, val = some v → v.len = v.vols.length) (o o' : Outer W V P C)
    (h : fit E c mkdir n trn val o = (.ok (), o')) :
    ∃ rs : List (Spec.EpochRec V), rs.length = n ∧ (∀ r ∈ rs, Spec.About trn.vols (val.map (·.vols)) r) ∧
      o'.log = o.log ++ Spec.fit ⟨o.cbList.length, c.nMu / c.muBs, c.bs, E.hasLoss, true⟩ val.isSome rs := by
  unfold Fit.fit at h
  rcases hk : mkdir o.w with ⟨r, w⟩
  rw [hk] at h
  cases r with
  | error e => simp at h
  | ok u =>
    simp only at h
    generalize hc' : ({ c with nCb := o.cbList.length } : Conf) = c' at h
    have hp1 := pres_cbs hE c' .setWrapper ⟨initFp .train, w, o.log⟩
    have he1 := fixed_cbs E c' .setWrapper ⟨initFp .train, w, o.log⟩
    unfold fitBody at h
    unfold seq at h
    unfold Emits at he1
    rcases h1 : cbs E c' .setWrapper ⟨initFp .train, w, o.log⟩ with ⟨r1, s1⟩
    rw [h1] at h hp1 he1
    cases r1 with
    | error e => simp at h
    | ok u1 =>
      obtain ⟨t1, hl1, rfl, -⟩ := he1
      have hp2 := pres_cbs hE c' .trainBegin s1
      have he2 := fixed_cbs E c' .trainBegin s1
      unfold Emits at he2
      simp only at h
      rcases h2 : cbs E c' .trainBegin s1 with ⟨r2, s2⟩
      rw [h2] at h hp2 he2
      cases r2 with
      | error e => simp at h
      | ok u2 =>
        obtain ⟨t2, hl2, rfl, -⟩ := he2
        have hp3 := pres_epochs hE c' trn val n s2
        have he3 := emits_epochs E c' trn val htrn hval n s2
        unfold Emits at he3
        simp only at h
        rcases h3 : epochs E c' trn val n s2 with ⟨r3, s3⟩
        rw [h3] at h hp3 he3
        cases r3 with
        | error e => simp at h
        | ok u3 =>
          obtain ⟨t3, hl3, rs, hr1, hr2, rfl, -, hr4⟩ := he3
          have he4 := fixed_cbs E c' .trainEnd s3
          unfold Emits at he4
          simp only at h
          rcases h4 : cbs E c' .trainEnd s3 with ⟨r4, s4⟩
          rw [h4] at h he4
          simp only [Prod.mk.injEq] at h
          obtain ⟨rfl, rfl⟩ := h
          obtain ⟨t4, hl4, rfl, -⟩ := he4
          refine ⟨rs, hr4.1 ?_, hr2, ?_⟩
          · rw [hp3, hp2, hp1]; rfl
          · simp only [hl4, hl3, hl2, hl1]
            rw [← hc']
            simp only [Spec.fit, List.append_assoc]
            rfl

/-- nothing that is called raises -/
structure NoRaise (E : Env W V P) : Prop where
  cb : ∀ i e f w, (E.cb i e f w).1 = .ok ()
  prim : ∀ a f w, (E.prim a f w).1 = .ok ()
  pred : ∀ f w, ∃ p, (E.pred f w).1 = .ok p
  loss : ∀ p w, ∃ x, (E.loss p w).1 = .ok x

def Ends (m : Prog W V P) : Prop := ∀ s, (m s).1 = .ok ()

theorem ends_seq {m k : Prog W V P} (h1 : Ends m) (h2 : Ends k) : Ends (m ;; k) := by
  intro s
  unfold seq
  have := h1 s
  rcases hm : m s with ⟨r, s'⟩
  rw [hm] at this
  simp only at this
  subst this
  exact h2 s'

theorem ends_nop : Ends (nop : Prog W V P) := fun _ => rfl

theorem ends_each {α : Type} (l : List α) (f : α → Prog W V P) (h : ∀ a, Ends (f a)) : Ends (each l f) := by
  induction l with
  | nil => exact ends_nop
  | cons a l ih => exact ends_seq (h a) ih

theorem ends_cbs {E : Env W V P} (hE : NoRaise E) (c : Conf) (e : Ev) : Ends (cbs E c e) := ends_each _ _ fun i s => hE.cb i e _ _

theorem ends_call {E : Env W V P} (hE : NoRaise E) (a : Act V) : Ends (call E a) := fun s => hE.prim a _ _

theorem ends_ite {p : S W V P → Prop} [DecidablePred p] {m k : Prog W V P} (h1 : Ends m) (h2 : Ends k) :
    Ends fun s => (if p s then m else k) s := by
  intro s
  by_cases h : p s
  · simp only [if_pos h]; exact h1 s
  · simp only [if_neg h]; exact h2 s

theorem ends_volume {E : Env W V P} (hE : NoRaise E) (c : Conf) (hmu : 0 < c.muBs) (v : V) : Ends (oneVolume E c v) := by
  refine ends_seq (ends_call hE _) (ends_seq (ends_cbs hE c _) (ends_seq ?_ (ends_cbs hE c _)))
  refine ends_seq (fun s => rfl) (ends_seq ?_ (ends_seq (ends_call hE _) (ends_seq (ends_each _ _ fun _ => ?_) (ends_seq (ends_cbs hE c _)
    (ends_seq ?_ (ends_seq (ends_cbs hE c _) ?_))))))
  · rw [if_neg (by omega)]; exact ends_nop
  · exact ends_seq (ends_call hE _) (ends_seq (ends_cbs hE c _) (ends_seq (ends_call hE _) (ends_seq (ends_call hE _) (ends_seq (ends_cbs hE c _)
      (ends_seq (ends_call hE _) (ends_cbs hE c _))))))
  · intro s
    unfold getPred seq note
    simp only
    obtain ⟨p, hp⟩ := hE.pred s.fp s.w
    rcases h : E.pred s.fp s.w with ⟨r, w⟩
    rw [h] at hp
    simp only at hp
    subst hp
    rfl
  · intro s
    unfold addLoss seq note
    simp only
    split
    · cases s.fp.pred with
      | none => rfl
      | some p =>
        simp only
        obtain ⟨x, hx⟩ := hE.loss p s.w
        rcases h : E.loss p s.w with ⟨r, w⟩
        rw [h] at hx
        simp only at hx
        subst hx
        rfl
    · rfl

theorem ends_scan {E : Env W V P} (hE : NoRaise E) (c : Conf) (hmu : 0 < c.muBs) (hb : 0 < c.bs) (len i : Nat) (vs : List V) :
    Ends (scanFrom E c len i vs) := by
  induction vs generalizing i with
  | nil => exact ends_nop
  | cons v vs ih =>
    unfold scanFrom
    refine ends_seq (fun s => rfl) (ends_seq ?_ (ends_seq (ends_volume hE c hmu v) (ends_ite ?_ (ih _))))
    · unfold batchBegin
      refine ends_ite ends_nop ?_
      rw [if_neg (by omega)]
      split
      · exact ends_seq (fun s => rfl) (ends_cbs hE c _)
      · exact ends_nop
    · refine ends_seq (ends_seq (fun s => rfl) (ends_seq (ends_cbs hE c _) (ends_ite ?_ ends_nop))) ?_
      · refine ends_seq (ends_call hE _) (ends_seq (ends_cbs hE c _) (ends_seq ?_ (ends_seq (ends_cbs hE c _) (ends_seq ?_ (ends_seq (ends_cbs hE c _)
          (ends_call hE _))))))
        · intro s
          cases h : s.fp.meanLoss with
          | none => simp only [h]; rfl
          | some x => simp only [h]; exact ends_call hE _ s
        · exact ends_ite (ends_call hE _) ends_nop
      · split
        · exact ends_nop
        · exact ih _

/-- **C41, termination.** With positive batch sizes a fit ends normally as long as nothing it calls raises. -/
theorem fit_ends {C : Type} (E : Env W V P) (hE : NoRaise E) (c : Conf) (hmu : 0 < c.muBs) (hb : 0 < c.bs) (mkdir : W → Except Err Unit × W)
    (hmk : ∀ w, (mkdir w).1 = .ok ()) (n : Nat) (trn : Passives V) (val : Option (Passives V)) (o : Outer W V P C) :
    (fit E c mkdir n trn val o).1 = .ok () := by
  have hr : ∀ (c : Conf) (_ : 0 < c.muBs) (_ : 0 < c.bs) (ps : Passives V), Ends (runEpoch E c ps) := fun c h1 h2 ps =>
    ends_seq (ends_cbs hE c _) (ends_seq (ends_scan hE c h1 h2 _ _ _) (ends_cbs hE c _))
  have he : ∀ (c : Conf) (_ : 0 < c.muBs) (_ : 0 < c.bs) n, Ends (epochs E c trn val n) := by
    intro c h1 h2 n
    induction n with
    | zero => exact ends_nop
    | succ n ih =>
      unfold epochs
      refine ends_seq (ends_seq (fun s => rfl) (ends_seq (ends_call hE _) (ends_seq (fun s => rfl) (ends_seq (hr c h1 h2 trn) ?_)))) (ends_ite ends_nop ih)
      cases val with
      | none => exact ends_nop
      | some v => exact ends_seq (ends_call hE _) (ends_seq (fun s => rfl) (hr c h1 h2 v))
  unfold Fit.fit
  have hw := hmk o.w
  rcases h : mkdir o.w with ⟨r, w⟩
  rw [h] at hw
  simp only at hw
  subst hw
  have hc := he { c with nCb := o.cbList.length } hmu hb n
  have := ends_seq (ends_cbs hE { c with nCb := o.cbList.length } .setWrapper) (ends_seq (ends_cbs hE { c with nCb := o.cbList.length } .trainBegin)
    (ends_seq hc (ends_cbs hE { c with nCb := o.cbList.length } .trainEnd))) ⟨initFp .train, w, o.log⟩
  exact this

theorem quiet_noRaise (V : Type) : NoRaise (quiet V) := ⟨fun _ _ _ _ => rfl, fun _ _ _ => rfl, fun _ _ => ⟨none, rfl⟩, fun _ _ => ⟨0, rfl⟩⟩
theorem easy_noRaise (V : Type) : NoRaise (easy V) := ⟨fun _ _ _ _ => rfl, fun _ _ _ => rfl, fun _ _ => ⟨some (), rfl⟩, fun _ _ => ⟨2, rfl⟩⟩

/-- an easy fit of two epochs with one callback, batches of two, three training volumes and one for validation ends normally and so has the full trace -/
example : ∃ rs : List (Spec.EpochRec Nat), rs.length = 2 ∧ (∀ r ∈ rs, Spec.About [7, 8, 9] (some [6]) r) ∧
    (fit (easy Nat) ⟨0, 2, 10, 5⟩ (fun w => (.ok (), w)) 2 ⟨[7, 8, 9], 3⟩ (some ⟨[6], 1⟩) (⟨none, (), [], ["cb"], true⟩ : Outer Unit Nat Unit String)).2.log =
      Spec.fit ⟨1, 2, 2, true, true⟩ true rs :=
  all_epochs (easy Nat) (fun _ _ _ _ => rfl) ⟨0, 2, 10, 5⟩ _ 2 ⟨[7, 8, 9], 3⟩ (some ⟨[6], 1⟩) rfl (by rintro v hv; cases hv; rfl)
    (⟨none, (), [], ["cb"], true⟩ : Outer Unit Nat Unit String) _
    (Prod.ext (fit_ends (easy Nat) (easy_noRaise Nat) ⟨0, 2, 10, 5⟩ (by decide) (by decide) _ (fun _ => rfl) _ _ _ _) rfl)

example : NeverStops (quiet Nat) := fun _ _ _ _ => rfl

end C41

/-! what can be read off a log -/

/-- volumes loaded -/
def loads {V : Type} (t : List (Act V)) : List V := t.filterMap fun | .load v => some v | _ => none
/-- losses computed -/
def losses {V : Type} (t : List (Act V)) : List ℝ := t.filterMap fun | .loss x => some x | _ => none
/-- values back-propagated -/
def backs {V : Type} (t : List (Act V)) : List ℝ := t.filterMap fun | .backward x => some x | _ => none
/-- update rounds -/
def rounds {V : Type} (t : List (Act V)) : Nat := t.countP fun | .zeroGrad => true | _ => false
/-- optimiser steps -/
def steps {V : Type} (t : List (Act V)) : Nat := t.countP fun | .step => true | _ => false
/-- enforcement of the physical limits of detectors -/
def conforms {V : Type} (t : List (Act V)) : Nat := t.countP fun | .conform => true | _ => false

namespace C40

variable {W V P : Type}

@[simp] theorem loads_append (a b : List (Act V)) : loads (a ++ b) = loads a ++ loads b := by simp [loads]
@[simp] theorem losses_append (a b : List (Act V)) : losses (a ++ b) = losses a ++ losses b := by simp [losses]
@[simp] theorem backs_append (a b : List (Act V)) : backs (a ++ b) = backs a ++ backs b := by simp [backs]
@[simp] theorem rounds_append (a b : List (Act V)) : rounds (a ++ b) = rounds a + rounds b := by simp [rounds]
@[simp] theorem steps_append (a b : List (Act V)) : steps (a ++ b) = steps a + steps b := by simp [steps]
@[simp] theorem conforms_append (a b : List (Act V)) : conforms (a ++ b) = conforms a + conforms b := by simp [conforms]

/-- nothing of interest happens in `t` -/
def Dull (t : List (Act V)) : Prop := loads t = [] ∧ losses t = [] ∧ backs t = [] ∧ rounds t = 0 ∧ steps t = 0 ∧ conforms t = 0

theorem dull_append {a b : List (Act V)} (ha : Dull a) (hb : Dull b) : Dull (a ++ b) := by
  obtain ⟨a1, a2, a3, a4, a5, a6⟩ := ha
  obtain ⟨b1, b2, b3, b4, b5, b6⟩ := hb
  exact ⟨by simp [a1, b1], by simp [a2, b2], by simp [a3, b3], by simp [a4, b4], by simp [a5, b5], by simp [a6, b6]⟩

theorem dull_evs (n : Nat) (e : Ev) : Dull (Spec.evs n e : List (Act V)) := by
  refine ⟨?_, ?_, ?_, ?_, ?_, ?_⟩ <;> simp [Spec.evs, loads, losses, backs, rounds, steps, conforms]

theorem dull_nil : Dull ([] : List (Act V)) := ⟨rfl, rfl, rfl, rfl, rfl, rfl⟩

theorem dull_mu (n : Nat) : Dull (Spec.mu n : List (Act V)) := by
  unfold Spec.mu
  refine dull_append (dull_append (dull_append (dull_append (dull_append ?_ (dull_evs n _)) ?_) (dull_evs n _)) ?_) (dull_evs n _) <;>
  exact ⟨rfl, rfl, rfl, rfl, rfl, rfl⟩

theorem dull_replicate {t : List (Act V)} (h : Dull t) (k : Nat) : Dull (List.replicate k t).flatten := by
  induction k with
  | zero => exact dull_nil
  | succ k ih => rw [List.replicate_succ, List.flatten_cons]; exact dull_append h ih

/-- what one volume leaves in the log -/
theorem vol_facts (p : Spec.Scan) (x : V × Spec.Out) : loads (Spec.vol p x) = [x.1] ∧ losses (Spec.vol p x) = (Spec.lossOf p.counted x.2).toList ∧
    backs (Spec.vol p x) = [] ∧ rounds (Spec.vol p x) = 0 ∧ steps (Spec.vol p x) = 0 ∧ conforms (Spec.vol p x) = 0 := by
  have h0 : Dull ([.newInferrer] ++ (List.replicate p.k (Spec.mu p.n)).flatten ++ Spec.evs p.n .x0PredBegin ++ [.predict] ++ Spec.evs p.n .x0PredEnd ++
      [.havePred x.2.pred] : List (Act V)) := by
    refine dull_append (dull_append (dull_append (dull_append (dull_append ?_ (dull_replicate (dull_mu _) _)) (dull_evs _ _)) ?_) (dull_evs _ _)) ?_ <;>
    exact ⟨rfl, rfl, rfl, rfl, rfl, rfl⟩
  have hv : Spec.vol p x = [.load x.1] ++ Spec.evs p.n .volBegin ++ ([.newInferrer] ++ (List.replicate p.k (Spec.mu p.n)).flatten ++
      Spec.evs p.n .x0PredBegin ++ [.predict] ++ Spec.evs p.n .x0PredEnd ++ [.havePred x.2.pred]) ++ (Spec.lossOf p.counted x.2).toList.map .loss ++
        Spec.evs p.n .volEnd := by simp only [Spec.vol, List.append_assoc]
  rw [hv]
  generalize ([.newInferrer] ++ (List.replicate p.k (Spec.mu p.n)).flatten ++ Spec.evs p.n .x0PredBegin ++ [.predict] ++ Spec.evs p.n .x0PredEnd ++
      [.havePred x.2.pred] : List (Act V)) = m at h0
  obtain ⟨m1, m2, m3, m4, m5, m6⟩ := h0
  obtain ⟨a1, a2, a3, a4, a5, a6⟩ := dull_evs (V := V) p.n .volBegin
  obtain ⟨b1, b2, b3, b4, b5, b6⟩ := dull_evs (V := V) p.n .volEnd
  simp only [loads_append, losses_append, backs_append, rounds_append, steps_append, conforms_append, m1, m2, m3, m4, m5, m6, a1, a2, a3, a4, a5, a6,
    b1, b2, b3, b4, b5, b6]
  cases Spec.lossOf p.counted x.2 <;> simp [loads, losses, backs, rounds, steps, conforms]

theorem vols_facts (p : Spec.Scan) (xs : List (V × Spec.Out)) : loads (xs.flatMap (Spec.vol p)) = xs.map (·.1) ∧
    losses (xs.flatMap (Spec.vol p)) = (xs.map fun x => Spec.lossOf p.counted x.2).filterMap id ∧
    backs (xs.flatMap (Spec.vol p)) = [] ∧ rounds (xs.flatMap (Spec.vol p)) = 0 ∧ steps (xs.flatMap (Spec.vol p)) = 0 ∧
    conforms (xs.flatMap (Spec.vol p)) = 0 := by
  induction xs with
  | nil => exact ⟨rfl, rfl, rfl, rfl, rfl, rfl⟩
  | cons x xs ih =>
    obtain ⟨a1, a2, a3, a4, a5, a6⟩ := ih
    obtain ⟨b1, b2, b3, b4, b5, b6⟩ := vol_facts p x
    simp only [List.flatMap_cons, loads_append, losses_append, backs_append, rounds_append, steps_append, conforms_append, a1, a2, a3, a4, a5, a6,
      b1, b2, b3, b4, b5, b6]
    cases h : Spec.lossOf p.counted x.2 <;> simp [h]

/-- One update round over the volumes `vs`: it loads exactly them, back-propagates the sum of the losses computed, divided by `b`, or nothing if there was
none, and takes at most one optimiser step, none without a loss. -/
structure Round (b : Nat) (vs : List V) (t : List (Act V)) : Prop where
  loads : loads t = vs
  rounds : rounds t = 1
  conforms : conforms t = 1
  backs : backs t = if losses t = [] then [] else [(losses t).sum / b]
  steps : steps t ≤ if losses t = [] then 0 else 1

theorem batch_round (p : Spec.Scan) (hp : p.train = true) (xs : List (V × Spec.Out)) (sk : Bool) : Round p.b (xs.map (·.1)) (Spec.batch p xs sk) := by
  obtain ⟨a1, a2, a3, a4, a5, a6⟩ := vols_facts p xs
  obtain ⟨b1, b2, b3, b4, b5, b6⟩ := dull_evs (V := V) p.n .volBatchBegin
  obtain ⟨c1, c2, c3, c4, c5, c6⟩ := dull_evs (V := V) p.n .volBatchEnd
  obtain ⟨d1, d2, d3, d4, d5, d6⟩ := dull_evs (V := V) p.n .backBegin
  obtain ⟨e1, e2, e3, e4, e5, e6⟩ := dull_evs (V := V) p.n .backEnd
  obtain ⟨f1, f2, f3, f4, f5, f6⟩ := dull_evs (V := V) p.n .stepEnd
  have hl : losses (Spec.batch p xs sk) = (xs.map fun x => Spec.lossOf p.counted x.2).filterMap id := by
    simp only [Spec.batch, hp, if_true, Spec.update, losses_append, a2, b2, c2, d2, e2, f2]
    cases Spec.batchLoss p.b (xs.map fun x => Spec.lossOf p.counted x.2) <;> (simp [losses]; try split <;> simp)
  have hnone : losses (Spec.batch p xs sk) = [] ↔ ∀ l ∈ xs.map (fun x => Spec.lossOf p.counted x.2), l = none := by
    rw [hl, List.filterMap_eq_nil_iff]
    simp
  refine ⟨?_, ?_, ?_, ?_, ?_⟩
  · simp only [Spec.batch, hp, if_true, Spec.update, loads_append, a1, b1, c1, d1, e1, f1]
    cases Spec.batchLoss p.b (xs.map fun x => Spec.lossOf p.counted x.2) <;> (simp [loads]; try split <;> simp)
  · simp only [Spec.batch, hp, if_true, Spec.update, rounds_append, a4, b4, c4, d4, e4, f4]
    cases Spec.batchLoss p.b (xs.map fun x => Spec.lossOf p.counted x.2) <;> (simp [rounds]; try split <;> simp)
  · simp only [Spec.batch, hp, if_true, Spec.update, conforms_append, a6, b6, c6, d6, e6, f6]
    cases Spec.batchLoss p.b (xs.map fun x => Spec.lossOf p.counted x.2) <;> (simp [conforms]; try split <;> simp)
  · have hb : backs (Spec.batch p xs sk) = (Spec.batchLoss p.b (xs.map fun x => Spec.lossOf p.counted x.2)).toList := by
      simp only [Spec.batch, hp, if_true, Spec.update, backs_append, a3, b3, c3, d3, e3, f3]
      cases Spec.batchLoss p.b (xs.map fun x => Spec.lossOf p.counted x.2) <;> (simp [backs]; try split <;> simp)
    rw [hb, hl]
    unfold Spec.batchLoss
    rw [← hl]
    by_cases hn : losses (Spec.batch p xs sk) = []
    · rw [if_pos (hnone.mp hn), if_pos hn]; rfl
    · rw [if_neg (fun h => hn (hnone.mpr h)), if_neg hn]; rfl
  · have hs : steps (Spec.batch p xs sk) ≤ if (Spec.batchLoss p.b (xs.map fun x => Spec.lossOf p.counted x.2)).isSome then 1 else 0 := by
      simp only [Spec.batch, hp, if_true, Spec.update, steps_append, a5, b5, c5, d5, e5, f5]
      cases Spec.batchLoss p.b (xs.map fun x => Spec.lossOf p.counted x.2) <;> (simp [steps]; try split <;> simp)
    refine le_trans hs ?_
    unfold Spec.batchLoss
    by_cases hn : losses (Spec.batch p xs sk) = []
    · rw [if_pos (hnone.mp hn), if_pos hn]; simp
    · rw [if_neg (fun h => hn (hnone.mpr h)), if_neg hn]; simp

theorem segments (m : Nat) (f : Nat → List (Act V)) : ∃ segs : List (List (Act V)), (List.range m).flatMap f = segs.flatten ∧ segs.length = m ∧
    ∀ (j : Nat) seg, segs[j]? = some seg → j < m ∧ seg = f j := by
  refine ⟨(List.range m).map f, by rw [List.flatMap_def], by simp, ?_⟩
  intro j seg hj
  rw [List.getElem?_map, Option.map_eq_some_iff] at hj
  obtain ⟨k, hk, rfl⟩ := hj
  rw [List.getElem?_eq_some_iff] at hk
  obtain ⟨hk, rfl⟩ := hk
  rw [List.length_range] at hk
  exact ⟨hk, by rw [List.getElem_range]⟩

/-- **C40 and C42, training.** A training scan over `N` volumes that ends normally consists of exactly `N / b` update rounds; the `j`-th is over the `j`-th
run of `b` consecutive volumes. If there are fewer than `b` volumes they are scanned, but nothing is updated. -/
theorem train_rounds (E : Env W V P) (c : Conf) (ps : Passives V) (hlen : ps.len = ps.vols.length) (s s' : S W V P) (hm : s.fp.mode = .train)
    (h : scanVolumes E c ps s = (.ok (), s')) :
    ∃ t, s'.log = s.log ++ t ∧
      (ps.vols.length < c.bs → loads t = ps.vols ∧ rounds t = 0 ∧ backs t = [] ∧ steps t = 0 ∧ conforms t = 0) ∧
      (c.bs ≤ ps.vols.length → ∃ segs : List (List (Act V)), t = segs.flatten ∧ segs.length = ps.vols.length / c.bs ∧
        ∀ (j : Nat) seg, segs[j]? = some seg → Round c.bs ((ps.vols.drop (j * c.bs)).take c.bs) seg) := by
  have he := emits_scan E c ps hlen s (by rw [hm]; decide)
  unfold Emits at he
  rw [h] at he
  obtain ⟨t, h1, ⟨xs, sk, h2, rfl⟩, -⟩ := he
  refine ⟨_, h1, ?_, ?_⟩
  · intro hlt
    have hx : xs.length < (scanOf E c s.fp.mode).b := by rw [← List.length_map (·.1), h2]; exact hlt
    obtain ⟨a1, a2, a3, a4, a5, a6⟩ := vols_facts (scanOf E c s.fp.mode) xs
    unfold Spec.scan
    rw [if_pos hx]
    have hd : Dull (if xs = [] then [] else Spec.evs (scanOf E c s.fp.mode).n .volBatchBegin : List (Act V)) := by
      split
      · exact dull_nil
      · exact dull_evs _ _
    obtain ⟨b1, b2, b3, b4, b5, b6⟩ := hd
    exact ⟨by simp [a1, b1, h2], by simp [a4, b4], by simp [a3, b3], by simp [a5, b5], by simp [a6, b6]⟩
  · intro hge
    have hx : ¬ xs.length < (scanOf E c s.fp.mode).b := by rw [← List.length_map (·.1), h2]; exact Nat.not_lt.mpr hge
    have hb : (scanOf E c s.fp.mode).b = c.bs := rfl
    have hxl : xs.length = ps.vols.length := by rw [← h2, List.length_map]
    unfold Spec.scan
    rw [if_neg hx]
    obtain ⟨segs, g1, g2, g3⟩ := segments (xs.length / c.bs) fun j => Spec.batch (scanOf E c s.fp.mode) ((xs.drop (j * c.bs)).take c.bs) (sk j)
    refine ⟨segs, g1, by rw [g2, hxl], ?_⟩
    intro j seg hj
    obtain ⟨-, rfl⟩ := g3 j seg hj
    have := batch_round (scanOf E c s.fp.mode) (by simp [scanOf, hm]) ((xs.drop (j * c.bs)).take c.bs) (sk j)
    rw [List.map_take, List.map_drop, h2] at this
    exact this

/-- **C40, validation.** A validation scan updates nothing. It goes through the volumes in order, leaving out those that do not fill a batch. -/
theorem valid_scan (E : Env W V P) (c : Conf) (ps : Passives V) (hlen : ps.len = ps.vols.length) (s s' : S W V P) (hm : s.fp.mode = .valid)
    (hb : 0 < c.bs) (h : scanVolumes E c ps s = (.ok (), s')) :
    ∃ t, s'.log = s.log ++ t ∧ rounds t = 0 ∧ backs t = [] ∧ steps t = 0 ∧ conforms t = 0 ∧
      loads t = if ps.vols.length < c.bs then ps.vols else ps.vols.take (ps.vols.length / c.bs * c.bs) := by
  have he := emits_scan E c ps hlen s (by rw [hm]; decide)
  unfold Emits at he
  rw [h] at he
  obtain ⟨t, h1, ⟨xs, sk, h2, rfl⟩, -⟩ := he
  refine ⟨_, h1, ?_⟩
  have hxl : xs.length = ps.vols.length := by rw [← h2, List.length_map]
  have htr : (scanOf E c s.fp.mode).train = false := by simp [scanOf, hm]
  unfold Spec.scan
  by_cases hlt : ps.vols.length < c.bs
  · have hx : xs.length < (scanOf E c s.fp.mode).b := by rw [hxl]; exact hlt
    obtain ⟨a1, a2, a3, a4, a5, a6⟩ := vols_facts (scanOf E c s.fp.mode) xs
    rw [if_pos hx, if_pos hlt]
    have hd : Dull (if xs = [] then [] else Spec.evs (scanOf E c s.fp.mode).n .volBatchBegin : List (Act V)) := by
      split
      · exact dull_nil
      · exact dull_evs _ _
    obtain ⟨b1, b2, b3, b4, b5, b6⟩ := hd
    exact ⟨by simp [a4, b4], by simp [a3, b3], by simp [a5, b5], by simp [a6, b6], by simp [a1, b1, h2]⟩
  · have hx : ¬ xs.length < (scanOf E c s.fp.mode).b := by rw [hxl]; exact hlt
    have hbb : (scanOf E c s.fp.mode).b = c.bs := rfl
    rw [if_neg hx, if_neg hlt, hbb, hxl]
    generalize ps.vols.length / c.bs = m
    rw [← h2]
    induction m with
    | zero => simp [rounds, backs, steps, conforms, loads]
    | succ m ih =>
      obtain ⟨i1, i2, i3, i4, i5⟩ := ih
      rw [List.range_succ, List.flatMap_append]
      simp only [List.flatMap_cons, List.flatMap_nil, List.append_nil]
      obtain ⟨a1, a2, a3, a4, a5, a6⟩ := vols_facts (scanOf E c s.fp.mode) ((xs.drop (m * c.bs)).take c.bs)
      obtain ⟨b1, b2, b3, b4, b5, b6⟩ := dull_evs (V := V) (scanOf E c s.fp.mode).n .volBatchBegin
      obtain ⟨c1, c2, c3, c4, c5, c6⟩ := dull_evs (V := V) (scanOf E c s.fp.mode).n .volBatchEnd
      have hbt : ∀ xs : List (V × Spec.Out), Spec.batch (scanOf E c s.fp.mode) xs (sk m) = Spec.evs (scanOf E c s.fp.mode).n .volBatchBegin ++
          xs.flatMap (Spec.vol (scanOf E c s.fp.mode)) ++ Spec.evs (scanOf E c s.fp.mode).n .volBatchEnd := by
        intro xs; simp [Spec.batch, htr]
      rw [hbt]
      simp only [rounds_append, backs_append, steps_append, conforms_append, loads_append, i1, i2, i3, i4, i5, a1, a3, a4, a5, a6,
        b1, b3, b4, b5, b6, c1, c3, c4, c5, c6, List.append_nil, List.nil_append, true_and]
      rw [show (m + 1) * c.bs = m * c.bs + c.bs by ring, List.take_add, List.map_take, List.map_drop]

theorem ok_eq {m : Prog W V P} {s : S W V P} (h : (m s).1 = .ok ()) : m s = (.ok (), (m s).2) := Prod.ext h rfl

/-- **C40 (violated): validation over all volumes.** With three validation volumes and batches of two the third is never looked at. -/
theorem valid_leftover_violated :
    ∃ t, (scanVolumes (quiet Nat) ⟨1, 2, 10, 5⟩ ⟨[7, 8, 9], 3⟩ ⟨initFp .valid, (), []⟩).2.log = t ∧ loads t = [7, 8] := by
  have he : (scanVolumes (quiet Nat) ⟨1, 2, 10, 5⟩ ⟨[7, 8, 9], 3⟩ ⟨initFp .valid, (), []⟩).1 = .ok () :=
    C41.ends_scan (C41.quiet_noRaise Nat) ⟨1, 2, 10, 5⟩ (by decide) (by decide) 3 0 [7, 8, 9] ⟨initFp .valid, (), []⟩
  obtain ⟨t, h1, -, -, -, -, h2⟩ := valid_scan (quiet Nat) ⟨1, 2, 10, 5⟩ ⟨[7, 8, 9], 3⟩ rfl ⟨initFp .valid, (), []⟩ _ rfl (by decide) (ok_eq he)
  exact ⟨t, by simpa using h1, by rw [h2]; rfl⟩

/-- five easy volumes in batches of two: two rounds, over volumes 1, 2 and 3, 4 -/
example : ∃ t, (scanVolumes (easy Nat) ⟨1, 2, 10, 5⟩ ⟨[1, 2, 3, 4, 5], 5⟩ ⟨initFp .train, (), []⟩).2.log = t ∧ ∃ a b, t = a ++ b ∧
    Round 2 [1, 2] a ∧ Round 2 [3, 4] b := by
  have he : (scanVolumes (easy Nat) ⟨1, 2, 10, 5⟩ ⟨[1, 2, 3, 4, 5], 5⟩ ⟨initFp .train, (), []⟩).1 = .ok () :=
    C41.ends_scan (C41.easy_noRaise Nat) ⟨1, 2, 10, 5⟩ (by decide) (by decide) 5 0 [1, 2, 3, 4, 5] ⟨initFp .train, (), []⟩
  obtain ⟨t, h1, -, h2⟩ := train_rounds (easy Nat) ⟨1, 2, 10, 5⟩ ⟨[1, 2, 3, 4, 5], 5⟩ rfl ⟨initFp .train, (), []⟩ _ rfl (ok_eq he)
  obtain ⟨segs, h3, h4, h5⟩ := h2 (by decide)
  obtain ⟨a, b, rfl⟩ := List.length_eq_two.mp (h4.trans rfl)
  exact ⟨t, by simpa using h1, a, b, by simpa using h3, h5 0 a rfl, h5 1 b rfl⟩

end C40

namespace C43

variable {W V P C : Type}

/-- **C43, `fit`.** Whatever happens during a fit, normal end or exception at any point, the wrapper's `fit_params` is gone afterwards and the caller's
callbacks and yielder are untouched. -/
theorem fit_clean (E : Env W V P) (c : Conf) (mkdir : W → Except Err Unit × W) (n : Nat) (trn : Passives V) (val : Option (Passives V)) (o : Outer W V P C)
    (hmk : (mkdir o.w).1 = .ok ()) :
    (fit E c mkdir n trn val o).2.fp = none ∧ (fit E c mkdir n trn val o).2.cbList = o.cbList ∧ (fit E c mkdir n trn val o).2.shuffle = o.shuffle := by
  unfold Fit.fit
  rcases h : mkdir o.w with ⟨r, w⟩
  rw [h] at hmk
  simp only at hmk
  subst hmk
  exact ⟨rfl, rfl, rfl⟩

/-- **C43 (violated): failing before the loop.** If the directory for the callbacks cannot be made, `fit` raises and leaves its `fit_params` behind. -/
theorem fit_mkdir_violated (E : Env W V P) (c : Conf) (mkdir : W → Except Err Unit × W) (n : Nat) (trn : Passives V) (val : Option (Passives V))
    (o : Outer W V P C) (e : Err) (hmk : (mkdir o.w).1 = .error e) :
    (fit E c mkdir n trn val o).1 = .error e ∧ (fit E c mkdir n trn val o).2.fp ≠ none := by
  unfold Fit.fit
  rcases h : mkdir o.w with ⟨r, w⟩
  rw [h] at hmk
  simp only at hmk
  subst hmk
  exact ⟨rfl, by simp⟩

/-- **C43, `predict`.** However `predict` ends, `fit_params` is gone and the caller's list of callbacks is as it was. -/
theorem predict_clean {R : Type} (E : Env W V P) (c : Conf) (predCb : C) (getPreds : W → Except Err R) (ps : Passives V) (o : Outer W V P C) :
    (predict E c predCb getPreds ps o).2.fp = none ∧ (predict E c predCb getPreds ps o).2.cbList = o.cbList := by
  unfold Fit.predict
  simp only
  generalize predictBody E _ ps _ = r
  obtain ⟨r, s⟩ := r
  cases r <;> simp

/-- **C43 (violated): the yielder.** A yielder that shuffles does not shuffle any more after being used for predictions. -/
theorem predict_shuffle_violated {R : Type} (E : Env W V P) (c : Conf) (predCb : C) (getPreds : W → Except Err R) (ps : Passives V) (o : Outer W V P C)
    (ho : o.shuffle = true) : (predict E c predCb getPreds ps o).2.shuffle ≠ o.shuffle := by
  rw [ho]
  unfold Fit.predict
  simp only
  generalize predictBody E _ ps _ = r
  obtain ⟨r, s⟩ := r
  cases r <;> simp

/-- a callback that raises at the end of the first epoch -/
example : (fit { quiet Nat with cb := fun _ e f w => (if e = .epochEnd then .error .valueError else .ok (), ⟨f.pred, f.stop, f.skip⟩, w) } ⟨0, 2, 10, 5⟩
    (fun w => (.ok (), w)) 2 ⟨[7, 8, 9], 3⟩ none (⟨none, (), [], ["cb"], true⟩ : Outer Unit Nat Unit String)).2.fp = none :=
  (fit_clean _ _ _ _ _ _ _ rfl).1

end C43

end

end Tomopt
