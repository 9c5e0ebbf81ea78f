import Verif.Model.Composite
import Verif.Model.PocaZ
import Verif.Props.C34_36
import Verif.Props.C40_43
import Verif.Lemmas.Classifier

/- C129: how many muons a volume is scanned with, and what becomes of volumes without muons. -/
namespace Tomopt

noncomputable section

namespace C129

open Fit

variable {W V P : Type}

/- The number of muons. -/

/-- batches of muons made -/
def muBatches (t : List (Act V)) : Nat := t.countP fun | .makeMuons => true | _ => false

/-- `k` batches of muons for every volume -/
def Even (k : Nat) (t : List (Act V)) : Prop := muBatches t = k * (loads t).length

theorem even_append {k : Nat} {a b : List (Act V)} (ha : Even k a) (hb : Even k b) : Even k (a ++ b) := by
  unfold Even muBatches at *
  rw [List.countP_append, C40.loads_append, List.length_append, ha, hb]
  ring

theorem even_nil {k : Nat} : Even k ([] : List (Act V)) := rfl

theorem even_evs {k : Nat} (n : Nat) (e : Ev) : Even k (Spec.evs n e : List (Act V)) := by
  simp [Even, muBatches, Spec.evs, loads, List.countP_eq_zero]

theorem even_flatMap {k : Nat} {β : Type} (l : List β) (f : β → List (Act V)) (h : ∀ x ∈ l, Even k (f x)) : Even k (l.flatMap f) := by
  induction l with
  | nil => exact even_nil
  | cons x l ih => exact even_append (h x List.mem_cons_self) (ih fun y hy => h y (List.mem_cons_of_mem _ hy))

theorem mu_batches (n k : Nat) : muBatches ((List.replicate k (Spec.mu n)).flatten : List (Act V)) = k ∧ loads ((List.replicate k (Spec.mu n)).flatten : List (Act V)) = [] := by
  have h1 : muBatches (Spec.mu n : List (Act V)) = 1 := by
    simp [Spec.mu, muBatches, Spec.evs, List.countP_map, Function.comp_def]
  refine ⟨?_, (C40.dull_replicate (C40.dull_mu n) k).1⟩
  induction k with
  | zero => rfl
  | succ k ih =>
    unfold muBatches at *
    rw [List.replicate_succ, List.flatten_cons, List.countP_append, h1, ih]
    omega

theorem even_vol (p : Spec.Scan) (x : V × Spec.Out) : Even p.k (Spec.vol p x) := by
  have hk := mu_batches (V := V) p.n p.k
  have ev : ∀ e, muBatches (Spec.evs p.n e : List (Act V)) = 0 := fun e => by simp [muBatches, Spec.evs, List.countP_eq_zero]
  unfold Even
  rw [(C40.vol_facts p x).1]
  have hl : muBatches ((Spec.lossOf p.counted x.2).toList.map Act.loss : List (Act V)) = 0 := by
    simp [muBatches, List.countP_eq_zero]
  unfold muBatches at hl ev hk ⊢
  simp only [Spec.vol, List.countP_append, ev, hk.1, hl, List.countP_cons, List.countP_nil, List.length_singleton]
  simp

theorem even_scan (p : Spec.Scan) (xs : List (V × Spec.Out)) (skips : Nat → Bool) : Even p.k (Spec.scan p xs skips) := by
  unfold Spec.scan
  split
  · refine even_append ?_ (even_flatMap _ _ fun x _ => even_vol p x)
    split
    · exact even_nil
    · exact even_evs _ _
  · refine even_flatMap _ _ fun j _ => ?_
    unfold Spec.batch
    refine even_append (even_append (even_append (even_evs _ _) (even_flatMap _ _ fun x _ => even_vol p x)) (even_evs _ _)) ?_
    split
    · unfold Spec.update
      refine even_append (even_append (even_append (even_append (even_append (even_append ?_ (even_evs _ _)) ?_) (even_evs _ _)) ?_) (even_evs _ _)) ?_
      · simp [Even, muBatches, loads]
      · simp [Even, muBatches, loads, List.countP_eq_zero]
      · split <;> simp [Even, muBatches, loads]
      · simp [Even, muBatches, loads]
    · exact even_nil

theorem even_fit (p : Spec.Scan) (hasVal : Bool) (rs : List (Spec.EpochRec V)) : Even p.k (Spec.fit p hasVal rs) := by
  unfold Spec.fit
  refine even_append (even_append (even_append (even_evs _ _) (even_evs _ _)) (even_flatMap _ _ fun r _ => ?_)) (even_evs _ _)
  unfold Spec.epoch
  refine even_append (even_append (even_append (even_append ?_ (even_evs _ _)) (even_scan _ _ _)) (even_evs _ _)) ?_
  · simp [Even, muBatches, loads]
  · split
    · refine even_append (even_append (even_append ?_ (even_evs _ _)) (even_scan _ _ _)) (even_evs _ _)
      simp [Even, muBatches, loads]
    · exact even_nil

/-- **C129.** In a fit that ends normally, every volume that was loaded is scanned with as many batches of muons as fit into the number asked for. -/
theorem batches_fit {C : Type} (E : Env W V P) (c : Conf) (mkdir : W → Except Err Unit × W) (n : Nat) (trn : Passives V) (val : Option (Passives V))
    (htrn : trn.len = trn.vols.length) (hval : ∀ v, val = some v → v.len = v.vols.length) (o o' : Outer W V P C) (h : fit E c mkdir n trn val o = (.ok (), o')) :
    ∃ t, o'.log = o.log ++ t ∧ muBatches t = (c.nMu / c.muBs) * (loads t).length := by
  obtain ⟨rs, _, _, h3, _⟩ := C41.fit_trace E c mkdir n trn val htrn hval o o' h
  exact ⟨_, h3, even_fit _ _ _⟩

/-- **C129.** So a volume is scanned with at most the number of muons asked for, and fewer than one batch are missing; none are missing exactly if the number is a multiple of
the size of a batch. -/
theorem muons (nMu muBs : Nat) (h : 0 < muBs) : muBs * (nMu / muBs) ≤ nMu ∧ nMu < muBs * (nMu / muBs) + muBs ∧ (muBs * (nMu / muBs) = nMu ↔ muBs ∣ nMu) := by
  have := Nat.div_add_mod nMu muBs
  have := Nat.mod_lt nMu h
  refine ⟨by omega, by omega, ?_⟩
  rw [Nat.dvd_iff_mod_eq_zero]
  omega

theorem one_volume (p : Spec.Scan) (hb : p.b = 1) (r : Spec.EpochRec V) (x : V × Spec.Out) (hx : r.trn = [x]) : loads (Spec.fit p false [r]) = [x.1] := by
  have ev : ∀ e, loads (Spec.evs p.n e : List (Act V)) = [] := fun e => (C40.dull_evs p.n e).1
  have hv := (C40.vol_facts { p with train := true } x).1
  have hup : ∀ m k, loads (Spec.update p.n m k : List (Act V)) = [] := by
    intro m k
    simp only [Spec.update, C40.loads_append, ev]
    cases m <;> cases k <;> simp [loads]
  have hm : loads ([.volMode true] : List (Act V)) = [] := rfl
  have h0 : loads ([] : List (Act V)) = [] := rfl
  rw [hb] at hv
  simp only [Spec.fit, List.flatMap_cons, List.flatMap_nil, Spec.epoch, Spec.scan, hx, hb]
  rw [if_neg (by simp)]
  simp only [List.length_singleton, Nat.div_one, List.range_one, List.flatMap_cons, List.flatMap_nil, Nat.zero_mul, List.drop_zero, List.take_succ_cons, List.take_zero, Spec.batch,
    C40.loads_append, ev, hm, h0, hv, hup, if_true, Bool.false_eq_true, if_false, List.nil_append, List.append_nil]

/-- **C129, negation.** The numbers need not be equal: of 10 muons in batches of 4, two are never made. -/
theorem missing_violated : ∃ o' : Outer Unit Nat Unit Unit,
    fit (easy Nat) ⟨0, 1, 10, 4⟩ (fun w => (.ok (), w)) 1 ⟨[7], 1⟩ none ⟨none, (), [], [], true⟩ = (.ok (), o') ∧ loads o'.log = [7] ∧ 4 * muBatches o'.log = 8 := by
  have he := C41.fit_ends (easy Nat) (C41.easy_noRaise Nat) ⟨0, 1, 10, 4⟩ (by decide) (by decide) (fun w => (.ok (), w)) (fun _ => rfl) 1 ⟨[7], 1⟩ none
    (⟨none, (), [], [], true⟩ : Outer Unit Nat Unit Unit)
  generalize hr : fit (easy Nat) ⟨0, 1, 10, 4⟩ (fun w => (.ok (), w)) 1 ⟨[7], 1⟩ none (⟨none, (), [], [], true⟩ : Outer Unit Nat Unit Unit) = r at he
  obtain ⟨r, o'⟩ := r
  simp only at he
  subst he
  obtain ⟨rs, h1, h2, h3⟩ := C41.all_epochs (easy Nat) (fun _ _ _ _ => rfl) ⟨0, 1, 10, 4⟩ (fun w => (.ok (), w)) 1 ⟨[7], 1⟩ none rfl (by rintro v hv; cases hv) _ o' hr
  have hl : loads o'.log = [7] := by
    rw [h3]
    match rs, h1 with
    | [r], _ =>
      have h7 := (h2 r (by simp)).1
      obtain ⟨x, hx, hx7⟩ : ∃ x, r.trn = [x] ∧ x.1 = 7 := by
        rcases hh : r.trn with _ | ⟨x, _ | ⟨y, l⟩⟩ <;> rw [hh] at h7 <;> simp at h7
        exact ⟨x, rfl, h7⟩
      rw [show (⟨none, (), [], [], true⟩ : Outer Unit Nat Unit Unit).log = [] from rfl, List.nil_append]
      exact (one_volume _ rfl r x hx).trans (by rw [hx7])
  obtain ⟨t, ht, hb⟩ := batches_fit (easy Nat) ⟨0, 1, 10, 4⟩ (fun w => (.ok (), w)) 1 ⟨[7], 1⟩ none rfl (by rintro v hv; cases hv) _ o' hr
  rw [List.nil_append] at ht
  subst ht
  refine ⟨o', rfl, hl, ?_⟩
  rw [hb, hl]
  rfl

/- Volumes without muons. -/

/-- The inferrer of a fit or prediction: its state is part of the world; a new one is made for every volume; callbacks leave it and its predictions alone; `ask` is what it
answers. -/
structure Uses (E : Env W V P) {I : Type} (inf : W → I) (init : I) (ask : I → Except Err (Option P)) : Prop where
  fresh : ∀ fp w, (E.prim .newInferrer fp w).1 = .ok () → inf (E.prim .newInferrer fp w).2 = init
  cb : ∀ i e fp w, inf (E.cb i e fp w).2.2 = inf w ∧ (E.cb i e fp w).2.1.pred = fp.pred
  pred : ∀ fp w, (E.pred fp w).1 = ask (inf w)

/-- neither a loss, nor its gradient, nor a step of an optimiser -/
def Idle : Act V → Prop
  | .loss _ => False
  | .backward _ => False
  | .step => False
  | _ => True

/-- no loss so far -/
def Calm (s : S W V P) : Prop := s.fp.lossVal = none ∧ s.fp.meanLoss = none

/-- from a calm state satisfying `A`, the program stays calm, only does idle things, and satisfies `B` if it ends normally -/
def Keeps (A B : S W V P → Prop) (m : Prog W V P) : Prop :=
  ∀ s, Calm s → A s → Calm (m s).2 ∧ (∃ t, (m s).2.log = s.log ++ t ∧ ∀ a ∈ t, Idle a) ∧ ((m s).1 = .ok () → B (m s).2)

theorem keeps_seq {A B C : S W V P → Prop} {m k : Prog W V P} (h1 : Keeps A B m) (h2 : Keeps B C k) : Keeps A C (m ;; k) := by
  intro s hc ha
  obtain ⟨c1, ⟨t1, e1, i1⟩, b1⟩ := h1 s hc ha
  unfold seq
  rcases hm : m s with ⟨r, s'⟩
  rw [hm] at c1 e1 b1
  cases r with
  | error e => exact ⟨c1, ⟨t1, e1, i1⟩, by simp⟩
  | ok u =>
    obtain ⟨c2, ⟨t2, e2, i2⟩, b2⟩ := h2 s' c1 (b1 rfl)
    refine ⟨c2, ⟨t1 ++ t2, by rw [e2, e1, List.append_assoc], ?_⟩, b2⟩
    intro a ha
    rcases List.mem_append.mp ha with h | h
    · exact i1 a h
    · exact i2 a h

theorem keeps_nop {A : S W V P → Prop} : Keeps A A (nop : Prog W V P) := fun s hc ha => ⟨hc, ⟨[], by simp [nop], by simp⟩, fun _ => ha⟩

theorem keeps_raise {A B : S W V P → Prop} (e : Err) : Keeps A B (raise e : Prog W V P) := fun s hc _ => ⟨hc, ⟨[], by simp [raise], by simp⟩, by simp [raise]⟩

theorem keeps_each {A : S W V P → Prop} {β : Type} (l : List β) (f : β → Prog W V P) (h : ∀ x, Keeps A A (f x)) : Keeps A A (each l f) := by
  induction l with
  | nil => exact keeps_nop
  | cons x l ih => exact keeps_seq (h x) ih

theorem keeps_weaken {A A' B B' : S W V P → Prop} {m : Prog W V P} (h : Keeps A B m) (ha : ∀ s, A' s → A s) (hb : ∀ s, B s → B' s) : Keeps A' B' m :=
  fun s hc a => let ⟨x, y, z⟩ := h s hc (ha s a); ⟨x, y, fun e => hb _ (z e)⟩

theorem keeps_call {A B : S W V P → Prop} (E : Env W V P) (a : Act V) (hi : Idle a)
    (h : ∀ s, A s → (E.prim a s.fp s.w).1 = .ok () → B { s with w := (E.prim a s.fp s.w).2, log := s.log ++ [a] }) : Keeps A B (call E a) := by
  intro s hc ha
  exact ⟨hc, ⟨[a], rfl, by simpa using hi⟩, fun he => h s ha he⟩

theorem keeps_cbs {A : S W V P → Prop} (E : Env W V P) (c : Conf) (e : Ev)
    (h : ∀ i s l, A s → A { s with fp := { s.fp with pred := (E.cb i e s.fp s.w).2.1.pred, stop := (E.cb i e s.fp s.w).2.1.stop, skip := (E.cb i e s.fp s.w).2.1.skip }, w := (E.cb i e s.fp s.w).2.2, log := l }) :
    Keeps A A (cbs E c e) :=
  keeps_each _ _ fun i s hc ha => ⟨hc, ⟨[.cb i e], rfl, by simp [Idle]⟩, fun _ => h i s _ ha⟩

theorem keeps_setFp {A : S W V P → Prop} (f : FP P → FP P) (hf : ∀ x : FP P, x.lossVal = none → x.meanLoss = none → (f x).lossVal = none ∧ (f x).meanLoss = none)
    (h : ∀ s, A s → A { s with fp := f s.fp }) : Keeps A A (setFp f : Prog W V P) := fun s hc ha => ⟨hf _ hc.1 hc.2, ⟨[], by simp [setFp], by simp⟩, fun _ => h s ha⟩

theorem keeps_ite {A B : S W V P → Prop} {p : S W V P → Prop} [DecidablePred p] {m k : Prog W V P} (h1 : Keeps A B m) (h2 : Keeps A B k) : Keeps A B fun s => (if p s then m else k) s := by
  intro s hc ha
  by_cases h : p s
  · simp only [if_pos h]; exact h1 s hc ha
  · simp only [if_neg h]; exact h2 s hc ha

/-- anything -/
def Any (_ : S W V P) : Prop := True

theorem any_call (E : Env W V P) (a : Act V) (hi : Idle a) : Keeps Any Any (call E a) := keeps_call E a hi fun _ _ _ => trivial
theorem any_cbs (E : Env W V P) (c : Conf) (e : Ev) : Keeps Any Any (cbs E c e) := keeps_cbs E c e fun _ _ _ _ => trivial

variable {I : Type} {inf : W → I} {init : I} {ask : I → Except Err (Option P)}

theorem keeps_scanVolume (E : Env W V P) (hu : Uses E inf init ask) (hn : ask init = .ok none) (c : Conf) (hmu : c.nMu < c.muBs) : Keeps Any Any (scanVolume E c) := by
  have h0 : c.nMu / c.muBs = 0 := Nat.div_eq_of_lt hmu
  unfold scanVolume
  rw [h0, if_neg (by omega)]
  refine keeps_seq (keeps_setFp _ (fun x h1 h2 => ⟨h1, h2⟩) fun _ _ => trivial) (keeps_seq keeps_nop ?_)
  refine keeps_seq (B := fun s => inf s.w = init) (keeps_call E _ trivial fun s _ he => hu.fresh _ _ he) ?_
  refine keeps_seq (B := fun s => inf s.w = init) keeps_nop ?_
  refine keeps_seq (keeps_cbs E c _ fun i s l h => by rw [(hu.cb i _ s.fp s.w).1]; exact h) ?_
  refine keeps_seq (B := fun s => s.fp.pred = none) ?_ (keeps_seq (keeps_cbs E c _ fun i s l h => by
    show (E.cb i _ s.fp s.w).2.1.pred = none
    rw [(hu.cb i _ s.fp s.w).2]; exact h) ?_)
  · intro s hc ha
    have hp := hu.pred s.fp s.w
    rw [ha, hn] at hp
    unfold getPred seq note
    simp only
    rcases hq : E.pred s.fp s.w with ⟨r, w⟩
    rw [hq] at hp
    simp only at hp
    subst hp
    exact ⟨hc, ⟨[.predict], rfl, by simp [Idle]⟩, fun _ => rfl⟩
  · intro s hc ha
    unfold addLoss seq note
    simp only [ha]
    split
    · exact ⟨hc, ⟨[.havePred false], rfl, by simp [Idle]⟩, fun _ => trivial⟩
    · exact ⟨hc, ⟨[.havePred false], rfl, by simp [Idle]⟩, fun _ => trivial⟩

theorem keeps_scanFrom (E : Env W V P) (hu : Uses E inf init ask) (hn : ask init = .ok none) (c : Conf) (hmu : c.nMu < c.muBs) (len : Nat) :
    ∀ (vs : List V) (i : Nat), Keeps Any Any (scanFrom E c len i vs) := by
  have hset : ∀ f : FP P → FP P, (∀ x : FP P, x.lossVal = none → x.meanLoss = none → (f x).lossVal = none ∧ (f x).meanLoss = none) →
      Keeps Any Any (setFp f : Prog W V P) := fun f hf => keeps_setFp f hf fun _ _ => trivial
  intro vs
  induction vs with
  | nil => intro i; exact keeps_nop
  | cons v vs ih =>
    intro i
    unfold scanFrom
    refine keeps_seq (hset _ fun x h1 h2 => ⟨h1, h2⟩) (keeps_seq (B := Any) ?_ (keeps_seq (B := Any) ?_ (keeps_ite ?_ (ih _))))
    · unfold batchBegin
      refine keeps_ite keeps_nop ?_
      split
      · exact keeps_raise _
      · split
        · exact keeps_seq (hset _ fun x h1 h2 => ⟨rfl, h2⟩) (any_cbs E c _)
        · exact keeps_nop
    · exact keeps_seq (any_call E _ trivial) (keeps_seq (any_cbs E c _) (keeps_seq (keeps_scanVolume E hu hn c hmu) (any_cbs E c _)))
    · refine keeps_seq (B := Any) ?_ (by split; exact keeps_nop; exact ih _)
      unfold batchEnd
      refine keeps_seq (hset _ fun x h1 h2 => ⟨h1, by simp [h1]⟩) (keeps_seq (any_cbs E c _) (keeps_ite ?_ keeps_nop))
      unfold update
      refine keeps_seq (any_call E _ trivial) (keeps_seq (any_cbs E c _) (keeps_seq (B := Any) ?_ (keeps_seq (any_cbs E c _) (keeps_seq (B := Any) ?_
        (keeps_seq (any_cbs E c _) (any_call E _ trivial))))))
      · intro s hc ha
        have := hc.2
        simp only [this]
        exact keeps_nop s hc ha
      · intro s hc ha
        have := hc.2
        simp only [this]
        exact keeps_nop s hc ha

/-- **C129.** If fewer muons are asked for than are in a batch, and the inferrer answers `None` when it was given nothing, then a fit computes no loss and takes no step, however
many epochs and volumes there are and however it ends. -/
theorem nothing_learned {C : Type} (E : Env W V P) (hu : Uses E inf init ask) (hn : ask init = .ok none) (c : Conf) (hmu : c.nMu < c.muBs) (mkdir : W → Except Err Unit × W) (n : Nat)
    (trn : Passives V) (val : Option (Passives V)) (o : Outer W V P C) :
    ∃ t, (fit E c mkdir n trn val o).2.log = o.log ++ t ∧ ∀ a ∈ t, Idle a := by
  unfold fit
  rcases hm : mkdir o.w with ⟨r, w⟩
  cases r with
  | error e => exact ⟨[], by simp, by simp⟩
  | ok u =>
    simp only
    have hset : ∀ f : FP P → FP P, (∀ x : FP P, x.lossVal = none → x.meanLoss = none → (f x).lossVal = none ∧ (f x).meanLoss = none) →
        Keeps Any Any (setFp f : Prog W V P) := fun f hf => keeps_setFp f hf fun _ _ => trivial
    generalize hc' : ({ c with nCb := o.cbList.length } : Conf) = c'
    have hmu' : c'.nMu < c'.muBs := by rw [← hc']; exact hmu
    have hr : ∀ ps : Passives V, Keeps Any Any (runEpoch E c' ps) := fun ps =>
      keeps_seq (any_cbs E c' _) (keeps_seq (keeps_scanFrom E hu hn c' hmu' _ _ _) (any_cbs E c' _))
    have he : ∀ n, Keeps Any Any (epochs E c' trn val n) := by
      intro n
      induction n with
      | zero => exact keeps_nop
      | succ n ih =>
        unfold epochs
        refine keeps_seq (B := Any) ?_ (keeps_ite keeps_nop ih)
        unfold fitEpoch
        refine keeps_seq (hset _ fun x h1 h2 => ⟨h1, h2⟩) (keeps_seq (any_call E _ trivial) (keeps_seq (hset _ fun x h1 h2 => ⟨h1, h2⟩) (keeps_seq (hr _) ?_)))
        cases val with
        | none => exact keeps_nop
        | some v => exact keeps_seq (any_call E _ trivial) (keeps_seq (hset _ fun x h1 h2 => ⟨h1, h2⟩) (hr v))
    have := (keeps_seq (any_cbs E c' .setWrapper) (keeps_seq (any_cbs E c' .trainBegin) (keeps_seq (he n) (any_cbs E c' .trainEnd)))) ⟨initFp .train, w, o.log⟩ ⟨rfl, rfl⟩ trivial
    exact this.2.1

theorem fail_seq {A B : S W V P → Prop} {m k : Prog W V P} {e : Err} (h1 : ∀ s, A s → (m s).1 = .ok () ∧ B (m s).2) (h2 : ∀ s, B s → (k s).1 = .error e) :
    ∀ s, A s → ((m ;; k) s).1 = .error e := by
  intro s ha
  obtain ⟨o, b⟩ := h1 s ha
  unfold seq
  rcases hm : m s with ⟨r, s'⟩
  rw [hm] at o b
  simp only at o
  subst o
  exact h2 s' b

theorem fail_left {A : S W V P → Prop} {m k : Prog W V P} {e : Err} (h : ∀ s, A s → (m s).1 = .error e) : ∀ s, A s → ((m ;; k) s).1 = .error e := by
  intro s ha
  have := h s ha
  unfold seq
  rcases hm : m s with ⟨r, s'⟩
  rw [hm] at this
  simp only at this
  subst this
  rfl

theorem cbs_inf (E : Env W V P) (hu : Uses E inf init ask) (c : Conf) (e : Ev) (s : S W V P) : inf (cbs E c e s).2.w = inf s.w := by
  unfold cbs
  generalize List.range c.nCb = l
  induction l generalizing s with
  | nil => rfl
  | cons i l ih =>
    have h := (hu.cb i e s.fp s.w).1
    unfold each seq
    rcases hc : callCb E i e s with ⟨r, s'⟩
    have hs : inf s'.w = inf s.w := by
      have : s'.w = (E.cb i e s.fp s.w).2.2 := by
        have := congrArg (fun x => x.2.w) hc
        exact this.symm
      rw [this, h]
    simp only [hc]
    cases r with
    | error e => exact hs
    | ok u => exact (ih s').trans hs

/-- **C129.** If the inferrer raises when it was given nothing, then with fewer muons than are in a batch every fit over a volume breaks off with that exception, although
nothing else raises. -/
theorem breaks_off {C : Type} (E : Env W V P) (hu : Uses E inf init ask) (e : Err) (hn : ask init = .error e) (hcb : ∀ i ev fp w, (E.cb i ev fp w).1 = .ok ())
    (hprim : ∀ a fp w, (E.prim a fp w).1 = .ok ()) (c : Conf) (hmu : c.nMu < c.muBs) (hbs : 0 < c.bs) (mkdir : W → Except Err Unit × W) (hmk : ∀ w, (mkdir w).1 = .ok ()) (n : Nat)
    (hne : 0 < n) (trn : Passives V) (v : V) (vs : List V) (hv : trn.vols = v :: vs) (val : Option (Passives V)) (o : Outer W V P C) :
    (fit E c mkdir n trn val o).1 = .error e := by
  unfold fit
  have hm' := hmk o.w
  rcases hm : mkdir o.w with ⟨r, w⟩
  rw [hm] at hm'
  simp only at hm'
  subst hm'
  simp only
  generalize hc' : ({ c with nCb := o.cbList.length } : Conf) = c'
  have hmu' : c'.nMu < c'.muBs := by rw [← hc']; exact hmu
  have hbs' : 0 < c'.bs := by rw [← hc']; exact hbs
  clear hc'
  have okCbs : ∀ ev (s : S W V P), (cbs E c' ev s).1 = .ok () := by
    intro ev s
    unfold cbs
    generalize List.range c'.nCb = l
    induction l generalizing s with
    | nil => rfl
    | cons i l ih =>
      unfold each seq
      rcases hc : callCb E i ev s with ⟨r, s'⟩
      have hr : r = .ok () := by
        have h1 := congrArg (fun x => x.1) hc
        have h2 : (callCb E i ev s).1 = (E.cb i ev s.fp s.w).1 := rfl
        rw [← hcb i ev s.fp s.w, ← h2]
        exact h1.symm
      subst hr
      simp only [hc]
      exact ih s'
  have okCall : ∀ a (s : S W V P), (call E a s).1 = .ok () := fun a s => hprim a s.fp s.w
  have stepC : ∀ ev (s : S W V P), Any s → (cbs E c' ev s).1 = .ok () ∧ Any (cbs E c' ev s).2 := fun ev s _ => ⟨okCbs ev s, trivial⟩
  have stepA : ∀ a (s : S W V P), Any s → (call E a s).1 = .ok () ∧ Any (call E a s).2 := fun a s _ => ⟨okCall a s, trivial⟩
  have scan : ∀ s : S W V P, Any s → (scanVolume E c' s).1 = .error e := by
    have h0 : c'.nMu / c'.muBs = 0 := Nat.div_eq_of_lt hmu'
    unfold scanVolume
    rw [h0, if_neg (by omega)]
    refine fail_seq (B := Any) (fun s _ => ⟨rfl, trivial⟩) (fail_seq (B := Any) (fun s _ => ⟨rfl, trivial⟩) ?_)
    refine fail_seq (B := fun s => inf s.w = init) (fun s _ => ⟨okCall _ s, hu.fresh _ _ (hprim _ _ _)⟩) ?_
    refine fail_seq (B := fun s => inf s.w = init) (fun s h => ⟨rfl, h⟩) ?_
    refine fail_seq (B := fun s => inf s.w = init) (fun s h => ⟨okCbs _ s, (cbs_inf E hu c' _ s).trans h⟩) (fail_left ?_)
    intro s ha
    have hp := hu.pred s.fp s.w
    rw [ha, hn] at hp
    unfold getPred seq note
    simp only
    rcases hq : E.pred s.fp s.w with ⟨r, w⟩
    rw [hq] at hp
    simp only at hp
    subst hp
    rfl
  have vols : ∀ s : S W V P, Any s → (scanVolumes E c' trn s).1 = .error e := by
    unfold scanVolumes
    rw [hv]
    unfold scanFrom
    refine fail_seq (B := Any) (fun s _ => ⟨rfl, trivial⟩) (fail_seq (B := Any) (fun s _ => ⟨?_, trivial⟩) (fail_left ?_))
    · unfold batchBegin
      by_cases h : s.fp.mode = .test
      · simp only [if_pos h]; rfl
      · simp only [if_neg h]
        rw [if_neg (by omega), if_pos (by simp)]
        exact okCbs _ _
    · exact fail_seq (stepA _) (fail_seq (stepC _) (fail_left scan))
  obtain ⟨k, rfl⟩ : ∃ k, n = k + 1 := ⟨n - 1, by omega⟩
  unfold fitBody epochs fitEpoch
  exact fail_seq (stepC _) (fail_seq (stepC _) (fail_left (fail_left (fail_seq (B := Any) (fun s _ => ⟨rfl, trivial⟩) (fail_seq (stepA _) (fail_seq (B := Any) (fun s _ => ⟨rfl, trivial⟩)
    (fail_left (fail_seq (stepC _) (fail_left vols))))))))) ⟨initFp .train, w, o.log⟩ trivial

/- Which inferrers are which. -/

/-- **C129.** X0 inferrers, and the inferrer of fill levels from points of closest approach, answer `None` when they were given nothing. -/
theorem x0_none (c : Infer.Conf) : (Infer.getPrediction c Infer.St.init).2 = .ok none := rfl

theorem pocaZ_none (cdf : ℝ → ℝ → ℝ → ℝ) (smooth size : ℝ) (lw : ℝ × ℝ) : PocaZ.predict cdf smooth size lw 0 [] = .ok none := rfl

/-- **C129, negation.** Inferrers that convert the predictions of an X0 inferrer do not: they raise. -/
theorem classifiers_violated (inner : Infer.Conf) (d : Classify.DenseBlock) (pipeline : List Classify.Step) (outputProbs : Bool) (class2float : Option (Nat → ℝ)) :
    (∃ e, (Composite.getPrediction ⟨inner, Composite.denseHead d⟩ Infer.St.init).2 = .error e) ∧
      (Composite.getPrediction ⟨inner, Composite.intHead pipeline outputProbs class2float⟩ Infer.St.init).2 = .error .typeError := by
  constructor
  · exact ⟨if d.useAvgpool then .typeError else .attributeError, rfl⟩
  · rfl

/- Classifiers after something was added. -/

open Composite in
/-- what a classifier should answer: the conversion of what the X0 inferrer answers to all scatters added so far -/
def want {R : Type} (c : Composite.Conf R) (bs : List Infer.ScVars) : Op → Ans R
  | .add _ => .done
  | .prediction => .pred (match C35.wantPrediction c.inner bs with | .error e => .error e | .ok p => c.head p)
  | .efficiency b => .eff (c.inner.eff b)
  | .reset => .done

open Composite in
def wantRun {R : Type} (c : Composite.Conf R) : List Infer.ScVars → List Op → List (Ans R)
  | _, [] => []
  | bs, o :: os => want c bs o :: wantRun c (match o with | .add b => bs ++ [b] | _ => bs) os

/-- **C129.** Classifiers built on an X0 inferrer answer from all scatters added so far, in any history of additions, questions and resets. -/
theorem history {R : Type} (c : Composite.Conf R) (ops : List Composite.Op) (h : ∀ b, Composite.Op.add b ∈ ops → ∃ e, c.inner.eff b = .ok e) :
    Composite.run c Infer.St.init ops = wantRun c [] ops := by
  have key : ∀ (ops : List Composite.Op) (s : Infer.St) (e : List ℝ), (∀ b, Composite.Op.add b ∈ ops → ∃ e, c.inner.eff b = .ok e) → (∀ b ∈ s.batches, ∃ e, c.inner.eff b = .ok e) →
      C35.Inv c.inner s e → Composite.run c s ops = wantRun c s.batches ops := by
    intro ops
    induction ops with
    | nil => intros; rfl
    | cons o os ih =>
      intro s e hok hbs hi
      have hok' : ∀ b, Composite.Op.add b ∈ os → ∃ e, c.inner.eff b = .ok e := fun b hb => hok b (by simp [hb])
      cases o with
      | add b =>
        have hbs' : ∀ b' ∈ (Composite.addScatters s b).batches, ∃ e, c.inner.eff b' = .ok e := by
          intro b' hb'
          simp only [Composite.addScatters, Infer.addScatters, List.mem_append, List.mem_singleton] at hb'
          rcases hb' with hb' | rfl
          · exact hbs b' hb'
          · exact hok b' (by simp)
        obtain ⟨e', he'⟩ := C35.combineEff_ok c.inner _ hbs'
        have := ih (Composite.addScatters s b) e' hok' hbs' ⟨he', Or.inl rfl, Or.inl rfl, Or.inl rfl⟩
        simp only [Composite.run, Composite.step, wantRun, want, this]
        rfl
      | prediction =>
        obtain ⟨s', h1, h2, h3⟩ := C35.step_spec c.inner s e hi .prediction (by intro b hb; cases hb)
        have h4 : Infer.getPrediction c.inner s = (s', C35.wantPrediction c.inner s.batches) := by
          simp only [Infer.step, C35.want, Prod.mk.injEq, Infer.Ans.pred.injEq] at h1
          exact Prod.ext h1.1 h1.2
        have := ih s' e hok' (by rw [h3]; exact hbs) h2
        have h5 : Composite.getPrediction c s = (s', match C35.wantPrediction c.inner s.batches with | .error e => .error e | .ok p => c.head p) := by
          unfold Composite.getPrediction
          rw [h4]
          cases C35.wantPrediction c.inner s.batches <;> rfl
        simp only [Composite.run, Composite.step, wantRun, want, h5, this, h3]
      | efficiency b =>
        have := ih s e hok' hbs hi
        simp only [Composite.run, Composite.step, wantRun, want, this]
        rfl
      | reset =>
        have := ih (Composite.resetVars s) e hok' hbs ⟨hi.eff, Or.inl rfl, Or.inl rfl, Or.inl rfl⟩
        simp only [Composite.run, Composite.step, wantRun, want, this]
        rfl
  exact key ops Infer.St.init [] h (by simp [Infer.St.init]) ⟨rfl, Or.inl rfl, Or.inl rfl, Or.inl rfl⟩

/-- a prediction all of whose voxels are numbers -/
def asNums (v : Classify.Vol) : List (List (List XF)) := v.map fun p => p.map fun r => r.map XF.num

theorem nums_iff (x : List (List (List XF))) (v : Classify.Vol) : Composite.nums x = some v ↔ x = asNums v := by
  have row : ∀ r : List XF, r.all XF.isFinite = true → (r.map fun v => match v with | .num a => a | _ => 0).map XF.num = r := by
    intro r hr
    rw [List.map_map]
    conv_rhs => rw [← List.map_id r]
    refine List.map_congr_left fun a ha => ?_
    have := List.all_eq_true.mp hr a ha
    cases a <;> first | rfl | simp [XF.isFinite] at this
  constructor
  · intro h
    unfold Composite.nums at h
    split at h
    · rename_i hx
      simp only [Option.some.injEq] at h
      subst h
      unfold asNums
      rw [List.map_map]
      conv_lhs => rw [← List.map_id x]
      refine List.map_congr_left fun p hp => ?_
      have hp' := List.all_eq_true.mp hx p hp
      simp only [Function.comp, id]
      rw [List.map_map]
      conv_lhs => rw [← List.map_id p]
      exact List.map_congr_left fun r hr => (row r (List.all_eq_true.mp hp' r hr)).symm
    · cases h
  · rintro rfl
    unfold Composite.nums asNums
    rw [if_pos (by simp [List.all_map, XF.isFinite])]
    simp [List.map_map, Function.comp_def]

/-- **C129: classifiers.** What a classifier answers is computed from the predicted X0s of all voxels: if they are numbers, the statistic of the dense block and the output of the pipeline are those of these numbers; a statistic or output
is answered only then. -/
theorem heads (d : Classify.DenseBlock) (pipeline : List Classify.Step) (outputProbs : Bool) (class2float : Option (Nat → ℝ)) (x : List (List (List XF))) :
    (∀ v, x = asNums v → Composite.denseHead d (some x) = (d.predict (some v)).map some ∧
      Composite.intHead pipeline outputProbs class2float (some x) = (Classify.x02probs pipeline v).map fun p => p.map (Composite.intOut outputProbs class2float)) ∧
    (∀ y, Composite.denseHead d (some x) = .ok (some y) → ∃ v, x = asNums v) ∧ ∀ y, Composite.intHead pipeline outputProbs class2float (some x) = .ok (some y) → ∃ v, x = asNums v := by
  refine ⟨fun v hv => ?_, fun y hy => ?_, fun y hy => ?_⟩
  · have := (nums_iff x v).mpr hv
    simp only [Composite.denseHead, Composite.intHead, this]
    exact ⟨trivial, by cases Classify.x02probs pipeline v <;> rfl⟩
  · cases h : Composite.nums x with
    | none => simp [Composite.denseHead, h] at hy
    | some v => exact ⟨v, (nums_iff x v).mp h⟩
  · cases h : Composite.nums x with
    | none => simp [Composite.intHead, h] at hy
    | some v => exact ⟨v, (nums_iff x v).mp h⟩

/-- two voxels, of which one is predicted to be infinite: no statistic is answered -/
example (d : Classify.DenseBlock) : Composite.denseHead d (some [[[.num 1, .pinf]]]) = .ok none ∧ Composite.denseHead d (some [[[.num 1, .num 2]]]) = (d.predict (some [[[1, 2]]])).map some := by
  refine ⟨?_, ((heads d [] false none _).1 [[[1, 2]]] rfl).1⟩
  simp [Composite.denseHead, Composite.nums, XF.isFinite]

/-- **C129.** The class (or number) that is returned instead of probabilities is that of a largest probability. -/
theorem most_probable (q : List ℝ) (hq : q ≠ []) (f : Nat → ℝ) : ∃ k < q.length, (∀ x ∈ q, x ≤ q.getD k 0) ∧
    Composite.intOut false none (.classes q) = .cls k ∧ Composite.intOut false (some f) (.classes q) = .float (f k) ∧ Composite.intOut true (some f) (.classes q) = .probs (.classes q) := by
  obtain ⟨v, h1, h2, _⟩ := argmax_spec hq
  refine ⟨Classify.argmax q, argmax_lt hq, ?_, rfl, rfl, rfl⟩
  rw [List.getD_eq_getElem?_getD, h1]
  exact h2

/- The hypotheses can be met. -/

/-- the world of `nothing_learned` and `breaks_off`: the number of batches given to the inferrer is all that is remembered -/
def world (answer : Nat → Except Err (Option Unit)) : Env Nat Nat Unit where
  cb := fun _ _ f w => (.ok (), ⟨f.pred, f.stop, f.skip⟩, w)
  prim := fun a _ w => (.ok (), match a with | .newInferrer => 0 | .addScatters => w + 1 | _ => w)
  pred := fun _ w => (answer w, w)
  loss := fun _ w => (.ok 2, w)
  hasLoss := true

theorem world_uses (answer : Nat → Except Err (Option Unit)) : Uses (world answer) id 0 answer := ⟨fun _ _ _ => rfl, fun _ _ _ _ => ⟨rfl, rfl⟩, fun _ _ => rfl⟩

example : ∃ t, (fit (world fun n => .ok (if n = 0 then none else some ())) ⟨0, 1, 99, 100⟩ (fun w => (.ok (), w)) 3 ⟨[7, 8], 2⟩ none (⟨none, 0, [], [()], true⟩ : Outer Nat Nat Unit Unit)).2.log =
    [] ++ t ∧ ∀ a ∈ t, Idle a := nothing_learned _ (world_uses _) rfl ⟨0, 1, 99, 100⟩ (by decide) _ 3 _ _ _

example : (fit (world fun n => if n = 0 then .error .typeError else .ok (some ())) ⟨0, 1, 99, 100⟩ (fun w => (.ok (), w)) 3 ⟨[7, 8], 2⟩ none
    (⟨none, 0, [], [()], true⟩ : Outer Nat Nat Unit Unit)).1 = .error .typeError :=
  breaks_off _ (world_uses _) .typeError rfl (fun _ _ _ _ => rfl) (fun _ _ _ => rfl) ⟨0, 1, 99, 100⟩ (by decide) (by decide) _ (fun _ => rfl) 3 (by decide) ⟨[7, 8], 2⟩ 7 [8] rfl _ _

end C129

end

end Tomopt
