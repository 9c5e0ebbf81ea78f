import Verif.Spec.GoOn

/- Helper lemmas: two runs of the same loop that differ only in what an earlier epoch left behind. -/
namespace Tomopt

noncomputable section
open Fit

namespace GoOn

variable {W V P : Type}

/-- what is alike everywhere -/
def B (s t : S W V P) : Prop :=
  s.w = t.w ∧ s.log.filter inner = t.log.filter inner ∧ s.fp.mode = t.fp.mode ∧ s.fp.mode ≠ .test ∧ s.fp.stop = false ∧ t.fp.stop = false ∧ s.fp.skip = false ∧ t.fp.skip = false

/-- what is alike from which point on -/
def Lev (k : Nat) (f g : FP P) : Prop := (1 ≤ k → f.volumeId = g.volumeId) ∧ (2 ≤ k → f.lossVal = g.lossVal) ∧ (3 ≤ k → f.pred = g.pred) ∧ (4 ≤ k → f.meanLoss = g.meanLoss)

theorem Lev.mono {k l : Nat} {f g : FP P} (h : Lev k f g) (hl : l ≤ k) : Lev l f g := ⟨fun x => h.1 (by omega), fun x => h.2.1 (by omega), fun x => h.2.2.1 (by omega), fun x => h.2.2.2 (by omega)⟩

def T (k l : Nat) (m : Prog W V P) : Prop := ∀ s t, B s t → Lev k s.fp t.fp → (m s).1 = (m t).1 ∧ B (m s).2 (m t).2 ∧ ((m s).1 = .ok () → Lev l (m s).2.fp (m t).2.fp)

theorem T.seq {k l n : Nat} {m m' : Prog W V P} (h : T k l m) (h' : T l n m') : T k n (m ;; m') := by
  intro s t hb hk
  obtain ⟨h1, h2, h3⟩ := h s t hb hk
  unfold Fit.seq
  rcases e : m s with ⟨r, s'⟩
  rcases e' : m t with ⟨r', t'⟩
  rw [e, e'] at h1 h2 h3
  simp only at h1 h2 h3
  subst h1
  cases r with
  | error x => exact ⟨rfl, h2, fun hx => by cases hx⟩
  | ok x => exact h' s' t' h2 (h3 rfl)

theorem T.weak {k l k' l' : Nat} {m : Prog W V P} (h : T k l m) (hk : k ≤ k') (hl : l' ≤ l) : T k' l' m :=
  fun s t hb hs => ⟨(h s t hb (hs.mono hk)).1, (h s t hb (hs.mono hk)).2.1, fun hx => ((h s t hb (hs.mono hk)).2.2 hx).mono hl⟩

theorem T.nop {k : Nat} : T k k (nop : Prog W V P) := fun _ _ hb hk => ⟨rfl, hb, fun _ => hk⟩

theorem T.raise {k l : Nat} (e : Err) : T k l (raise e : Prog W V P) := fun _ _ hb _ => ⟨rfl, hb, fun hx => by cases hx⟩

theorem T.each {α : Type} {k : Nat} {f : α → Prog W V P} (h : ∀ a, T k k (f a)) : ∀ l, T k k (each l f)
  | [] => T.nop
  | a :: l => (h a).seq (T.each h l)

theorem T.note {k : Nat} (a : Act V) : T k k (note a : Prog W V P) := by
  intro s t hb hk
  refine ⟨rfl, ⟨hb.1, ?_, hb.2.2⟩, fun _ => hk⟩
  change (s.log ++ [a]).filter inner = (t.log ++ [a]).filter inner
  rw [List.filter_append, List.filter_append, hb.2.1]

/-- an assignment that changes neither `stop` nor `skip` -/
theorem T.set {k l : Nat} {u : FP P → FP P} (h1 : ∀ f g : FP P, f.mode = g.mode → f.mode ≠ .test → (u f).mode = (u g).mode ∧ (u f).mode ≠ .test) (h2 : ∀ f : FP P, (u f).stop = f.stop ∧ (u f).skip = f.skip)
    (h3 : ∀ f g : FP P, Lev k f g → Lev l (u f) (u g)) : T k l (setFp u : Prog W V P) := by
  intro s t hb hk
  obtain ⟨b1, b2, b3, b4, b5, b6, b7, b8⟩ := hb
  obtain ⟨m1, m2⟩ := h1 _ _ b3 b4
  exact ⟨rfl, ⟨b1, b2, m1, m2, (h2 _).1.trans b5, (h2 _).1.trans b6, (h2 _).2.trans b7, (h2 _).2.trans b8⟩, fun _ => h3 _ _ hk⟩

variable {E : Env W V P}

/-- how much has to be alike for an interjection -/
def need : Ev → Nat
  | .volBatchBegin | .volBegin => 2
  | .muBegin | .scatterEnd | .muEnd | .x0PredBegin | .x0PredEnd | .volEnd => 3
  | .volBatchEnd | .backBegin | .backEnd | .stepEnd => 4
  | _ => 0

theorem same_of {e : Ev} {f g : FP P} (hm : f.mode = g.mode) (h : Lev (need e) f g) : Same e f g := by
  refine ⟨hm, ?_⟩
  cases e <;> simp only [need] at h <;> simp only
  all_goals first
    | exact ⟨h.1 (by omega), h.2.1 (by omega)⟩
    | exact ⟨h.1 (by omega), h.2.1 (by omega), h.2.2.1 (by omega)⟩
    | exact ⟨h.1 (by omega), h.2.1 (by omega), h.2.2.1 (by omega), h.2.2.2 (by omega)⟩

theorem T.cb (hE : Steady E) (i : Nat) (e : Ev) {k : Nat} (hk : need e ≤ k) : T k k (callCb E i e) := by
  refine (T.note _).seq ?_
  intro s t hb hl
  obtain ⟨b1, b2, b3, b4, b5, b6, b7, b8⟩ := hb
  obtain ⟨c1, c2, c3⟩ := hE.same i e s.fp t.fp s.w (same_of b3 (hl.mono hk))
  rw [b1] at c1 c2 c3
  simp only [b1]
  refine ⟨c1, ⟨c2, b2, b3, b4, (hE.goes ..).1.trans b5, (hE.goes ..).1.trans b6, (hE.goes ..).2.trans b7, (hE.goes ..).2.trans b8⟩, fun _ => ⟨hl.1, hl.2.1, fun x => c3 (hl.2.2.1 x), hl.2.2.2⟩⟩

variable (c : Conf)

theorem T.cbs (hE : Steady E) (e : Ev) {k : Nat} (hk : need e ≤ k) : T k k (cbs E c e) := T.each (fun i => T.cb hE i e hk) _

theorem T.call (hE : Steady E) (a : Act V) {k : Nat} : T k k (call E a) := by
  refine (T.note _).seq ?_
  intro s t hb hl
  obtain ⟨b1, b2, b3, b4⟩ := hb
  simp only [b1, hE.prim a s.fp t.fp t.w]
  exact ⟨trivial, ⟨rfl, b2, b3, b4⟩, fun _ => hl⟩

theorem T.getPred (hE : Steady E) {k : Nat} (hk : k ≤ 3) : T k k (getPred E) := by
  refine (T.note _).seq ?_
  intro s t hb hl
  obtain ⟨b1, b2, b3, b4⟩ := hb
  simp only [b1, hE.pred s.fp t.fp t.w]
  cases E.pred t.fp t.w with
  | mk r w =>
    cases r with
    | error e => exact ⟨rfl, ⟨rfl, b2, b3, b4⟩, fun hx => by cases hx⟩
    | ok p => exact ⟨rfl, ⟨rfl, b2, b3, b4⟩, fun _ => ⟨hl.1, hl.2.1, fun _ => rfl, fun x => by omega⟩⟩

theorem T.addLoss : T 3 3 (addLoss E) := by
  intro s t hb hl
  have hp := hl.2.2.1 (by omega)
  have hm := hb.2.2.1
  unfold Fit.addLoss
  rw [hp, hm]
  refine ((T.note _).seq ?_) s t hb hl
  split
  · cases t.fp.pred with
    | none => exact T.nop
    | some p =>
      intro s t hb hl
      obtain ⟨b1, b2, b3, b4⟩ := hb
      simp only [b1]
      cases E.loss p t.w with
      | mk r w =>
        cases r with
        | error e => exact ⟨rfl, ⟨rfl, b2, b3, b4⟩, fun hx => by cases hx⟩
        | ok x =>
          refine ⟨rfl, ⟨rfl, ?_, b3, b4⟩, fun _ => ⟨hl.1, fun _ => ?_, hl.2.2.1, fun x => by omega⟩⟩
          · simp only [List.filter_append, b2]
          · simp only [hl.2.1 (by omega)]
  · exact T.nop

theorem T.muBatch (hE : Steady E) : T 3 3 (muBatch E c) :=
  (T.call hE _).seq <| (T.cbs c hE _ (by decide)).seq <| (T.call hE _).seq <| (T.call hE _).seq <| (T.cbs c hE _ (by decide)).seq <| (T.call hE _).seq <| T.cbs c hE _ (by decide)

theorem T.scanVolume (hE : Steady E) : T 2 3 (scanVolume E c) := by
  refine T.seq (l := 3) (T.set (fun _ _ h h' => ⟨h, h'⟩) (fun _ => ⟨rfl, rfl⟩) (fun _ _ h => ⟨fun _ => h.1 (by omega), fun _ => h.2.1 (by omega), fun _ => rfl, fun x => by omega⟩)) ?_
  refine T.seq (l := 3) (by split; exacts [T.raise _, T.nop]) ?_
  exact (T.call hE _).seq <| (T.each (fun _ => T.muBatch c hE) _).seq <| (T.cbs c hE _ (by decide)).seq <| (T.getPred hE (by decide)).seq <| (T.cbs c hE _ (by decide)).seq T.addLoss

theorem T.update (hE : Steady E) : T 4 4 (update E c) := by
  refine (T.call hE _).seq <| (T.cbs c hE _ (by decide)).seq <| T.seq (l := 4) ?_ <| (T.cbs c hE _ (by decide)).seq <| T.seq (l := 4) ?_ <| (T.cbs c hE _ (by decide)).seq <| T.call hE _
  · intro s t hb hl
    simp only [hl.2.2.2 (by omega)]
    refine (?_ : T 4 4 _) s t hb hl
    cases t.fp.meanLoss with
    | none => exact T.nop
    | some x => exact T.call hE _
  · intro s t hb hl
    simp only [hl.2.2.2 (by omega), hb.2.2.2.2.2.2.1, hb.2.2.2.2.2.2.2]
    refine (?_ : T 4 4 _) s t hb hl
    split
    · exact T.call hE _
    · exact T.nop

theorem T.batchEnd (hE : Steady E) : T 3 4 (batchEnd E c) := by
  refine T.seq (l := 4) (T.set (fun _ _ h h' => ⟨h, h'⟩) (fun _ => ⟨rfl, rfl⟩) (fun _ _ h => ⟨fun _ => h.1 (by omega), fun _ => h.2.1 (by omega), fun _ => h.2.2.1 (by omega), fun _ => by rw [h.2.1 (by omega)]⟩)) ?_
  refine (T.cbs c hE _ (by decide)).seq ?_
  intro s t hb hl
  simp only [hb.2.2.1]
  refine (?_ : T 4 4 _) s t hb hl
  split
  · exact T.update c hE
  · exact T.nop

theorem T.batchBegin (hE : Steady E) (i : Nat) : T (if i = 0 then 1 else 2) 2 (batchBegin E c i) := by
  intro s t hb hl
  have ht := hb.2.2.1 ▸ hb.2.2.2.1
  unfold Fit.batchBegin
  simp only [if_neg hb.2.2.2.1, if_neg ht]
  refine (?_ : T (if i = 0 then 1 else 2) 2 _) s t hb hl
  by_cases h0 : c.bs = 0
  · rw [if_pos h0]; exact T.raise _
  · rw [if_neg h0]
    by_cases hi : i % c.bs = 0
    · rw [if_pos hi]
      refine T.weak (k := 1) (l := 2) (T.seq (l := 2) (T.set (fun _ _ h h' => ⟨h, h'⟩) (fun _ => ⟨rfl, rfl⟩) (fun _ _ h => ⟨fun _ => h.1 (by omega), fun _ => rfl, fun x => by omega, fun x => by omega⟩)) (T.cbs c hE _ (by decide))) ?_ le_rfl
      split <;> omega
    · rw [if_neg hi]
      have : i ≠ 0 := by rintro rfl; simp at hi
      rw [if_neg this]
      exact T.nop

theorem T.oneVolume (hE : Steady E) (v : V) : T 2 3 (oneVolume E c v) :=
  (T.call hE _).seq <| (T.cbs c hE _ (by decide)).seq <| (T.scanVolume c hE).seq <| T.cbs c hE _ (by decide)

theorem T.scanFrom (hE : Steady E) (len : Nat) : ∀ (vs : List V) (i : Nat), T (if i = 0 then 0 else 2) 0 (scanFrom E c len i vs)
  | [], i => T.weak T.nop (Nat.zero_le _) le_rfl
  | v :: vs, i => by
    unfold Fit.scanFrom
    refine T.seq (l := if i = 0 then 1 else 2) (T.set (fun _ _ h h' => ⟨h, h'⟩) (fun _ => ⟨rfl, rfl⟩) (fun _ _ h => ?_)) ?_
    · split
      · exact ⟨fun _ => rfl, fun x => by omega, fun x => by omega, fun x => by omega⟩
      · rename_i hi
        rw [if_neg hi] at h
        exact ⟨fun _ => rfl, fun _ => h.2.1 (by omega), fun x => by omega, fun x => by omega⟩
    refine (T.batchBegin c hE i).seq <| (T.oneVolume c hE v).seq ?_
    have ih := T.scanFrom hE len vs (i + 1)
    rw [if_neg (Nat.succ_ne_zero i)] at ih
    intro s t hb hl
    simp only [hb.2.2.1]
    refine (?_ : T 3 0 _) s t hb hl
    split
    · refine (T.batchEnd c hE).seq ?_
      split
      · exact T.weak T.nop (Nat.zero_le _) le_rfl
      · exact ih.weak (by omega) le_rfl
    · exact ih.weak (by omega) le_rfl

theorem T.runEpoch (hE : Steady E) (ps : Passives V) : T 0 0 (runEpoch E c ps) :=
  (T.cbs c hE _ (by decide)).seq <| T.seq (l := 0) (by simpa [scanVolumes] using T.scanFrom c hE ps.len ps.vols 0) <| T.cbs c hE _ (by decide)

theorem lev0 (f g : FP P) : Lev 0 f g := ⟨fun x => by omega, fun x => by omega, fun x => by omega, fun x => by omega⟩

theorem T.fitEpoch (hE : Steady E) (trn : Passives V) (val : Option (Passives V)) : T 0 0 (fitEpoch E c trn val) := by
  have set : ∀ (u : FP P → FP P), (∀ f g : FP P, f.mode = g.mode → f.mode ≠ .test → (u f).mode = (u g).mode ∧ (u f).mode ≠ .test) → (∀ f : FP P, (u f).stop = f.stop ∧ (u f).skip = f.skip) → T 0 0 (setFp u : Prog W V P) :=
    fun u h1 h2 => T.set h1 h2 fun _ _ _ => lev0 _ _
  refine (set (fun f => { f with epoch := f.epoch + 1 }) (fun _ _ h h' => ⟨h, h'⟩) (fun _ => ⟨rfl, rfl⟩)).seq <| (T.call hE _).seq <| (set (fun f => { f with mode := .train }) (fun _ _ _ _ => ⟨rfl, by simp⟩) (fun _ => ⟨rfl, rfl⟩)).seq <| (T.runEpoch c hE trn).seq ?_
  cases val with
  | none => exact T.nop
  | some val => exact (T.call hE _).seq <| (set (fun f => { f with mode := .valid }) (fun _ _ _ _ => ⟨rfl, by simp⟩) (fun _ => ⟨rfl, rfl⟩)).seq <| T.runEpoch c hE val

theorem T.epochs (hE : Steady E) (trn : Passives V) (val : Option (Passives V)) : ∀ n, T 0 0 (epochs E c trn val n)
  | 0 => T.nop
  | n + 1 => by
    refine (T.fitEpoch c hE trn val).seq ?_
    intro s t hb hl
    simp only [hb.2.2.2.2.1, hb.2.2.2.2.2.1]
    exact T.epochs hE trn val n s t hb hl

theorem seq_assoc (a b d : Prog W V P) : (a ;; b) ;; d = a ;; b ;; d := by
  funext s
  simp only [Fit.seq]
  rcases a s with ⟨r, s'⟩
  cases r <;> rfl

/-- what is alike when an epoch begins -/
def B0 (s t : S W V P) : Prop := s.w = t.w ∧ s.log.filter inner = t.log.filter inner ∧ (s.fp.stop = false ∧ t.fp.stop = false) ∧ s.fp.skip = false ∧ t.fp.skip = false

def T0 (m : Prog W V P) : Prop := ∀ s t, B0 s t → (m s).1 = (m t).1 ∧ (m s).2.w = (m t).2.w ∧ (m s).2.log.filter inner = (m t).2.log.filter inner

theorem T0.epoch {m : Prog W V P} (h : T0 m) : T0 ((setFp fun f => { f with epoch := f.epoch + 1 }) ;; m) := fun _ _ hb => h _ _ ⟨hb.1, hb.2.1, hb.2.2.1, hb.2.2.2⟩

theorem T0.call (hE : Steady E) (a : Act V) {m : Prog W V P} (h : T0 m) : T0 (Fit.call E a ;; m) := by
  intro s t ⟨h1, h2, h3, h4⟩
  have hl : (s.log ++ [a]).filter inner = (t.log ++ [a]).filter inner := by rw [List.filter_append, List.filter_append, h2]
  simp only [Fit.seq, Fit.call, Fit.note, h1, hE.prim a s.fp t.fp t.w]
  rcases E.prim a t.fp t.w with ⟨r, w⟩
  cases r with
  | error e => exact ⟨rfl, rfl, hl⟩
  | ok x => exact h _ _ ⟨rfl, hl, h3, h4⟩

theorem T0.train {m : Prog W V P} (h : T 0 0 m) : T0 ((setFp fun f => { f with mode := .train }) ;; m) := by
  intro s t ⟨h1, h2, h3, h4⟩
  obtain ⟨g1, g2, -⟩ := h ⟨{ s.fp with mode := .train }, s.w, s.log⟩ ⟨{ t.fp with mode := .train }, t.w, t.log⟩ ⟨h1, h2, rfl, by simp, h3.1, h3.2, h4.1, h4.2⟩ (lev0 _ _)
  exact ⟨g1, g2.1, g2.2.1⟩

/-- it does not matter what an earlier epoch left behind, not even whether it was one of training -/
theorem epochs_fresh (hE : Steady E) (trn : Passives V) (val : Option (Passives V)) (n : Nat) : T0 (epochs E c trn val n) := by
  cases n with
  | zero => exact fun s t hb => ⟨rfl, hb.1, hb.2.1⟩
  | succ n =>
    simp only [Fit.epochs, Fit.fitEpoch, seq_assoc]
    refine T0.epoch <| T0.call hE _ <| T0.train <| (T.runEpoch c hE trn).seq ?_
    refine T.seq (l := 0) ?_ ?_
    · cases val with
      | none => exact T.nop
      | some val => exact (T.call hE _).seq <| (T.set (u := fun f => { f with mode := .valid }) (fun _ _ _ _ => ⟨rfl, by simp⟩) (fun _ => ⟨rfl, rfl⟩) (fun _ _ _ => lev0 _ _)).seq <| T.runEpoch c hE val
    · intro s t hb hl
      simp only [hb.2.2.2.2.1, hb.2.2.2.2.2.1]
      exact T.epochs c hE trn val n s t hb hl

/-- `n + m` epochs are `n` epochs and then `m` -/
theorem epochs_add (hE : Steady E) (trn : Passives V) (val : Option (Passives V)) (m : Nat) : ∀ (n : Nat) (s : S W V P), s.fp.stop = false → s.fp.skip = false → s.fp.mode ≠ .test →
    epochs E c trn val (n + m) s = (epochs E c trn val n ;; epochs E c trn val m) s
  | 0, s, _, _, _ => by rw [Nat.zero_add]; rfl
  | n + 1, s, h1, h2, h3 => by
    obtain ⟨-, hb, -⟩ := T.fitEpoch c hE trn val s s ⟨rfl, rfl, rfl, h3, h1, h1, h2, h2⟩ (lev0 _ _)
    rw [show n + 1 + m = (n + m) + 1 by omega]
    simp only [Fit.epochs, Fit.seq] at hb ⊢
    rcases e : Fit.fitEpoch E c trn val s with ⟨r, s'⟩
    rw [e] at hb
    cases r with
    | error x => rfl
    | ok x =>
      have h5 : s'.fp.stop = false := hb.2.2.2.2.1
      simp only [h5, Bool.false_eq_true, if_false]
      exact epochs_add hE trn val m n s' hb.2.2.2.2.1 hb.2.2.2.2.2.2.1 hb.2.2.2.1

/-- callbacks at the beginning and the end do nothing that matters -/
theorem ends (hE : Steady E) (e : Ev) (he : e = .setWrapper ∨ e = .trainBegin ∨ e = .trainEnd) (s : S W V P) (h1 : s.fp.stop = false) (h2 : s.fp.skip = false) (h3 : s.fp.mode ≠ .test) :
    (cbs E c e s).1 = .ok () ∧ B s (cbs E c e s).2 := by
  have one : ∀ (i : Nat) (s : S W V P), s.fp.stop = false → s.fp.skip = false → s.fp.mode ≠ .test → (callCb E i e s).1 = .ok () ∧ B s (callCb E i e s).2 := by
    intro i s h1 h2 h3
    simp only [callCb, Fit.seq, Fit.note]
    obtain ⟨a, b⟩ := hE.ends i e s.fp s.w he
    obtain ⟨g1, g2⟩ := hE.goes i e s.fp s.w
    have hi : ([Act.cb i e] : List (Act V)).filter inner = [] := by rcases he with rfl | rfl | rfl <;> rfl
    exact ⟨a, b.symm, by rw [List.filter_append, hi, List.append_nil], rfl, h3, h1, g1.trans h1, h2, g2.trans h2⟩
  have all : ∀ (l : List Nat) (s : S W V P), s.fp.stop = false → s.fp.skip = false → s.fp.mode ≠ .test → (each l (fun i => callCb E i e) s).1 = .ok () ∧ B s (each l (fun i => callCb E i e) s).2 := by
    intro l
    induction l with
    | nil => exact fun s h1 h2 h3 => ⟨rfl, rfl, rfl, rfl, h3, h1, h1, h2, h2⟩
    | cons i l ih =>
      intro s h1 h2 h3
      obtain ⟨a, b⟩ := one i s h1 h2 h3
      simp only [each, Fit.seq]
      rcases e' : callCb E i e s with ⟨r, s'⟩
      rw [e'] at a b
      simp only at a b
      subst a
      obtain ⟨b1, b2, b3, b4, b5, b6, b7, b8⟩ := b
      obtain ⟨a', c1, c2, c3, c4, c5, c6, c7, c8⟩ := ih s' b6 b8 (b3 ▸ b4)
      exact ⟨a', b1.trans c1, b2.trans c2, b3.trans c3, h3, h1, c6, h2, c8⟩
  exact all _ s h1 h2 h3

/-- a fit, but for callbacks at the beginning and the end, is its epochs -/
theorem fit_epochs (hE : Steady E) {C : Type} (mkdir : W → Except Err Unit × W) (hm : ∀ w, mkdir w = (.ok (), w)) (n : Nat) (trn : Passives V) (val : Option (Passives V)) (o : Outer W V P C) :
    let r := epochs E { c with nCb := o.cbList.length } trn val n ⟨initFp .train, o.w, o.log⟩
    (fit E c mkdir n trn val o).1 = r.1 ∧ (fit E c mkdir n trn val o).2.w = r.2.w ∧ (fit E c mkdir n trn val o).2.log.filter inner = r.2.log.filter inner := by
  have hs : ∀ x : Mode, x ≠ .test → (initFp x : FP P).stop = false ∧ (initFp x : FP P).skip = false ∧ (initFp x : FP P).mode ≠ .test := fun x hx => ⟨rfl, rfl, hx⟩
  simp only [fit, hm]
  generalize ({ c with nCb := o.cbList.length } : Conf) = c'
  generalize hs0 : (⟨initFp .train, o.w, o.log⟩ : S W V P) = s0
  have k0 : s0.fp.stop = false ∧ s0.fp.skip = false ∧ s0.fp.mode ≠ .test := by rw [← hs0]; exact ⟨rfl, rfl, by simp [initFp]⟩
  obtain ⟨a1, B1⟩ := ends c' hE .setWrapper (.inl rfl) s0 k0.1 k0.2.1 k0.2.2
  have B1' := B1
  obtain ⟨b1, b2, b3, b4, b5, b6, b7, b8⟩ := B1
  simp only [fitBody, Fit.seq]
  rcases e1 : cbs E c' .setWrapper s0 with ⟨r1, s1⟩
  rw [e1] at a1 b1 b2 b3 b6 b8 B1'
  simp only at a1 b1 b2 b3 b6 b8 B1'
  subst a1
  obtain ⟨a2, B2⟩ := ends c' hE .trainBegin (.inr (.inl rfl)) s1 b6 b8 (b3 ▸ b4)
  simp only
  rcases e2 : cbs E c' .trainBegin s1 with ⟨r2, s2⟩
  rw [e2] at a2 B2
  simp only at a2 B2
  subst a2
  have B02 : B s0 s2 := by
    obtain ⟨c1, c2, c3, c4, c5, c6, c7, c8⟩ := B2
    exact ⟨b1.trans c1, b2.trans c2, b3.trans c3, b4, b5, c6, b7, c8⟩
  obtain ⟨t1, t2, -⟩ := T.epochs c' hE trn val n s0 s2 B02 (lev0 _ _)
  simp only
  rcases e3 : epochs E c' trn val n s2 with ⟨r3, s3⟩
  rw [e3] at t1 t2
  simp only at t1 t2
  obtain ⟨d1, d2, d3, d4, d5, d6, d7, d8⟩ := t2
  cases r3 with
  | error x => exact ⟨t1.symm, d1.symm, d2.symm⟩
  | ok x =>
    obtain ⟨a4, f1, f2, -⟩ := ends c' hE .trainEnd (.inr (.inr rfl)) s3 d6 d8 (d3 ▸ d4)
    simp only
    exact ⟨a4.trans t1.symm, f1.symm.trans d1.symm, f2.symm.trans d2.symm⟩

end GoOn

end

end Tomopt
