import Verif.Spec.Onlookers

/- Lemmas for C162: a fit with onlookers beside one without. -/
namespace Tomopt

noncomputable section
open Fit

namespace Onlookers

variable {W W' V P D : Type} {E : Env W V P} {E' : Env W' V P} {no : Nat → Option Nat} {part : W → D} {part' : W' → D}

/-- the two states are the same in what matters -/
def R (no : Nat → Option Nat) (part : W → D) (part' : W' → D) (s : S W V P) (s' : S W' V P) : Prop :=
  s.fp = s'.fp ∧ part s.w = part' s'.w ∧ s.log.filterMap (without no) = s'.log

/-- the two programs do the same -/
def T (no : Nat → Option Nat) (part : W → D) (part' : W' → D) (m : Prog W V P) (m' : Prog W' V P) : Prop :=
  ∀ s s', R no part part' s s' → (m s).1 = (m' s').1 ∧ R no part part' (m s).2 (m' s').2

local notation "TT" => T no part part'

theorem T.seq {m k : Prog W V P} {m' k' : Prog W' V P} (h1 : TT m m') (h2 : TT k k') : TT (m ;; k) (m' ;; k') := by
  intro s s' r
  obtain ⟨a, b⟩ := h1 s s' r
  simp only [Fit.seq]
  rcases e : m s with ⟨x, t⟩
  rcases e' : m' s' with ⟨x', t'⟩
  rw [e, e'] at a b
  simp only at a b
  subst a
  cases x with
  | error e => exact ⟨rfl, b⟩
  | ok u => exact h2 t t' b

theorem T.nop : TT (nop : Prog W V P) nop := fun _ _ r => ⟨rfl, r⟩

theorem T.raise (e : Err) : TT (raise e : Prog W V P) (raise e) := fun _ _ r => ⟨rfl, r⟩

theorem T.setFp (g : FP P → FP P) : TT (setFp g : Prog W V P) (setFp g) := fun _ _ r => ⟨rfl, congrArg g r.1, r.2⟩

theorem T.each {α : Type} {f : α → Prog W V P} {f' : α → Prog W' V P} (hf : ∀ a, TT (f a) (f' a)) : ∀ l : List α, TT (each l f) (each l f')
  | [] => T.nop
  | a :: l => (hf a).seq (T.each hf l)

/-- programs that look at `fit_params` -/
theorem T.dep {m : FP P → Prog W V P} {m' : FP P → Prog W' V P} (h : ∀ f, TT (m f) (m' f)) : TT (fun s => m s.fp s) (fun s => m' s.fp s) := by
  intro s s' r
  have := h s.fp s s' r
  change (m s.fp s).1 = (m' s'.fp s').1 ∧ R no part part' (m s.fp s).2 (m' s'.fp s').2
  rw [← r.1]
  exact this

theorem T.note (a : Act V) (ha : without no a = some a) : TT (note a : Prog W V P) (note a) := by
  intro s s' r
  refine ⟨rfl, r.1, r.2.1, ?_⟩
  simp only [Fit.note, List.filterMap_append, r.2.2, List.filterMap_cons, ha, List.filterMap_nil]

variable (hE : LookOn E E' no part part')
include hE

theorem T.call (a : Act V) (ha : without no a = some a) : TT (call E a) (call E' a) := by
  refine (T.note a ha).seq ?_
  intro s s' r
  obtain ⟨h1, h2⟩ := hE.prim a s.fp s.w s'.w r.2.1
  simp only [← r.1]
  exact ⟨h1, rfl, h2, r.2.2⟩

/-- an onlooker -/
theorem look (i : Nat) (e : Ev) (hi : no i = none) : TT (callCb E i e) (Fit.nop) := by
  intro s s' r
  obtain ⟨h1, h2, h3⟩ := hE.onlooker i e s.fp s.w hi
  simp only [callCb, Fit.seq, Fit.note, Fit.nop]
  refine ⟨h1, ?_, h3.trans r.2.1, ?_⟩
  · simp only [h2]; exact r.1
  · simp only [List.filterMap_append, r.2.2, List.filterMap_cons, without, hi, Option.map_none, List.filterMap_nil, List.append_nil]

theorem T.cb (i j : Nat) (e : Ev) (hi : no i = some j) : TT (callCb E i e) (callCb E' j e) := by
  intro s s' r
  obtain ⟨h1, h2, h3⟩ := hE.other i j e s.fp s.w s'.w hi r.2.1
  simp only [callCb, Fit.seq, Fit.note]
  rw [← r.1]
  refine ⟨h1, ?_, h3, ?_⟩
  · simp only [h2]
  · simp only [List.filterMap_append, r.2.2, List.filterMap_cons, without, hi, Option.map_some, List.filterMap_nil]

theorem T.cbsList (e : Ev) : ∀ l : List Nat, TT (Fit.each l fun i => callCb E i e) (Fit.each (l.filterMap no) fun i => callCb E' i e)
  | [] => T.nop
  | i :: l => by
    cases hi : no i with
    | none =>
      rw [List.filterMap_cons_none hi]
      intro s s' r
      have := ((look hE i e hi).seq (T.cbsList e l)) s s' r
      simpa only [Fit.each, Fit.seq, Fit.nop] using this
    | some j =>
      rw [List.filterMap_cons_some hi]
      exact (T.cb hE i j e hi).seq (T.cbsList e l)

/-- the same arguments but for the number of callbacks -/
structure Confs (no : Nat → Option Nat) (c c' : Conf) : Prop where
  nCb : (List.range c.nCb).filterMap no = List.range c'.nCb
  bs : c.bs = c'.bs
  nMu : c.nMu = c'.nMu
  muBs : c.muBs = c'.muBs

variable {c c' : Conf} (hc : Confs no c c')
include hc

theorem T.cbs (e : Ev) : TT (cbs E c e) (cbs E' c' e) := by
  unfold Fit.cbs
  rw [← hc.nCb]
  exact T.cbsList hE e _

omit hc in
theorem T.getPred : TT (getPred E) (getPred E') := by
  refine (T.note _ rfl).seq ?_
  intro s s' r
  obtain ⟨h1, h2⟩ := hE.pred s.fp s.w s'.w r.2.1
  simp only [← r.1]
  rcases q : E.pred s.fp s.w with ⟨x, w⟩
  rcases q' : E'.pred s.fp s'.w with ⟨x', w'⟩
  rw [q, q'] at h1 h2
  simp only at h1 h2
  subst h1
  cases x with
  | error e => exact ⟨rfl, rfl, h2, r.2.2⟩
  | ok p => exact ⟨rfl, rfl, h2, r.2.2⟩

omit hc in
theorem T.addLoss : TT (addLoss E) (addLoss E') := by
  intro s s' r
  unfold Fit.addLoss
  rw [← r.1, hE.hasLoss]
  refine ((T.note _ rfl).seq ?_) s s' r
  split
  · cases s.fp.pred with
    | none => exact T.nop
    | some p =>
      intro s s' r
      obtain ⟨h1, h2⟩ := hE.loss p s.w s'.w r.2.1
      simp only
      rcases q : E.loss p s.w with ⟨x, w⟩
      rcases q' : E'.loss p s'.w with ⟨x', w'⟩
      rw [q, q'] at h1 h2
      simp only at h1 h2
      subst h1
      cases x with
      | error e => exact ⟨rfl, r.1, h2, r.2.2⟩
      | ok z =>
        refine ⟨rfl, ?_, h2, ?_⟩
        · simp only [r.1]
        · simp only [List.filterMap_append, r.2.2, List.filterMap_cons, without, List.filterMap_nil]
  · exact T.nop

theorem T.muBatch : TT (muBatch E c) (muBatch E' c') :=
  (T.call hE _ rfl).seq <| (T.cbs hE hc _).seq <| (T.call hE _ rfl).seq <| (T.call hE _ rfl).seq <| (T.cbs hE hc _).seq <| (T.call hE _ rfl).seq <| T.cbs hE hc _

theorem T.oneVolume (v : V) : TT (oneVolume E c v) (oneVolume E' c' v) := by
  refine (T.call hE _ rfl).seq <| (T.cbs hE hc _).seq <| T.seq ?_ <| T.cbs hE hc _
  unfold scanVolume
  rw [hc.nMu, hc.muBs]
  refine (T.setFp _).seq <| T.seq ?_ <| (T.call hE _ rfl).seq <| (T.each (fun _ => T.muBatch hE hc) _).seq <| (T.cbs hE hc _).seq <| (T.getPred hE).seq <| (T.cbs hE hc _).seq <| T.addLoss hE
  split
  · exact T.raise _
  · exact T.nop

theorem T.batchBegin (i : Nat) : TT (batchBegin E c i) (batchBegin E' c' i) := by
  refine T.dep (m := fun f => if f.mode = .test then _ else _) (m' := fun f => if f.mode = .test then _ else _) fun f => ?_
  rw [hc.bs]
  split
  · exact T.nop
  · split
    · exact T.raise _
    · split
      · exact (T.setFp _).seq (T.cbs hE hc _)
      · exact T.nop

theorem T.update : TT (update E c) (update E' c') := by
  refine (T.call hE _ rfl).seq <| (T.cbs hE hc _).seq <| T.seq ?_ <| (T.cbs hE hc _).seq <| T.seq ?_ <| (T.cbs hE hc _).seq <| T.call hE _ rfl
  · intro s s' r
    simp only [← r.1]
    cases s.fp.meanLoss with
    | none => exact T.nop s s' r
    | some x => exact T.call hE _ rfl s s' r
  · refine T.dep (m := fun f => if f.meanLoss.isSome ∧ f.skip = false then _ else _) (m' := fun f => if f.meanLoss.isSome ∧ f.skip = false then _ else _) fun f => ?_
    split
    · exact T.call hE _ rfl
    · exact T.nop

theorem T.batchEnd : TT (batchEnd E c) (batchEnd E' c') := by
  unfold Fit.batchEnd setMean
  rw [hc.bs]
  refine (T.setFp _).seq <| (T.cbs hE hc _).seq ?_
  refine T.dep (m := fun f => if f.mode = .train then _ else _) (m' := fun f => if f.mode = .train then _ else _) fun f => ?_
  split
  · exact T.update hE hc
  · exact T.nop

theorem T.scan (len : Nat) : ∀ (vs : List V) (i : Nat), TT (scanFrom E c len i vs) (scanFrom E' c' len i vs)
  | [], _ => T.nop
  | v :: vs, i => by
    unfold scanFrom
    refine (T.setFp _).seq <| (T.batchBegin hE hc i).seq <| (T.oneVolume hE hc v).seq ?_
    refine T.dep (m := fun f => if f.mode ≠ .test ∧ (i + 1) % c.bs = 0 then _ else _) (m' := fun f => if f.mode ≠ .test ∧ (i + 1) % c'.bs = 0 then _ else _) fun f => ?_
    rw [hc.bs]
    split
    · refine (T.batchEnd hE hc).seq ?_
      split
      · exact T.nop
      · exact T.scan len vs _
    · exact T.scan len vs _

theorem T.runEpoch (ps : Passives V) : TT (runEpoch E c ps) (runEpoch E' c' ps) := (T.cbs hE hc _).seq <| (T.scan hE hc _ _ _).seq <| T.cbs hE hc _

theorem T.fitEpoch (trn : Passives V) (val : Option (Passives V)) : TT (fitEpoch E c trn val) (fitEpoch E' c' trn val) := by
  refine (T.setFp _).seq <| (T.call hE _ rfl).seq <| (T.setFp _).seq <| (T.runEpoch hE hc _).seq ?_
  cases val with
  | none => exact T.nop
  | some v => exact (T.call hE _ rfl).seq <| (T.setFp _).seq <| T.runEpoch hE hc _

theorem T.epochs (trn : Passives V) (val : Option (Passives V)) : ∀ n, TT (epochs E c trn val n) (epochs E' c' trn val n)
  | 0 => T.nop
  | n + 1 => by
    refine (T.fitEpoch hE hc trn val).seq ?_
    refine T.dep (m := fun f => if f.stop then _ else _) (m' := fun f => if f.stop then _ else _) fun f => ?_
    split
    · exact T.nop
    · exact T.epochs trn val n

theorem T.fitBody (n : Nat) (trn : Passives V) (val : Option (Passives V)) : TT (fitBody E c n trn val) (fitBody E' c' n trn val) :=
  (T.cbs hE hc _).seq <| (T.cbs hE hc _).seq <| (T.epochs hE hc trn val n).seq <| T.cbs hE hc _

theorem T.predictBody (ps : Passives V) : TT (predictBody E c ps) (predictBody E' c' ps) :=
  (T.cbs hE hc _).seq <| (T.call hE _ rfl).seq <| (T.cbs hE hc _).seq <| (T.scan hE hc _ _ _).seq <| T.cbs hE hc _

end Onlookers

end

end Tomopt
