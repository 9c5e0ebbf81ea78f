import Verif.Model.WarmupLoop
import Verif.Lemmas.WrapperFit
import Verif.Lemmas.Observe
import Verif.Lemmas.Warmup

/- Warm-ups inside of the fitting loop. -/
namespace Tomopt

noncomputable section

namespace Warmup

open Fit

variable {W V P : Type} {E : Env W V P} {cs : List Cb} {ws : W → List Wu}

/-! ### The callbacks one after the other -/

/-- what all callbacks do at an interjection -/
def all (mode : Mode) (e : Ev) (cs : List Cb) (s : St) : St := cs.foldl (fun s b => cbStep mode e b s) s

/-- a callback without its own state -/
def erase : Cb → Option Nat
  | .warm i => some i
  | _ => none

theorem cbStep_erase (mode : Mode) (e : Ev) (b b' : Cb) (h : erase b = erase b') (s : St) : cbStep mode e b s = cbStep mode e b' s := by
  cases b <;> cases b' <;> simp_all [erase, cbStep]

theorem all_erase (mode : Mode) (e : Ev) (cs cs' : List Cb) (h : cs.map erase = cs'.map erase) (s : St) : all mode e cs s = all mode e cs' s := by
  induction cs generalizing cs' s with
  | nil => cases cs' <;> simp_all
  | cons b cs ih =>
    cases cs' with
    | nil => simp at h
    | cons b' cs' =>
      simp only [List.map_cons, List.cons.injEq] at h
      unfold all
      rw [List.foldl_cons, List.foldl_cons, cbStep_erase mode e b b' h.1]
      exact ih cs' h.2 _

theorem trainBegin_all (cs : List Cb) (s : St) : (trainBegin cs s).2 = all .train .trainBegin cs s ∧ (trainBegin cs s).1.map erase = cs.map erase := by
  induction cs generalizing s with
  | nil => exact ⟨rfl, rfl⟩
  | cons b cs ih =>
    cases b with
    | warm i => exact ⟨(ih _).1, by simp [trainBegin, (ih _).2]⟩
    | post a => exact ⟨(ih s).1, by simp [trainBegin, (ih _).2, erase]⟩
    | other => exact ⟨(ih s).1, by simp [trainBegin, (ih _).2]⟩

theorem epochBegin_all (cs : List Cb) (s : St) : (epochBegin cs s).2 = all .train .epochBegin cs s ∧ (epochBegin cs s).1.map erase = cs.map erase := by
  induction cs generalizing s with
  | nil => exact ⟨rfl, rfl⟩
  | cons b cs ih =>
    cases b with
    | warm i => exact ⟨(ih _).1, by simp [epochBegin, (ih _).2]⟩
    | post a => exact ⟨(ih s).1, by simp [epochBegin, (ih _).2, erase]⟩
    | other => exact ⟨(ih s).1, by simp [epochBegin, (ih _).2]⟩

theorem epochEnd_all (cs : List Cb) (s : St) : epochEnd cs s = all .train .epochEnd cs s := by
  induction cs generalizing s with
  | nil => rfl
  | cons b cs ih =>
    cases b with
    | warm i => exact ih _
    | post a => exact ih s
    | other => exact ih s

theorem before_erase (cs : List Cb) (w0 : List Wu) (e : Nat) : (before cs w0 e).1.map erase = cs.map erase := by
  induction e with
  | zero => exact (trainBegin_all cs _).2
  | succ e ih => exact ((epochBegin_all _ _).2).trans ih

theorem before_zero_all (cs : List Cb) (w0 : List Wu) : (before cs w0 0).2 = all .train .trainBegin cs ⟨w0, false⟩ := (trainBegin_all cs _).1

theorem during_all (cs : List Cb) (w0 : List Wu) (e : Nat) : (during cs w0 e).2 = all .train .epochBegin cs (before cs w0 e).2 := by
  unfold during
  rw [(epochBegin_all _ _).1]
  exact all_erase _ _ _ _ (before_erase cs w0 e) _

theorem before_succ_all (cs : List Cb) (w0 : List Wu) (e : Nat) : (before cs w0 (e + 1)).2 = all .train .epochEnd cs (during cs w0 e).2 := by
  have h : (before cs w0 (e + 1)).2 = epochEnd (epochBegin (before cs w0 e).1 (before cs w0 e).2).1 (epochBegin (before cs w0 e).1 (before cs w0 e).2).2 := rfl
  rw [h, epochEnd_all]
  exact all_erase _ _ _ _ (((epochBegin_all _ _).2).trans (before_erase cs w0 e)) _

/-- interjections at which warm-ups do nothing -/
theorem all_quiet (mode : Mode) (e : Ev) (h : e ≠ .trainBegin ∧ ((e ≠ .epochBegin ∧ e ≠ .epochEnd) ∨ mode ≠ .train)) (cs : List Cb) (s : St) : all mode e cs s = s := by
  have hs : ∀ b s, cbStep mode e b s = s := by
    intro b s
    cases b with
    | warm i =>
      cases e <;> simp_all [cbStep]
    | _ => rfl
  unfold all
  induction cs with
  | nil => rfl
  | cons b cs ih => rw [List.foldl_cons, hs]; exact ih

theorem epochEnd_skip (cs : List Cb) (s : St) : (all .train .epochEnd cs s).skip = s.skip := by
  unfold all
  induction cs generalizing s with
  | nil => rfl
  | cons b cs ih =>
    rw [List.foldl_cons, ih]
    cases b <;> rfl

/-! ### Counting steps -/

def isStep : Act V → Bool
  | .step => true
  | _ => false

def isBack : Act V → Bool
  | .backward _ => true
  | _ => false

/-- the state of the warm-ups and the flag -/
def stOf (ws : W → List Wu) (s : S W V P) : St := ⟨ws s.w, s.fp.skip⟩

/-- A program that leaves the warm-ups and the flag alone and makes a step for each backward pass, or none if the flag is set. -/
def Cnt (ws : W → List Wu) (m : Prog W V P) : Prop := ∀ s s', m s = (.ok (), s') → stOf ws s' = stOf ws s ∧ s'.fp.mode = s.fp.mode ∧
  ∃ t, s'.log = s.log ++ t ∧ t.countP isStep = if s.fp.skip then 0 else t.countP isBack

theorem cnt_seq {m n : Prog W V P} (h1 : Cnt ws m) (h2 : Cnt ws n) : Cnt ws (m ;; n) := by
  intro s s' h
  obtain ⟨s1, e1, e2⟩ := seq_ok h
  obtain ⟨a1, m1, t1, b1, c1⟩ := h1 _ _ e1
  obtain ⟨a2, m2, t2, b2, c2⟩ := h2 _ _ e2
  refine ⟨a2.trans a1, m2.trans m1, t1 ++ t2, by rw [b2, b1, List.append_assoc], ?_⟩
  have hsk : s1.fp.skip = s.fp.skip := congrArg St.skip a1
  rw [hsk] at c2
  rw [List.countP_append, List.countP_append, c1, c2]
  split <;> simp

theorem cnt_nop : Cnt ws (nop : Prog W V P) := by
  intro s s' h
  cases h
  exact ⟨rfl, rfl, [], by simp, by simp⟩

theorem cnt_raise (e : Err) : Cnt ws (raise e : Prog W V P) := by
  intro s s' h
  cases h

theorem cnt_setFp (g : FP P → FP P) (hg : ∀ x, (g x).skip = x.skip ∧ (g x).mode = x.mode) : Cnt ws (setFp g : Prog W V P) := by
  intro s s' h
  cases h
  exact ⟨by simp [stOf, hg], (hg _).2, [], by simp, by simp⟩

theorem cnt_each {α : Type} (l : List α) (g : α → Prog W V P) (h : ∀ a, Cnt ws (g a)) : Cnt ws (each l g) := by
  induction l with
  | nil => exact cnt_nop
  | cons a l ih => exact cnt_seq (h a) ih

theorem cnt_ite {p : S W V P → Prop} [DecidablePred p] {m n : Prog W V P} (h1 : Cnt ws m) (h2 : Cnt ws n) : Cnt ws fun s => (if p s then m else n) s := by
  intro s s' h
  by_cases hp : p s
  · simp only [if_pos hp] at h; exact h1 _ _ h
  · simp only [if_neg hp] at h; exact h2 _ _ h

theorem call_ok {a : Act V} {s s' : S W V P} (h : call E a s = (.ok (), s')) : s'.fp = s.fp ∧ s'.log = s.log ++ [a] ∧ s'.w = (E.prim a s.fp s.w).2 := by
  unfold call seq note at h
  simp only [Prod.mk.injEq] at h
  obtain ⟨-, h2⟩ := h
  subst h2
  exact ⟨rfl, rfl, rfl⟩

theorem cnt_call (hW : Warms E cs ws) (a : Act V) (h1 : isStep a = false) (h2 : isBack a = false) : Cnt ws (call E a) := by
  intro s s' h
  obtain ⟨a1, a2, a3⟩ := call_ok h
  exact ⟨by simp [stOf, a1, a3, hW.prim], by rw [a1], [a], a2, by simp [h1, h2]⟩

/-- all callbacks at an interjection -/
theorem cbs_all (hW : Warms E cs ws) (c : Conf) (hc : c.nCb = cs.length) (e : Ev) (s s' : S W V P) (h : cbs E c e s = (.ok (), s')) :
    stOf ws s' = all s.fp.mode e cs (stOf ws s) ∧ s'.fp.mode = s.fp.mode ∧ s'.fp.meanLoss = s.fp.meanLoss ∧
      ∃ t, s'.log = s.log ++ t ∧ t.countP isStep = 0 ∧ t.countP isBack = 0 := by
  have key : ∀ n ≤ cs.length, ∀ s', each (List.range n) (fun i => callCb E i e) s = (.ok (), s') →
      stOf ws s' = all s.fp.mode e (cs.take n) (stOf ws s) ∧ s'.fp.mode = s.fp.mode ∧ s'.fp.meanLoss = s.fp.meanLoss ∧
      ∃ t, s'.log = s.log ++ t ∧ t.countP isStep = 0 ∧ t.countP isBack = 0 := by
    intro n
    induction n with
    | zero => intro _ s' h; cases h; exact ⟨rfl, rfl, rfl, [], by simp, rfl, rfl⟩
    | succ n ih =>
      intro hn s' h
      have hap : ∀ (l l' : List Nat) (g : Nat → Prog W V P), each (l ++ l') g = (each l g ;; each l' g) := by
        intro l l' g
        induction l with
        | nil => rfl
        | cons a l ih => rw [List.cons_append, each, ih, each, seq_assoc]
      rw [List.range_succ, hap] at h
      obtain ⟨s1, e1, e2⟩ := seq_ok h
      obtain ⟨a, b, d, t, f1, f2, f3⟩ := ih (by omega) s1 e1
      rw [each, each] at e2
      obtain ⟨s2, e3, e4⟩ := seq_ok e2
      cases e4
      unfold callCb seq note at e3
      simp only [Prod.mk.injEq] at e3
      obtain ⟨g1, g2⟩ := e3
      have hb : cs[n]? = some cs[n] := List.getElem?_eq_getElem (by omega)
      have := hW.cb n _ hb e s1.fp s1.w g1
      subst g2
      refine ⟨?_, b, d, t ++ [.cb n e], by simp [f1], ?_, ?_⟩
      · have h2 : (⟨ws (E.cb n e s1.fp s1.w).2.2, (E.cb n e s1.fp s1.w).2.1.skip⟩ : St) = all s.fp.mode e (cs.take (n + 1)) (stOf ws s) := by
          rw [this, b]
          unfold all
          rw [List.take_succ_eq_append_getElem (by omega), List.foldl_append]
          show cbStep _ _ _ (stOf ws s1) = _
          rw [a]
          rfl
        exact h2
      · rw [List.countP_append, f2]; rfl
      · rw [List.countP_append, f3]; rfl
  unfold cbs at h
  rw [hc] at h
  have := key cs.length le_rfl s' h
  rwa [List.take_length] at this

theorem cnt_cbs (hW : Warms E cs ws) (c : Conf) (hc : c.nCb = cs.length) (e : Ev) (he : e ≠ .trainBegin ∧ e ≠ .epochBegin ∧ e ≠ .epochEnd) : Cnt ws (cbs E c e) := by
  intro s s' h
  obtain ⟨a, m, -, t, b1, b2, b3⟩ := cbs_all hW c hc e s s' h
  refine ⟨by rw [a, all_quiet _ _ ⟨he.1, Or.inl he.2⟩], m, t, b1, by rw [b2, b3]; simp⟩

theorem cnt_getPred (hW : Warms E cs ws) : Cnt ws (getPred E) := by
  intro s s' h
  unfold getPred seq note at h
  simp only at h
  rcases hp : E.pred s.fp s.w with ⟨r, w⟩
  have := hW.pred s.fp s.w
  rw [hp] at this h
  cases r with
  | error e => simp at h
  | ok p =>
    simp only [Prod.mk.injEq, true_and] at h
    subst h
    refine ⟨?_, rfl, [.predict], rfl, by simp [isStep, isBack]⟩
    show (⟨ws w, _⟩ : St) = _
    rw [this]
    rfl

theorem cnt_addLoss (hW : Warms E cs ws) : Cnt ws (addLoss E) := by
  intro s s' h
  unfold addLoss seq note at h
  simp only at h
  split at h
  · cases hp : s.fp.pred with
    | none =>
      rw [hp] at h
      simp only [nop, Prod.mk.injEq, true_and] at h
      subst h
      exact ⟨rfl, rfl, [.havePred false], rfl, by simp [isStep, isBack]⟩
    | some p =>
      rw [hp] at h
      simp only at h
      rcases hl : E.loss p s.w with ⟨r, w⟩
      have := hW.loss p s.w
      rw [hl] at this h
      cases r with
      | error e => simp at h
      | ok x =>
        simp only [Prod.mk.injEq, true_and] at h
        subst h
        refine ⟨?_, rfl, [.havePred true, .loss x], by simp, by simp [isStep, isBack]⟩
        show (⟨ws w, _⟩ : St) = _
        rw [this]
        rfl
  · simp only [nop, Prod.mk.injEq, true_and] at h
    subst h
    exact ⟨rfl, rfl, [.havePred s.fp.pred.isSome], rfl, by simp [isStep, isBack]⟩

theorem cnt_volume (hW : Warms E cs ws) (c : Conf) (hc : c.nCb = cs.length) (v : V) : Cnt ws (oneVolume E c v) := by
  have q : ∀ a : Act V, isStep a = false → isBack a = false → Cnt ws (call E a) := fun a => cnt_call hW a
  have cb : ∀ e, e ≠ .trainBegin ∧ e ≠ .epochBegin ∧ e ≠ .epochEnd → Cnt ws (cbs E c e) := fun e => cnt_cbs hW c hc e
  refine cnt_seq (q _ rfl rfl) (cnt_seq (cb _ (by simp)) (cnt_seq ?_ (cb _ (by simp))))
  refine cnt_seq (cnt_setFp _ fun _ => ⟨rfl, rfl⟩) (cnt_seq ?_ (cnt_seq (q _ rfl rfl) (cnt_seq (cnt_each _ _ fun _ => ?_) (cnt_seq (cb _ (by simp))
    (cnt_seq (cnt_getPred hW) (cnt_seq (cb _ (by simp)) (cnt_addLoss hW)))))))
  · split
    · exact cnt_raise _
    · exact cnt_nop
  · exact cnt_seq (q _ rfl rfl) (cnt_seq (cb _ (by simp)) (cnt_seq (q _ rfl rfl) (cnt_seq (q _ rfl rfl) (cnt_seq (cb _ (by simp)) (cnt_seq (q _ rfl rfl) (cb _ (by simp)))))))

theorem cnt_update (hW : Warms E cs ws) (c : Conf) (hc : c.nCb = cs.length) : Cnt ws (update E c) := by
  have q : ∀ a : Act V, isStep a = false → isBack a = false → Cnt ws (call E a) := fun a => cnt_call hW a
  have cb : ∀ e, e ≠ .trainBegin ∧ e ≠ .epochBegin ∧ e ≠ .epochEnd → Cnt ws (cbs E c e) := fun e => cnt_cbs hW c hc e
  have mid : Cnt ws ((fun s => (match s.fp.meanLoss with
      | some x => call E (.backward x)
      | none => nop) s) ;; (cbs E c .backEnd ;; fun s => (if s.fp.meanLoss.isSome ∧ s.fp.skip = false then call E .step else nop) s)) := by
    intro s s' h
    obtain ⟨s1, e1, h⟩ := seq_ok h
    obtain ⟨s2, e2, e3⟩ := seq_ok h
    obtain ⟨b1, bm, b3, t2, b4, b5, b6⟩ := cbs_all hW c hc _ _ _ e2
    rw [all_quiet _ _ (by simp)] at b1
    cases hm : s.fp.meanLoss with
    | none =>
      simp only [hm] at e1
      cases e1
      rw [if_neg (by rw [b3, hm]; simp)] at e3
      cases e3
      exact ⟨b1, bm, t2, b4, by rw [b5, b6]; simp⟩
    | some x =>
      simp only [hm] at e1
      obtain ⟨a1, a2, a3⟩ := call_ok e1
      have hs1 : stOf ws s1 = stOf ws s := by simp [stOf, a1, a3, hW.prim]
      have hsk : s2.fp.skip = s.fp.skip := by
        have := congrArg St.skip (b1.trans hs1)
        exact this
      by_cases hk : s.fp.skip = true
      · rw [if_neg (by rw [hsk, hk]; simp)] at e3
        cases e3
        refine ⟨b1.trans hs1, by rw [bm, a1], .backward x :: t2, by rw [b4, a2]; simp, ?_⟩
        rw [hk, if_pos rfl, List.countP_cons_of_neg (by simp [isStep]), b5]
      · have hk' : s.fp.skip = false := by simpa using hk
        rw [if_pos ⟨by rw [b3, a1, hm]; rfl, hsk.trans hk'⟩] at e3
        obtain ⟨d1, d2, d3⟩ := call_ok e3
        refine ⟨?_, by rw [d1, bm, a1], .backward x :: (t2 ++ [.step]), by rw [d2, b4, a2]; simp, ?_⟩
        · have : stOf ws s' = stOf ws s2 := by simp [stOf, d1, d3, hW.prim]
          rw [this, b1, hs1]
        · rw [hk', if_neg (by simp)]
          simp only [List.countP_cons, List.countP_append, b5, b6, List.countP_nil]
          simp [isStep, isBack]
  unfold update
  have := cnt_seq mid (cnt_seq (cb .stepEnd (by simp)) (q .conform rfl rfl))
  rw [seq_assoc, seq_assoc] at this
  exact cnt_seq (q _ rfl rfl) (cnt_seq (cb _ (by simp)) this)

theorem cnt_scan (hW : Warms E cs ws) (c : Conf) (hc : c.nCb = cs.length) (len i : Nat) (vs : List V) : Cnt ws (scanFrom E c len i vs) := by
  have cb : ∀ e, e ≠ .trainBegin ∧ e ≠ .epochBegin ∧ e ≠ .epochEnd → Cnt ws (cbs E c e) := fun e => cnt_cbs hW c hc e
  induction vs generalizing i with
  | nil => exact cnt_nop
  | cons v vs ih =>
    unfold scanFrom
    refine cnt_seq (cnt_setFp _ fun _ => ⟨rfl, rfl⟩) (cnt_seq ?_ (cnt_seq (cnt_volume hW c hc v) (cnt_ite (cnt_seq ?_ ?_) (ih _))))
    · unfold batchBegin
      refine cnt_ite cnt_nop ?_
      split
      · exact cnt_raise _
      · split
        · exact cnt_seq (cnt_setFp _ fun _ => ⟨rfl, rfl⟩) (cb _ (by simp))
        · exact cnt_nop
    · unfold batchEnd setMean
      exact cnt_seq (cnt_setFp _ fun _ => ⟨rfl, rfl⟩) (cnt_seq (cb _ (by simp)) (cnt_ite (cnt_update hW c hc) cnt_nop))
    · split
      · exact cnt_nop
      · exact ih _

/-- one epoch -/
theorem epoch_count (hW : Warms E cs ws) (c : Conf) (hc : c.nCb = cs.length) (trn : Passives V) (val : Option (Passives V)) (s s' : S W V P)
    (h : fitEpoch E c trn val s = (.ok (), s')) :
    let d := all .train .epochBegin cs (stOf ws s)
    stOf ws s' = all .train .epochEnd cs d ∧ ∃ t, s'.log = s.log ++ t ∧ t.countP isStep = if d.skip then 0 else t.countP isBack := by
  intro d
  -- one half of an epoch
  have half : ∀ (ps : Passives V) (s s' : S W V P), runEpoch E c ps s = (.ok (), s') → s.fp.mode ≠ .test →
      stOf ws s' = all s.fp.mode .epochEnd cs (all s.fp.mode .epochBegin cs (stOf ws s)) ∧ s'.fp.mode = s.fp.mode ∧
      ∃ t, s'.log = s.log ++ t ∧ t.countP isStep = if (all s.fp.mode .epochBegin cs (stOf ws s)).skip then 0 else t.countP isBack := by
    intro ps s s' h _
    unfold runEpoch at h
    obtain ⟨s1, e1, h⟩ := seq_ok h
    obtain ⟨s2, e2, e3⟩ := seq_ok h
    obtain ⟨a1, a2, -, t1, a3, a4, a5⟩ := cbs_all hW c hc _ _ _ e1
    obtain ⟨b1, bm, t2, b2, b3⟩ := cnt_scan hW c hc _ _ _ _ _ e2
    obtain ⟨c1, c2, -, t3, c3, c4, c5⟩ := cbs_all hW c hc _ _ _ e3
    refine ⟨by rw [c1, b1, a1, bm, a2], by rw [c2, bm, a2], t1 ++ (t2 ++ t3), by rw [c3, b2, a3]; simp, ?_⟩
    have hsk : s1.fp.skip = (all s.fp.mode .epochBegin cs (stOf ws s)).skip := congrArg St.skip a1
    simp only [List.countP_append, a4, a5, c4, c5, b3, hsk]
    split <;> simp
  unfold fitEpoch at h
  obtain ⟨s1, e1, h⟩ := seq_ok h
  obtain ⟨s2, e2, h⟩ := seq_ok h
  obtain ⟨s3, e3, h⟩ := seq_ok h
  obtain ⟨s4, e4, e5⟩ := seq_ok h
  obtain ⟨a1, a2, a3⟩ := call_ok e2
  have hs1 : stOf ws s1 = stOf ws s ∧ s1.log = s.log := by cases e1; exact ⟨rfl, rfl⟩
  have hs3 : stOf ws s3 = stOf ws s2 ∧ s3.log = s2.log ∧ s3.fp.mode = .train := by cases e3; exact ⟨rfl, rfl, rfl⟩
  have hs2 : stOf ws s2 = stOf ws s1 := by simp [stOf, a1, a3, hW.prim]
  obtain ⟨b1, b2, t, b3, b4⟩ := half trn _ _ e4 (by rw [hs3.2.2]; decide)
  rw [hs3.1, hs2, hs1.1, hs3.2.2] at b1 b4
  have hlog : s4.log = s.log ++ (.volMode true :: t) := by rw [b3, hs3.2.1, a2, hs1.2]; simp
  have hcount : ((.volMode true :: t : List (Act V))).countP isStep = if d.skip then 0 else ((.volMode true :: t : List (Act V))).countP isBack := by
    rw [List.countP_cons_of_neg (by simp [isStep]), List.countP_cons_of_neg (by simp [isBack])]
    exact b4
  cases val with
  | none =>
    cases e5
    exact ⟨b1, _, hlog, hcount⟩
  | some ps =>
    simp only at e5
    obtain ⟨s5, e6, h⟩ := seq_ok e5
    obtain ⟨s6, e7, e8⟩ := seq_ok h
    obtain ⟨d1, d2, d3⟩ := call_ok e6
    have hs6 : stOf ws s6 = stOf ws s5 ∧ s6.log = s5.log ∧ s6.fp.mode = .valid := by cases e7; exact ⟨rfl, rfl, rfl⟩
    have hs5 : stOf ws s5 = stOf ws s4 := by simp [stOf, d1, d3, hW.prim]
    obtain ⟨f1, f2, t', f3, f4⟩ := half ps _ _ e8 (by rw [hs6.2.2]; decide)
    rw [hs6.2.2, hs6.1, hs5, all_quiet .valid .epochBegin (by simp)] at f1 f4
    rw [all_quiet .valid .epochEnd (by simp)] at f1
    refine ⟨f1.trans b1, (.volMode true :: t) ++ (.volMode false :: t'), by rw [f3, hs6.2.1, d2, hlog]; simp, ?_⟩
    have hsk : (stOf ws s4).skip = d.skip := by rw [b1, epochEnd_skip]
    rw [hsk] at f4
    rw [List.countP_append, List.countP_append, hcount, List.countP_cons_of_neg (a := (.volMode false : Act V)) (by simp [isStep]),
      List.countP_cons_of_neg (a := (.volMode false : Act V)) (by simp [isBack]), f4]
    split <;> simp

/-- all epochs -/
theorem epochs_count (hW : Warms E cs ws) (c : Conf) (hc : c.nCb = cs.length) (trn : Passives V) (val : Option (Passives V)) (htrn : trn.len = trn.vols.length)
    (hval : ∀ v, val = some v → v.len = v.vols.length) (w0 : List Wu) (n e : Nat) (s s' : S W V P) (hs : stOf ws s = (before cs w0 e).2)
    (h : epochs E c trn val n s = (.ok (), s')) :
    ∃ ts : List (List (Act V)), s'.log = s.log ++ ts.flatten ∧ ts.length ≤ n ∧ ∀ j t, ts[j]? = some t →
      (∃ r, Spec.About trn.vols (val.map (·.vols)) r ∧ t = Spec.epoch (fitScan E c) val.isSome r) ∧
      t.countP isStep = if (during cs w0 (e + j)).2.skip then 0 else t.countP isBack := by
  induction n generalizing s e with
  | zero =>
    cases h
    exact ⟨[], by simp, by simp, by simp⟩
  | succ n ih =>
    unfold epochs at h
    obtain ⟨s1, e1, e2⟩ := seq_ok h
    obtain ⟨a1, t, a2, a3⟩ := epoch_count hW c hc trn val s s1 e1
    rw [hs, ← during_all] at a1 a3
    rw [← before_succ_all] at a1
    have hem := emits_fitEpoch E c trn val htrn hval s
    unfold Emits at hem
    rw [e1] at hem
    obtain ⟨t', b1, ⟨r, b2, b3⟩, -⟩ := hem
    have htt : t' = t := List.append_cancel_left (b1.symm.trans a2)
    subst htt
    by_cases hst : s1.fp.stop = true
    · simp only [hst, if_true] at e2
      cases e2
      refine ⟨[t'], by simpa using a2, by simp, ?_⟩
      intro j u hj
      cases j with
      | zero => simp at hj; subst hj; exact ⟨⟨r, b2, b3⟩, a3⟩
      | succ j => simp at hj
    · simp only [if_neg hst] at e2
      obtain ⟨ts, d1, d2, d3⟩ := ih (e + 1) s1 a1 e2
      refine ⟨t' :: ts, by rw [d1, a2]; simp, by simpa using d2, ?_⟩
      intro j u hj
      cases j with
      | zero => simp at hj; subst hj; exact ⟨⟨r, b2, b3⟩, a3⟩
      | succ j =>
        rw [List.getElem?_cons_succ] at hj
        have := d3 j u hj
        rwa [show e + 1 + j = e + (j + 1) by omega] at this

end Warmup

end

end Tomopt
