import Verif.Model.PredHandlers
import Verif.Lemmas.Observe

/- The prediction loop with a handler. -/
namespace Tomopt

noncomputable section

namespace C81

open Fit Handler

variable {W V P T : Type} {E : Env W V P} {k : Nat} {ph : W → PH P T} {vol : W → Except Err T} {targ : V → Except Err T} {hist : W → List (Option P)}
  {adj : Nat → Option P → Option P}

/-- what the handler can see does not change -/
structure Same (ph : W → PH P T) (vol : W → Except Err T) (hist : W → List (Option P)) (s s' : S W V P) : Prop where
  mode : s'.fp.mode = s.fp.mode
  pred : s'.fp.pred = s.fp.pred
  ph : ph s'.w = ph s.w
  vol : vol s'.w = vol s.w
  hist : hist s'.w = hist s.w

theorem Same.refl (s : S W V P) : Same ph vol hist s s := ⟨rfl, rfl, rfl, rfl, rfl⟩

theorem Same.trans {a b d : S W V P} (h : Same ph vol hist a b) (h' : Same ph vol hist b d) : Same ph vol hist a d :=
  ⟨h'.mode.trans h.mode, h'.pred.trans h.pred, h'.ph.trans h.ph, h'.vol.trans h.vol, h'.hist.trans h.hist⟩

/-- a program after which, if it ends normally, nothing has changed -/
def Still (ph : W → PH P T) (vol : W → Except Err T) (hist : W → List (Option P)) (m : Prog W V P) : Prop := ∀ s s', m s = (.ok (), s') → Same ph vol hist s s'

theorem still_seq {m n : Prog W V P} (h1 : Still ph vol hist m) (h2 : Still ph vol hist n) : Still ph vol hist (m ;; n) := by
  intro s s' h
  obtain ⟨s1, e1, e2⟩ := seq_ok h
  exact (h1 _ _ e1).trans (h2 _ _ e2)

theorem still_nop : Still ph vol hist (nop : Prog W V P) := by
  intro s s' h
  cases h
  exact Same.refl _

theorem still_raise (e : Err) : Still ph vol hist (raise e : Prog W V P) := by
  intro s s' h
  cases h

theorem still_each {α : Type} (l : List α) (g : α → Prog W V P) (h : ∀ a, Still ph vol hist (g a)) : Still ph vol hist (each l g) := by
  induction l with
  | nil => exact still_nop
  | cons a l ih => exact still_seq (h a) ih

theorem callCb_ok {i : Nat} {e : Ev} {s s' : S W V P} (h : callCb E i e s = (.ok (), s')) : (E.cb i e s.fp s.w).1 = .ok () ∧ s'.w = (E.cb i e s.fp s.w).2.2 ∧
    s'.fp.mode = s.fp.mode ∧ s'.fp.pred = (E.cb i e s.fp s.w).2.1.pred := by
  unfold callCb seq note at h
  simp only [Prod.mk.injEq] at h
  obtain ⟨h1, h2⟩ := h
  subst h2
  exact ⟨h1, rfl, rfl, rfl⟩

theorem step_quiet {e : Ev} (h1 : e ≠ .predBegin) (h2 : e ≠ .x0PredEnd) (m : Mode) (p : Option P) (t : Except Err T) (x : PH P T) : x.step e m p t = .ok x := by
  cases e <;> simp_all [PH.step]

theorem still_cbs (hW : Handles E k ph vol targ hist adj) (c : Conf) (e : Ev) (h1 : e ≠ .predBegin) (h2 : e ≠ .x0PredEnd) : Still ph vol hist (cbs E c e) := by
  refine still_each _ _ fun i s s' h => ?_
  obtain ⟨a, b, d, f⟩ := callCb_ok h
  refine ⟨d, by rw [f, hW.pred, if_neg (by tauto)], ?_, by rw [b, hW.cbVol], by rw [b, hW.cbHist]⟩
  rw [b]
  by_cases hi : i = k
  · subst hi
    have := hW.self e s.fp s.w
    rw [step_quiet h1 h2] at this
    exact this.2
  · exact hW.other i e _ _ hi

theorem still_call (hW : Handles E k ph vol targ hist adj) (a : Act V) (ha : ∀ v, a ≠ .load v) : Still ph vol hist (call E a) := by
  intro s s' h
  unfold call seq note at h
  simp only [Prod.mk.injEq] at h
  obtain ⟨h1, h2⟩ := h
  subst h2
  exact ⟨rfl, rfl, hW.primPh _ _ _, hW.primVol _ _ _ ha, hW.primHist _ _ _⟩

theorem each_append {α : Type} (l l' : List α) (g : α → Prog W V P) : each (l ++ l') g = (each l g ;; each l' g) := by
  induction l with
  | nil => rfl
  | cons a l ih => rw [List.cons_append, each, ih, each, seq_assoc]

/-- the prediction as changed by the first `n` callbacks -/
def adjusted (adj : Nat → Option P → Option P) (n : Nat) (p : Option P) : Option P := (List.range n).foldl (fun p i => adj i p) p

theorem others_pred (hW : Handles E k ph vol targ hist adj) (n : Nat) (hn : n ≤ k) (s s' : S W V P)
    (h : each (List.range n) (fun i => callCb E i .x0PredEnd) s = (.ok (), s')) :
    s'.fp.mode = s.fp.mode ∧ s'.fp.pred = adjusted adj n s.fp.pred ∧ ph s'.w = ph s.w ∧ vol s'.w = vol s.w ∧ hist s'.w = hist s.w := by
  induction n generalizing s' with
  | zero => cases h; exact ⟨rfl, rfl, rfl, rfl, rfl⟩
  | succ n ih =>
    rw [List.range_succ, each_append] at h
    obtain ⟨s1, e1, e2⟩ := seq_ok h
    obtain ⟨a, b, d, f, g⟩ := ih (by omega) s1 e1
    rw [each, each] at e2
    obtain ⟨s2, e3, e4⟩ := seq_ok e2
    cases e4
    obtain ⟨a', b', d', f'⟩ := callCb_ok e3
    refine ⟨d'.trans a, ?_, ?_, ?_, ?_⟩
    · rw [f', hW.pred, if_pos ⟨rfl, by omega⟩, b]
      unfold adjusted
      rw [List.range_succ, List.foldl_append]
      rfl
    · rw [b', hW.other n _ _ _ (by omega), d]
    · rw [b', hW.cbVol, f]
    · rw [b', hW.cbHist, g]

theorem handle_pred (hW : Handles E k ph vol targ hist adj) (c : Conf) (hc : c.nCb = k + 1) (s s' : S W V P) (h : cbs E c .x0PredEnd s = (.ok (), s')) :
    s'.fp.mode = s.fp.mode ∧ (ph s.w).take s.fp.mode (adjusted adj k s.fp.pred) (vol s.w) = .ok (ph s'.w) ∧ hist s'.w = hist s.w := by
  unfold cbs at h
  rw [hc, List.range_succ, each_append] at h
  obtain ⟨s1, e1, e2⟩ := seq_ok h
  obtain ⟨a, b, d, f, g⟩ := others_pred hW k le_rfl _ _ e1
  rw [each, each] at e2
  obtain ⟨s2, e3, e4⟩ := seq_ok e2
  cases e4
  obtain ⟨a', b', d', f'⟩ := callCb_ok e3
  refine ⟨d'.trans a, ?_, by rw [b', hW.cbHist, g]⟩
  have hs := hW.self .x0PredEnd s1.fp s1.w
  simp only [PH.step] at hs
  rw [← a, ← b, ← d, ← f]
  cases ht : (ph s1.w).take s1.fp.mode s1.fp.pred (vol s1.w) with
  | error x => rw [ht] at hs; rw [hs.1] at a'; cases a'
  | ok x => rw [ht] at hs; rw [b', hs.2]

theorem still_muBatch (hW : Handles E k ph vol targ hist adj) (c : Conf) : Still ph vol hist (muBatch E c) := by
  have q : ∀ a : Act V, (∀ v, a ≠ .load v) → Still ph vol hist (call E a) := fun a => still_call hW a
  have cb : ∀ e, e ≠ .predBegin → e ≠ .x0PredEnd → Still ph vol hist (cbs E c e) := fun e => still_cbs hW c e
  unfold muBatch
  exact still_seq (q _ (by simp)) (still_seq (cb _ (by simp) (by simp)) (still_seq (q _ (by simp)) (still_seq (q _ (by simp)) (still_seq (cb _ (by simp) (by simp))
    (still_seq (q _ (by simp)) (cb _ (by simp) (by simp)))))))

theorem getPred_ok (hW : Handles E k ph vol targ hist adj) (s s' : S W V P) (h : getPred E s = (.ok (), s')) :
    s'.fp.mode = s.fp.mode ∧ ph s'.w = ph s.w ∧ vol s'.w = vol s.w ∧ hist s'.w = hist s.w ++ [s'.fp.pred] := by
  unfold getPred seq note at h
  simp only at h
  rcases hp : E.pred s.fp s.w with ⟨r, w⟩
  have h1 := hW.inferPh s.fp s.w
  have h2 := hW.inferVol s.fp s.w
  have h3 := hW.inferHist s.fp s.w
  rw [hp] at h h1 h2 h3
  cases r with
  | error e => simp at h
  | ok p =>
    simp only [Prod.mk.injEq, true_and] at h
    subst h
    exact ⟨rfl, h1, h2, h3 p rfl⟩

theorem addLoss_test (s s' : S W V P) (hs : s.fp.mode = .test) (h : addLoss E s = (.ok (), s')) : s'.fp = s.fp ∧ s'.w = s.w := by
  unfold addLoss seq note at h
  rw [if_neg (by simp [hs])] at h
  cases h
  exact ⟨rfl, rfl⟩

theorem volume_ok (hW : Handles E k ph vol targ hist adj) (c : Conf) (hc : c.nCb = k + 1) (v : V) (s s' : S W V P) (hs : s.fp.mode = .test)
    (h : oneVolume E c v s = (.ok (), s')) :
    ∃ p, s'.fp.mode = .test ∧ hist s'.w = hist s.w ++ [p] ∧ (ph s.w).take .test (adjusted adj k p) (targ v) = .ok (ph s'.w) := by
  have cb : ∀ e, e ≠ .predBegin → e ≠ .x0PredEnd → Still ph vol hist (cbs E c e) := fun e => still_cbs hW c e
  unfold oneVolume at h
  obtain ⟨s1, e1, h⟩ := seq_ok h
  obtain ⟨s2, e2, h⟩ := seq_ok h
  obtain ⟨s3, e3, e4⟩ := seq_ok h
  unfold scanVolume at e3
  obtain ⟨t1, f1, e3⟩ := seq_ok e3
  obtain ⟨t2, f2, e3⟩ := seq_ok e3
  obtain ⟨t3, f3, e3⟩ := seq_ok e3
  obtain ⟨t4, f4, e3⟩ := seq_ok e3
  obtain ⟨t5, f5, e3⟩ := seq_ok e3
  obtain ⟨t6, f6, e3⟩ := seq_ok e3
  obtain ⟨t7, f7, f8⟩ := seq_ok e3
  -- loading
  have hl : s1.fp = s.fp ∧ vol s1.w = targ v ∧ ph s1.w = ph s.w ∧ hist s1.w = hist s.w := by
    unfold call seq note at e1
    simp only [Prod.mk.injEq] at e1
    obtain ⟨g1, g2⟩ := e1
    subst g2
    exact ⟨rfl, hW.load _ _ _ g1, hW.primPh _ _ _, hW.primHist _ _ _⟩
  have h2 := cb _ (by simp) (by simp) _ _ e2
  have g1 : t1.fp.mode = s2.fp.mode ∧ t1.w = s2.w := by cases f1; exact ⟨rfl, rfl⟩
  have g2 : t2 = t1 := by
    split at f2
    · cases f2
    · cases f2; rfl
  subst g2
  have g3 := still_call hW _ (by simp) _ _ f3
  have g4 := still_each _ _ (fun _ : Nat => still_muBatch hW c) _ _ f4
  have g5 := cb _ (by simp) (by simp) _ _ f5
  obtain ⟨g6m, g6p, g6v, g6h⟩ := getPred_ok hW _ _ f6
  obtain ⟨g7m, g7t, g7h⟩ := handle_pred hW c hc _ _ f7
  have hm5 : t5.fp.mode = .test := by rw [g5.mode, g4.mode, g3.mode, g1.1, h2.mode, hl.1, hs]
  obtain ⟨g8f, g8w⟩ := addLoss_test _ _ (by rw [g7m, g6m, hm5]) f8
  have g9 := cb _ (by simp) (by simp) _ _ e4
  refine ⟨t6.fp.pred, by rw [g9.mode, g8f, g7m, g6m, hm5], ?_, ?_⟩
  · rw [g9.hist, g8w, g7h, g6h, g5.hist, g4.hist, g3.hist, g1.2, h2.hist, hl.2.2.2]
  · rw [g9.ph, g8w, ← g7t, g6m, hm5, g6p, g6v, g5.ph, g5.vol, g4.ph, g4.vol, g3.ph, g3.vol, g1.2, h2.ph, h2.vol, hl.2.1, hl.2.2.1]

theorem take_ok {p : Option P} {t : Except Err T} {x y : PH P T} (h : x.take .test p t = .ok y) :
    ∃ q u a, p = some q ∧ t = .ok u ∧ x.cur = some a ∧ y = { x with cells := x.cells.modify a fun l => l ++ [(q, u)] } := by
  unfold PH.take at h
  rw [if_pos rfl] at h
  cases t with
  | error e => cases h
  | ok u =>
    cases p with
    | none => cases h
    | some q =>
      cases ha : x.cur with
      | none => rw [ha] at h; cases h
      | some a => rw [ha] at h; cases h; exact ⟨q, u, a, rfl, rfl, rfl, rfl⟩

theorem modify_modify {α : Type} (l : List α) (a : Nat) (f g : α → α) : (l.modify a f).modify a g = l.modify a (g ∘ f) := by
  apply List.ext_getElem? 
  intro i
  simp only [List.getElem?_modify]
  split <;> simp [Function.comp_def]

theorem modify_id {α : Type} (l : List α) (a : Nat) (f : α → α) (hf : ∀ x, f x = x) : l.modify a f = l := by
  apply List.ext_getElem?
  intro i
  simp only [List.getElem?_modify]
  split <;> simp [hf]

theorem scan_ok (hW : Handles E k ph vol targ hist adj) (c : Conf) (hc : c.nCb = k + 1) (len : Nat) (vs : List V) (i : Nat) (s s' : S W V P) (hs : s.fp.mode = .test)
    (a : Nat) (ha : (ph s.w).cur = some a) (h : scanFrom E c len i vs s = (.ok (), s')) :
    ∃ (new : List (Option P)) (rs : List (P × T)), s'.fp.mode = .test ∧ hist s'.w = hist s.w ++ new ∧ new.map (adjusted adj k) = rs.map (fun x => some x.1) ∧
      vs.map targ = rs.map (fun x => .ok x.2) ∧ ph s'.w = { ph s.w with cells := (ph s.w).cells.modify a fun l => l ++ rs } := by
  induction vs generalizing i s with
  | nil =>
    cases h
    refine ⟨[], [], hs, by simp, rfl, rfl, ?_⟩
    rw [modify_id _ _ _ (by simp)]
  | cons v vs ih =>
    unfold scanFrom at h
    obtain ⟨s1, e1, h⟩ := seq_ok h
    obtain ⟨s2, e2, h⟩ := seq_ok h
    obtain ⟨s3, e3, e4⟩ := seq_ok h
    have g1 : s1.fp.mode = .test ∧ s1.w = s.w := by cases e1; exact ⟨hs, rfl⟩
    have g2 : s2 = s1 := by
      unfold batchBegin at e2
      rw [if_pos g1.1] at e2
      cases e2
      rfl
    subst g2
    obtain ⟨p, hm, hh, ht⟩ := volume_ok hW c hc v _ _ g1.1 e3
    rw [g1.2] at hh ht
    obtain ⟨q, u, b, hq, hu, hb, hy⟩ := take_ok ht
    have hab : b = a := by rw [ha] at hb; exact (Option.some.inj hb).symm
    subst hab
    rw [if_neg (by simp [hm])] at e4
    obtain ⟨new, rs, i1, i2, i3, i4, i5⟩ := ih (i + 1) s3 hm (by rw [hy]; exact hb) e4
    refine ⟨p :: new, (q, u) :: rs, i1, by rw [i2, hh]; simp, by simp [hq, i3], by simp [hu, i4], ?_⟩
    rw [i5, hy]
    simp only [modify_modify]
    congr 2
    funext l
    simp

theorem begin_ok (hW : Handles E k ph vol targ hist adj) (c : Conf) (hc : c.nCb = k + 1) (s s' : S W V P) (h : cbs E c .predBegin s = (.ok (), s')) :
    s'.fp.mode = s.fp.mode ∧ ph s'.w = (ph s.w).begin_ ∧ hist s'.w = hist s.w := by
  have key : ∀ n ≤ k, ∀ s', each (List.range n) (fun i => callCb E i .predBegin) s = (.ok (), s') →
      s'.fp.mode = s.fp.mode ∧ ph s'.w = ph s.w ∧ hist s'.w = hist s.w := by
    intro n
    induction n with
    | zero => intro _ s' h; cases h; exact ⟨rfl, rfl, rfl⟩
    | succ n ih =>
      intro hn s' h
      rw [List.range_succ, each_append] at h
      obtain ⟨s1, e1, e2⟩ := seq_ok h
      obtain ⟨a, b, d⟩ := ih (by omega) s1 e1
      rw [each, each] at e2
      obtain ⟨s2, e3, e4⟩ := seq_ok e2
      cases e4
      obtain ⟨a', b', d', f'⟩ := callCb_ok e3
      exact ⟨d'.trans a, by rw [b', hW.other n _ _ _ (by omega), b], by rw [b', hW.cbHist, d]⟩
  unfold cbs at h
  rw [hc, List.range_succ, each_append] at h
  obtain ⟨s1, e1, e2⟩ := seq_ok h
  obtain ⟨a, b, d⟩ := key k le_rfl _ e1
  rw [each, each] at e2
  obtain ⟨s2, e3, e4⟩ := seq_ok e2
  cases e4
  obtain ⟨a', b', d', f'⟩ := callCb_ok e3
  have hs := hW.self .predBegin s1.fp s1.w
  simp only [PH.step] at hs
  exact ⟨d'.trans a, by rw [b', hs.2, b], by rw [b', hW.cbHist, d]⟩

end C81

end

end Tomopt
