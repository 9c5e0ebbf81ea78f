import Verif.Lemmas.WarmupTune
import Verif.Props.C45_46
import Mathlib.Tactic.Ring
import Mathlib.Tactic.NormNum
import Mathlib.Tactic.FieldSimp

/- C84, C85: the cost coefficient and the learning rates that warm-ups set. Epochs are counted from 0. -/
namespace Tomopt

open Warmup Spec

noncomputable section

namespace C84

/-- the errors of the volumes that were predicted -/
def predicted (vs : List VolErr) : List ℝ := (vs.filter (·.1)).map (·.2)

/-- the errors of the training volumes predicted in the epochs from `a` to before `b` -/
def window (vols : Nat → List VolErr × List VolErr) (a b : Nat) : List ℝ := (List.range' a (b - a)).flatMap fun e => predicted (vols e).1

/-- the errors of all volumes predicted in the first `E` epochs, in training and in validation -/
def seen (vols : Nat → List VolErr × List VolErr) (E : Nat) : List ℝ := (List.range E).flatMap fun e => predicted (vols e).1 ++ predicted (vols e).2

/-- the coefficient given, or otherwise the first of some errors -/
def orFirst : Option XF → List ℝ → Option XF
  | some c, _ => some c
  | none, xs => xs.head?.map .num

theorem orFirst_append (c : Option XF) (xs ys : List ℝ) : orFirst (orFirst c xs) ys = orFirst c (xs ++ ys) := by
  cases c with
  | some c => rfl
  | none => cases xs <;> rfl

theorem predicted_cons (v : VolErr) (vs : List VolErr) : predicted (v :: vs) = predicted [v] ++ predicted vs := by
  unfold predicted
  cases h : v.1 <;> simp [h]

theorem loss_errors (v : VolErr) (c : Cost) : (c.loss v).errors = c.errors := by unfold Cost.loss; split <;> rfl

theorem loss_coef (v : VolErr) (c : Cost) : (c.loss v).coef = orFirst c.coef (predicted [v]) := by
  unfold Cost.loss predicted
  cases h : v.1 <;> cases hc : c.coef <;> simp [h, hc, orFirst]

theorem end_errors (a : Bool) (v : VolErr) (c : Cost) : (c.volumeEnd a v).errors = c.errors ++ if a then predicted [v] else [] := by
  unfold Cost.volumeEnd predicted
  cases a <;> cases h : v.1 <;> simp [h]

theorem end_coef (a : Bool) (v : VolErr) (c : Cost) : (c.volumeEnd a v).coef = c.coef := by
  unfold Cost.volumeEnd
  split
  · rfl
  · split <;> rfl

theorem train_fold (a : Bool) (vs : List VolErr) (c : Cost) :
    (vs.foldl (fun c v => (c.loss v).volumeEnd a v) c).errors = (c.errors ++ if a then predicted vs else []) ∧
    (vs.foldl (fun c v => (c.loss v).volumeEnd a v) c).coef = orFirst c.coef (predicted vs) := by
  induction vs generalizing c with
  | nil => cases a <;> cases c with | mk e o => cases o <;> simp [predicted, orFirst]
  | cons v vs ih =>
    rw [List.foldl_cons, (ih _).1, (ih _).2, end_errors, end_coef, loss_errors, loss_coef, orFirst_append, predicted_cons v vs]
    cases a <;> simp

theorem val_fold (vs : List VolErr) (c : Cost) :
    (vs.foldl (fun c v => c.loss v) c).errors = c.errors ∧ (vs.foldl (fun c v => c.loss v) c).coef = orFirst c.coef (predicted vs) := by
  induction vs generalizing c with
  | nil => cases c with | mk e o => cases o <;> simp [predicted, orFirst]
  | cons v vs ih => rw [List.foldl_cons, (ih _).1, (ih _).2, loss_errors, loss_coef, orFirst_append, predicted_cons v vs]; exact ⟨rfl, rfl⟩

theorem epoch_errors (w : Wu) (trn val : List VolErr) (c : Cost) : (c.epoch w trn val).errors = c.errors ++ if w.act then predicted trn else [] := by
  unfold Cost.epoch
  dsimp only
  rw [(val_fold _ _).1]
  have := (train_fold w.act trn c).1
  unfold Cost.epochEnd
  split
  · exact this
  · split <;> exact this

theorem epoch_coef (w : Wu) (trn val : List VolErr) (c : Cost) : (c.epoch w trn val).coef =
    if w.act = true ∧ w.n ≤ w.cnt + 1 then some (npMedian (c.epoch w trn val).errors) else orFirst c.coef (predicted trn ++ predicted val) := by
  by_cases h : w.act = true ∧ w.n ≤ w.cnt + 1
  · rw [if_pos h, epoch_errors]
    unfold Cost.epoch
    dsimp only
    rw [(val_fold _ _).2]
    unfold Cost.epochEnd
    rw [if_neg (by simp [h.1]), if_pos h.2, (train_fold w.act trn c).1]
    rfl
  · rw [if_neg h]
    unfold Cost.epoch
    dsimp only
    rw [(val_fold _ _).2]
    have : ∀ c : Cost, c.epochEnd w = c := by
      intro c
      unfold Cost.epochEnd
      split
      · rfl
      · next ha => rw [if_neg (by intro h2; exact h ⟨by simpa using ha, h2⟩)]
    rw [this, (train_fold w.act trn c).2, orFirst_append]

theorem window_succ (vols : Nat → List VolErr × List VolErr) (a b : Nat) (h : a ≤ b) : window vols a (b + 1) = window vols a b ++ predicted (vols b).1 := by
  unfold window
  rw [show b + 1 - a = (b - a) + 1 by omega, List.range'_concat, List.flatMap_append]
  simp [show a + (b - a) = b by omega]

theorem window_nil (vols : Nat → List VolErr × List VolErr) (a b : Nat) (h : b ≤ a) : window vols a b = [] := by
  unfold window
  rw [show b - a = 0 by omega]
  rfl

/-- what has been recorded after `E` epochs -/
theorem fit_errors (cs : List Cb) (ws : List Wu) (hl : Listed cs ws) (i : Nat) (hi : i < ws.length) (vols : Nat → List VolErr × List VolErr)
    (coef : Option XF) (E : Nat) : (Cost.fit cs ws i vols coef E).errors = window vols (from_ ws i) (min E (from_ ws (i + 1))) := by
  have hs := from_succ ws i hi
  induction E with
  | zero => rw [window_nil _ _ _ (by omega)]; rfl
  | succ E ih =>
    rw [Cost.fit, epoch_errors, ih, during_get cs ws hl _ _ hi]
    simp only [Option.getD_some]
    by_cases h1 : from_ ws i ≤ E
    · by_cases h2 : E < from_ ws (i + 1)
      · rw [if_pos (by simpa using ⟨h1, h2⟩), show min E (from_ ws (i + 1)) = E by omega, show min (E + 1) (from_ ws (i + 1)) = E + 1 by omega,
          window_succ _ _ _ h1]
      · rw [if_neg (by simp; omega), show min (E + 1) (from_ ws (i + 1)) = min E (from_ ws (i + 1)) by omega, List.append_nil]
    · rw [if_neg (by simp; omega), window_nil _ _ _ (by omega), window_nil _ _ _ (by omega)]
      rfl

/-- **C84: before.** Until the epochs of this warm-up are over (or if it asks for none), the coefficient is the one given before the fit, or otherwise the error
of the first volume that is predicted. -/
theorem not_yet (cs : List Cb) (ws : List Wu) (hl : Listed cs ws) (i : Nat) (hi : i < ws.length) (vols : Nat → List VolErr × List VolErr)
    (coef : Option XF) (E : Nat) (hE : E < from_ ws (i + 1) ∨ ws[i].n = 0) :
    (Cost.fit cs ws i vols coef E).coef = orFirst coef (seen vols E) := by
  have hs := from_succ ws i hi
  induction E with
  | zero => cases coef <;> rfl
  | succ E ih =>
    rw [Cost.fit, epoch_coef, ih (by omega), during_get cs ws hl _ _ hi]
    simp only [Option.getD_some]
    rw [if_neg, orFirst_append]
    · congr 1
      unfold seen
      rw [List.range_succ, List.flatMap_append]
      simp
    · simp only [decide_eq_true_eq]
      omega

/-- After its epochs the coefficient is numpy's median of what was recorded in them. -/
theorem set_value (cs : List Cb) (ws : List Wu) (hl : Listed cs ws) (i : Nat) (hi : i < ws.length) (hn : 0 < ws[i].n)
    (vols : Nat → List VolErr × List VolErr) (coef : Option XF) (E : Nat) (hE : from_ ws (i + 1) ≤ E) :
    (Cost.fit cs ws i vols coef E).coef = some (npMedian (window vols (from_ ws i) (from_ ws (i + 1)))) := by
  have hs := from_succ ws i hi
  induction E with
  | zero => omega
  | succ E ih =>
    have hw := fit_errors cs ws hl i hi vols coef (E + 1)
    rw [Cost.fit] at hw ⊢
    rw [epoch_coef, hw]
    rw [during_get cs ws hl _ _ hi] at hw ⊢
    simp only [Option.getD_some]
    by_cases h : from_ ws (i + 1) ≤ E
    · rw [if_neg (by simp only [decide_eq_true_eq]; omega), ih h]
      rfl
    · rw [if_pos (by simp only [decide_eq_true_eq]; omega), show min (E + 1) (from_ ws (i + 1)) = from_ ws (i + 1) by omega]

/-- **C84, what holds.** A warm-up for the cost coefficient that asks for at least one epoch, anywhere among other callbacks and whatever an earlier fit left:
once its epochs are over, and if at least one training volume was predicted in them, the coefficient is the median of the errors of exactly the training
volumes predicted in them, no matter what happens later and what the coefficient was. It lies between any bounds of those errors.
Missing: the case where no volume was predicted, see `nan_violated`. -/
theorem median_partial (cs : List Cb) (ws : List Wu) (hl : Listed cs ws) (i : Nat) (hi : i < ws.length) (hn : 0 < ws[i].n)
    (vols : Nat → List VolErr × List VolErr) (coef : Option XF) (E : Nat) (hE : totalWarm (ws.take (i + 1)) ≤ E)
    (hp : window vols (totalWarm (ws.take i)) (totalWarm (ws.take (i + 1))) ≠ []) :
    ∃ m, (Cost.fit cs ws i vols coef E).coef = some (.num m) ∧
      IsMedian m (window vols (totalWarm (ws.take i)) (totalWarm (ws.take (i + 1)))) ∧
      ∀ lo hi, (∀ x ∈ window vols (totalWarm (ws.take i)) (totalWarm (ws.take (i + 1))), lo ≤ x ∧ x ≤ hi) → lo ≤ m ∧ m ≤ hi := by
  obtain ⟨m, h1, h2⟩ := npMedian_spec _ hp
  refine ⟨m, ?_, h2, fun lo hi h => h2.bounds lo hi (fun x hx => (h x hx).1) fun x hx => (h x hx).2⟩
  rw [set_value cs ws hl i hi hn vols coef E hE]
  exact congrArg some h1

/-- **C84 (violated).** If no training volume was predicted in the epochs of the warm-up, the coefficient becomes NaN, even if it was a number before the
warm-up ended, and it stays NaN. -/
theorem nan_violated (cs : List Cb) (ws : List Wu) (hl : Listed cs ws) (i : Nat) (hi : i < ws.length) (hn : 0 < ws[i].n)
    (vols : Nat → List VolErr × List VolErr) (coef : Option XF) (E : Nat) (hE : totalWarm (ws.take (i + 1)) ≤ E)
    (hp : ∀ e, totalWarm (ws.take i) ≤ e → e < totalWarm (ws.take (i + 1)) → ∀ v ∈ (vols e).1, v.1 = false) :
    (Cost.fit cs ws i vols coef E).coef = some .nan := by
  rw [set_value cs ws hl i hi hn vols coef E hE]
  have : window vols (from_ ws i) (from_ ws (i + 1)) = [] := by
    unfold window
    rw [List.flatMap_eq_nil_iff]
    intro e he
    rw [List.mem_range'_1] at he
    unfold predicted
    rw [List.map_eq_nil_iff, List.filter_eq_nil_iff]
    intro v hv
    rw [hp e he.1 (by unfold totalWarm; change e < from_ ws (i + 1); omega) v hv]
    simp
  rw [this]
  simp [npMedian]

/-- two warm-ups; the second sets the coefficient from epoch 1, where the errors are 5 and 2 and 3 and one volume is not predicted -/
def demoVols (e : Nat) : List VolErr × List VolErr := if e = 1 then ([(true, 5), (false, 9), (true, 2), (true, 3)], [(true, 100)]) else ([(true, 50)], [])

def demoCs : List Cb := [.warm 0, .other, .warm 1]
def demoWs : List Wu := [⟨1, 0, false⟩, ⟨1, 0, false⟩]

example : Listed demoCs demoWs := by unfold Listed; decide

example : window demoVols (totalWarm (demoWs.take 1)) (totalWarm (demoWs.take 2)) = [5, 2, 3] := by
  simp [window, totalWarm, demoWs, demoVols, predicted, List.range'_succ]

/-- the median of 5, 2 and 3 is 3 -/
example : IsMedian 3 [5, 2, 3] := by
  refine ⟨by simp, [2, 3, 5], ?_, by norm_num, by norm_num⟩
  calc [2, 3, 5] |>.Perm ([2, 5, 3] : List ℝ) := (List.Perm.swap 5 3 []).cons 2
    _ |>.Perm [5, 2, 3] := List.Perm.swap 5 2 [3]

example : (Cost.fit demoCs demoWs 1 demoVols none 1).coef = some (.num 50) := by
  rw [not_yet demoCs demoWs (by unfold Listed; decide) 1 (by decide) demoVols none 1 (.inl (by decide))]
  simp [seen, demoVols, predicted, orFirst, List.range_succ]

end C84

namespace C85

/-- the sizes (without sign) of the entries that are not NaN, of all gradients of some batches -/
def sizes (bs : List (List Grad)) : List ℝ := bs.flatMap fun gs => gs.flatMap fun g => (g.getD []).filterMap fun x => x.map fun y => |y|

/-- the batches of the epochs from `a` to before `b` -/
def window (grads : Nat → List (List Grad)) (a b : Nat) : List (List Grad) := (List.range' a (b - a)).flatMap grads

/-- all gradients are present and have `d` entries -/
def Present (d : Nat) (bs : List (List Grad)) : Prop := ∀ gs ∈ bs, ∀ g ∈ gs, ∃ v, g = some v ∧ v.length = d

/-- all gradients recorded, with their signs removed -/
def recorded (bs : List (List Grad)) : List (List (Option ℝ)) := bs.flatMap fun gs => gs.map fun g => (g.getD []).map fun x => x.map fun y => |y|

theorem gradsAbs_ok (gs : List Grad) (h : ∀ g ∈ gs, ∃ v, g = some v) :
    gradsAbs gs = .ok (gs.map fun g => (g.getD []).map fun x => x.map fun y => |y|) := by
  induction gs with
  | nil => rfl
  | cons g gs ih =>
    obtain ⟨v, rfl⟩ := h g List.mem_cons_self
    rw [gradsAbs, gradAbs, ih fun g hg => h g (List.mem_cons_of_mem _ hg)]
    rfl

theorem batches_ok (bs : List (List Grad)) (h : ∀ gs ∈ bs, ∀ g ∈ gs, ∃ v, g = some v) (o : Opt) :
    o.batches true bs = .ok { o with stats := o.stats ++ recorded bs } := by
  induction bs generalizing o with
  | nil => simp [Opt.batches, recorded]
  | cons gs bs ih =>
    rw [Opt.batches, Opt.backEnd, if_neg (by simp), gradsAbs_ok gs (h gs List.mem_cons_self)]
    dsimp only
    rw [ih fun gs hg => h gs (List.mem_cons_of_mem _ hg)]
    simp [recorded]

theorem batches_idle (bs : List (List Grad)) (o : Opt) : o.batches false bs = .ok o := by
  induction bs with
  | nil => rfl
  | cons gs bs ih => rw [Opt.batches, Opt.backEnd, if_pos rfl]; exact ih

theorem recorded_append (a b : List (List Grad)) : recorded (a ++ b) = recorded a ++ recorded b := by simp [recorded]

theorem recorded_flat (bs : List (List Grad)) : (recorded bs).flatten.filterMap id = sizes bs := by
  induction bs with
  | nil => rfl
  | cons gs bs ih =>
    rw [show recorded (gs :: bs) = (gs.map fun g => (g.getD []).map fun x => x.map fun y => |y|) ++ recorded bs by simp [recorded],
      List.flatten_append, List.filterMap_append, ih, show sizes (gs :: bs) = (gs.flatMap fun g => (g.getD []).filterMap fun x => x.map fun y => |y|) ++ sizes bs by simp [sizes]]
    congr 1
    induction gs with
    | nil => rfl
    | cons g gs ih =>
      rw [List.map_cons, List.flatten_cons, List.filterMap_append, ih, List.flatMap_cons]
      congr 1
      generalize g.getD [] = l
      induction l with
      | nil => rfl
      | cons x l ih => cases x <;> simp_all

theorem recorded_same (d : Nat) (bs : List (List Grad)) (h : Present d bs) : ∀ a ∈ recorded bs, a.length = d := by
  intro a ha
  simp only [recorded, List.mem_flatMap, List.mem_map] at ha
  obtain ⟨gs, h1, g, h2, rfl⟩ := ha
  obtain ⟨v, rfl, hv⟩ := h gs h1 g h2
  simpa using hv

theorem window_succ (grads : Nat → List (List Grad)) (a b : Nat) (h : a ≤ b) : window grads a (b + 1) = window grads a b ++ grads b := by
  unfold window
  rw [show b + 1 - a = (b - a) + 1 by omega, List.range'_concat, List.flatMap_append]
  simp [show a + (b - a) = b by omega]

theorem window_nil (grads : Nat → List (List Grad)) (a b : Nat) (h : b ≤ a) : window grads a b = [] := by
  unfold window
  rw [show b - a = 0 by omega]
  rfl

theorem window_mem (grads : Nat → List (List Grad)) (a b e : Nat) (h1 : a ≤ e) (h2 : e < b) (gs : List Grad) (h : gs ∈ grads e) : gs ∈ window grads a b := by
  unfold window
  rw [List.mem_flatMap]
  exact ⟨e, List.mem_range'_1.mpr ⟨h1, by omega⟩, h⟩

/-- state after `E` epochs -/
theorem fit_state (rate : ℝ) (cs : List Cb) (ws : List Wu) (hl : Listed cs ws) (i : Nat) (hi : i < ws.length) (hn : 0 < ws[i].n)
    (grads : Nat → List (List Grad)) (lr : XF) (d : Nat) (hg : Present d (window grads (from_ ws i) (from_ ws (i + 1)))) (E : Nat) :
    Opt.fit rate cs ws i grads lr E = .ok ⟨recorded (window grads (from_ ws i) (min E (from_ ws (i + 1)))),
      if from_ ws (i + 1) ≤ E then rateOver rate (npMedian (sizes (window grads (from_ ws i) (from_ ws (i + 1))))) else lr⟩ := by
  have hs := from_succ ws i hi
  induction E with
  | zero => rw [window_nil _ _ _ (by omega), if_neg (by omega)]; rfl
  | succ E ih =>
    rw [Opt.fit, ih, during_get cs ws hl _ _ hi]
    simp only [Option.getD_some]
    by_cases h1 : from_ ws i ≤ E ∧ E < from_ ws (i + 1)
    · rw [decide_eq_true h1, batches_ok _ (fun gs hgs g hg' => by
        obtain ⟨v, hv, -⟩ := hg gs (window_mem _ _ _ _ h1.1 h1.2 _ hgs) g hg'
        exact ⟨v, hv⟩)]
      simp only
      rw [show min E (from_ ws (i + 1)) = E by omega, ← recorded_append, ← window_succ _ _ _ h1.1, show min (E + 1) (from_ ws (i + 1)) = E + 1 by omega]
      unfold Opt.epochEnd
      rw [if_neg (by simp)]
      simp only
      by_cases h2 : from_ ws (i + 1) ≤ E + 1
      · rw [if_pos (by omega), if_pos h2]
        obtain h3 : E + 1 = from_ ws (i + 1) := by omega
        rw [h3]
        unfold nanMedianStack
        have hr := recorded_same d _ hg
        rw [if_pos (by intro a ha b hb; rw [hr a ha, hr b hb])]
        simp only [npNanMedian, recorded_flat]
      · rw [if_neg (by omega), if_neg h2, if_neg (by omega)]
    · rw [decide_eq_false h1, batches_idle]
      simp only [Opt.epochEnd, if_true]
      by_cases h2 : from_ ws i ≤ E
      · rw [show min (E + 1) (from_ ws (i + 1)) = min E (from_ ws (i + 1)) by omega, if_pos (by omega), if_pos (by omega)]
      · rw [window_nil grads _ (min E _) (by omega), window_nil grads _ (min (E + 1) _) (by omega), if_neg (by omega), if_neg (by omega)]

/-- **C85, what holds.** A warm-up for the learning rate of an optimiser: if in every backward pass of its epochs all parameters get gradients (of the same shape),
then the fit does not fail because of it. Until its epochs are over the learning rate is the old one. Afterwards, if the median `m` of the sizes of all entries of
those gradients (without NaNs) is positive, the learning rate is such that a step along a gradient entry of size `m` moves the parameter by exactly the rate requested.
Missing: a median of zero, see `infinite_violated`; no gradients, see `raises_violated`; gradients of different sizes, see `shapes_violated`. -/
theorem rate_partial (rate : ℝ) (cs : List Cb) (ws : List Wu) (hl : Listed cs ws) (i : Nat) (hi : i < ws.length) (hn : 0 < ws[i].n)
    (grads : Nat → List (List Grad)) (lr : XF) (d : Nat) (hg : Present d (window grads (totalWarm (ws.take i)) (totalWarm (ws.take (i + 1))))) (E : Nat) :
    ∃ o, Opt.fit rate cs ws i grads lr E = .ok o ∧ (E < totalWarm (ws.take (i + 1)) → o.lr = lr) ∧
      (totalWarm (ws.take (i + 1)) ≤ E → sizes (window grads (totalWarm (ws.take i)) (totalWarm (ws.take (i + 1)))) ≠ [] →
        ∃ m, IsMedian m (sizes (window grads (totalWarm (ws.take i)) (totalWarm (ws.take (i + 1))))) ∧
          (m ≠ 0 → ∃ l, o.lr = .num l ∧ l * m = rate)) := by
  refine ⟨_, fit_state rate cs ws hl i hi hn grads lr d hg E, ?_, ?_⟩
  · intro h
    exact if_neg (by change E < from_ ws (i + 1) at h; omega)
  · intro h hne
    obtain ⟨m, h1, h2⟩ := npMedian_spec _ hne
    refine ⟨m, h2, fun h0 => ⟨rate / m, ?_, by field_simp⟩⟩
    show (if from_ ws (i + 1) ≤ E then _ else _) = _
    rw [if_pos (show from_ ws (i + 1) ≤ E from h)]
    change npMedian (sizes (window grads (from_ ws i) (from_ ws (i + 1)))) = _ at h1
    rw [h1]
    simp [rateOver, XF.quot, h0]

/-- **C85 (violated): infinite learning rate.** If the median of the gradients is zero — for instance if most panels are not hit by any muon — the learning rate
for a positive rate becomes infinite. -/
theorem infinite_violated (rate : ℝ) (hr : 0 < rate) (cs : List Cb) (ws : List Wu) (hl : Listed cs ws) (i : Nat) (hi : i < ws.length) (hn : 0 < ws[i].n)
    (grads : Nat → List (List Grad)) (lr : XF) (d : Nat) (hg : Present d (window grads (totalWarm (ws.take i)) (totalWarm (ws.take (i + 1))))) (E : Nat)
    (hE : totalWarm (ws.take (i + 1)) ≤ E) (hne : sizes (window grads (totalWarm (ws.take i)) (totalWarm (ws.take (i + 1)))) ≠ [])
    (h0 : ∀ m, IsMedian m (sizes (window grads (totalWarm (ws.take i)) (totalWarm (ws.take (i + 1))))) → m = 0) :
    ∃ o, Opt.fit rate cs ws i grads lr E = .ok o ∧ o.lr = .pinf := by
  refine ⟨_, fit_state rate cs ws hl i hi hn grads lr d hg E, ?_⟩
  obtain ⟨m, h1, h2⟩ := npMedian_spec _ hne
  show (if from_ ws (i + 1) ≤ E then _ else _) = _
  rw [if_pos (show from_ ws (i + 1) ≤ E from hE)]
  change npMedian (sizes (window grads (from_ ws i) (from_ ws (i + 1)))) = _ at h1
  rw [h1, h0 m h2]
  simp only [rateOver, XF.quot]
  rw [if_neg (by simp), if_pos hr]

theorem gradsAbs_none (gs : List Grad) (h : none ∈ gs) : gradsAbs gs = .error .attributeError := by
  induction gs with
  | nil => simp at h
  | cons g gs ih =>
    cases g with
    | none => rfl
    | some v =>
      have h' : none ∈ gs := by simpa using h
      rw [gradsAbs, gradAbs, ih h']

theorem batches_none (bs : List (List Grad)) (h : ∃ gs ∈ bs, none ∈ gs) (o : Opt) : o.batches true bs = .error .attributeError := by
  induction bs generalizing o with
  | nil => simp at h
  | cons gs bs ih =>
    rw [Opt.batches, Opt.backEnd, if_neg (by simp)]
    by_cases hg : none ∈ gs
    · rw [gradsAbs_none gs hg]
    · obtain ⟨gs', h1, h2⟩ := h
      have h3 : ∃ gs ∈ bs, none ∈ gs := by
        rcases List.mem_cons.mp h1 with rfl | h1
        · exact absurd h2 hg
        · exact ⟨gs', h1, h2⟩
      have hgs : ∃ as, gradsAbs gs = .ok as := by
        clear ih h1 h2 h3
        induction gs with
        | nil => exact ⟨_, rfl⟩
        | cons g gs ih =>
          cases g with
          | none => simp at hg
          | some v =>
            obtain ⟨as, ha⟩ := ih (by simpa using hg)
            exact ⟨_, by rw [gradsAbs, gradAbs, ha]⟩
      obtain ⟨as, ha⟩ := hgs
      rw [ha]
      exact ih h3 _

/-- **C85 (violated): failing fit.** If in some backward pass of the first epoch of the warm-up a parameter gets no gradient — for instance because no volume of the
batch was predicted — the fit raises `AttributeError`. -/
theorem raises_violated (rate : ℝ) (cs : List Cb) (ws : List Wu) (hl : Listed cs ws) (i : Nat) (hi : i < ws.length) (hn : 0 < ws[i].n)
    (grads : Nat → List (List Grad)) (lr : XF) (hg : ∃ gs ∈ grads (totalWarm (ws.take i)), none ∈ gs) (E : Nat) (hE : totalWarm (ws.take i) < E) :
    Opt.fit rate cs ws i grads lr E = .error .attributeError := by
  have hs := from_succ ws i hi
  have idle : ∀ E ≤ from_ ws i, Opt.fit rate cs ws i grads lr E = .ok ⟨[], lr⟩ := by
    intro E hE
    induction E with
    | zero => rfl
    | succ E ih =>
      rw [Opt.fit, ih (by omega), during_get cs ws hl _ _ hi]
      simp only [Option.getD_some]
      rw [decide_eq_false (by omega), batches_idle]
      simp [Opt.epochEnd]
  change from_ ws i < E at hE
  change ∃ gs ∈ grads (from_ ws i), none ∈ gs at hg
  obtain ⟨k, rfl⟩ : ∃ k, E = from_ ws i + 1 + k := ⟨E - (from_ ws i + 1), by omega⟩
  clear hE
  induction k with
  | zero =>
    rw [Nat.add_zero, Opt.fit, idle _ (Nat.le_refl _), during_get cs ws hl _ _ hi]
    simp only [Option.getD_some]
    rw [decide_eq_true (by omega), batches_none _ hg]
  | succ k ih => rw [← Nat.add_assoc, Opt.fit, ih]

/-- state before the warm-up ends -/
theorem fit_before (rate : ℝ) (cs : List Cb) (ws : List Wu) (hl : Listed cs ws) (i : Nat) (hi : i < ws.length)
    (grads : Nat → List (List Grad)) (lr : XF) (hg : ∀ gs ∈ window grads (from_ ws i) (from_ ws (i + 1)), ∀ g ∈ gs, ∃ v, g = some v) (E : Nat) (hE : E < from_ ws (i + 1)) :
    Opt.fit rate cs ws i grads lr E = .ok ⟨recorded (window grads (from_ ws i) E), lr⟩ := by
  have hs := from_succ ws i hi
  induction E with
  | zero => rw [window_nil _ _ _ (by omega)]; rfl
  | succ E ih =>
    rw [Opt.fit, ih (by omega), during_get cs ws hl _ _ hi]
    simp only [Option.getD_some]
    by_cases h1 : from_ ws i ≤ E
    · rw [decide_eq_true ⟨h1, by omega⟩, batches_ok _ (fun gs hgs => hg gs (window_mem _ _ _ _ h1 (by omega) _ hgs))]
      simp only
      rw [← recorded_append, ← window_succ _ _ _ h1]
      unfold Opt.epochEnd
      rw [if_neg (by simp), if_neg (by dsimp only; omega)]
    · rw [decide_eq_false (by omega), batches_idle]
      simp only [Opt.epochEnd, if_true]
      rw [window_nil grads _ E (by omega), window_nil grads _ (E + 1) (by omega)]

/-- **C85 (violated): parameters of different sizes.** If all parameters get gradients but two of those recorded differ in size — for instance heat maps with different
numbers of Gaussians — the fit raises `ValueError` at the end of the warm-up. -/
theorem shapes_violated (rate : ℝ) (cs : List Cb) (ws : List Wu) (hl : Listed cs ws) (i : Nat) (hi : i < ws.length) (hn : 0 < ws[i].n)
    (grads : Nat → List (List Grad)) (lr : XF)
    (hg : ∀ gs ∈ window grads (totalWarm (ws.take i)) (totalWarm (ws.take (i + 1))), ∀ g ∈ gs, ∃ v, g = some v)
    (hd : ∃ gs ∈ window grads (totalWarm (ws.take i)) (totalWarm (ws.take (i + 1))), ∃ gs' ∈ window grads (totalWarm (ws.take i)) (totalWarm (ws.take (i + 1))),
      ∃ v v', some v ∈ gs ∧ some v' ∈ gs' ∧ v.length ≠ v'.length)
    (E : Nat) (hE : totalWarm (ws.take (i + 1)) ≤ E) : Opt.fit rate cs ws i grads lr E = .error .valueError := by
  have hs := from_succ ws i hi
  change from_ ws (i + 1) ≤ E at hE
  change ∀ gs ∈ window grads (from_ ws i) (from_ ws (i + 1)), ∀ g ∈ gs, ∃ v, g = some v at hg
  obtain ⟨k, rfl⟩ : ∃ k, E = from_ ws (i + 1) + k := ⟨E - from_ ws (i + 1), by omega⟩
  clear hE
  induction k with
  | zero =>
    obtain ⟨n, hn'⟩ : ∃ n, from_ ws (i + 1) = n + 1 := ⟨from_ ws (i + 1) - 1, by omega⟩
    rw [Nat.add_zero, hn', Opt.fit, fit_before rate cs ws hl i hi grads lr hg n (by omega), during_get cs ws hl _ _ hi]
    simp only [Option.getD_some]
    rw [decide_eq_true ⟨by omega, by omega⟩, batches_ok _ (fun gs hgs => hg gs (window_mem _ _ _ _ (by omega) (by omega) _ hgs))]
    simp only
    rw [← recorded_append, ← window_succ _ _ _ (by omega), ← hn']
    unfold Opt.epochEnd
    rw [if_neg (by simp), if_pos (by dsimp only; omega)]
    unfold nanMedianStack
    rw [if_neg]
    intro hall
    obtain ⟨gs, h1, gs', h2, v, v', h3, h4, hne⟩ := hd
    have hm : ∀ gs ∈ window grads (from_ ws i) (from_ ws (i + 1)), ∀ v, some v ∈ gs →
        v.map (fun x => x.map fun y => |y|) ∈ recorded (window grads (from_ ws i) (from_ ws (i + 1))) := by
      intro gs hgs v hv
      simp only [recorded, List.mem_flatMap, List.mem_map]
      exact ⟨gs, hgs, _, hv, rfl⟩
    have := hall _ (hm gs h1 v h3) _ (hm gs' h2 v' h4)
    simp only [List.length_map] at this
    exact hne this
  | succ k ih => rw [← Nat.add_assoc, Opt.fit, ih]

/-- two parameters with one and two entries -/
example : ∃ gs ∈ window (fun _ => [[some [some 1], some [some 1, some 2]]]) 0 1, ∃ gs' ∈ window (fun _ => [[some [some 1], some [some 1, some 2]]]) 0 1,
    ∃ v v', some v ∈ gs ∧ some v' ∈ gs' ∧ v.length ≠ v'.length :=
  ⟨[some [some 1], some [some 1, some 2]], by simp [window], [some [some 1], some [some 1, some 2]], by simp [window], [some 1], [some 1, some 2], by simp, by simp, by simp⟩

/-- one epoch of warm-up, one batch with two parameters of two entries: the sizes are 3, 1, 1 and a NaN -/
def demoGrads (_ : Nat) : List (List Grad) := [[some [some (-3), some 1], some [none, some (-1)]]]

example : Present 2 (window demoGrads 0 1) := by
  simp [window, demoGrads, Present]

example : sizes (window demoGrads 0 1) = [3, 1, 1] := by
  simp [window, demoGrads, sizes]

example : Listed [Cb.warm 0] [⟨1, 0, false⟩] := by unfold Listed; decide

/-- gradients that are all zero -/
example : Present 1 (window (fun _ => [[some [some 0]]]) 0 1) ∧ ∀ m, IsMedian m (sizes (window (fun _ => [[some [some 0]]]) 0 1)) → m = 0 := by
  constructor
  · simp [window, Present]
  · intro m h
    have := h.bounds 0 0 (by simp [window, sizes]) (by simp [window, sizes])
    linarith [this.1, this.2]

end C85

end

end Tomopt
