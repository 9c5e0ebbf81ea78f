import Verif.Spec.Infer
import Verif.Lemmas.ScatterBatch
import Mathlib.Tactic.Ring
import Mathlib.Tactic.Linarith
import Mathlib.Algebra.BigOperators.Group.List.Basic
import Mathlib.Algebra.Order.BigOperators.Group.List

/- Helper lemmas for X0 inference. -/
namespace Tomopt

noncomputable section

open Infer

/-! ### Efficiency -/

/-- no panel fires -/
def pNone : List ℝ → ℝ
  | [] => 1
  | e :: es => (1 - e) * pNone es

/-- exactly one panel fires -/
def pOne : List ℝ → ℝ
  | [] => 0
  | e :: es => e * pNone es + (1 - e) * pOne es

/-- at least two fire -/
def pTwo : List ℝ → ℝ
  | [] => 0
  | e :: es => e * (1 - pNone es) + (1 - e) * pTwo es

theorem p_total : ∀ es, pNone es + pOne es + pTwo es = 1
  | [] => by simp [pNone, pOne, pTwo]
  | e :: es => by
    have := p_total es
    simp only [pNone, pOne, pTwo]
    have h : pTwo es = 1 - pNone es - pOne es := by linarith
    rw [h]; ring

/-- the sum over the patterns with a property -/
def sumWhere (es : List ℝ) (p : List Bool → Bool) : ℝ := (((outcomes es.length).filter p).map (patternProb es)).sum

theorem sum_map_mul_left' (c : ℝ) (f : List Bool → ℝ) (l : List (List Bool)) : (l.map fun x => c * f x).sum = c * (l.map f).sum := by
  induction l with
  | nil => simp
  | cons a l ih => simp [ih, mul_add]

theorem sumWhere_cons (e : ℝ) (es : List ℝ) (p : List Bool → Bool) :
    sumWhere (e :: es) p = e * sumWhere es (fun o => p (true :: o)) + (1 - e) * sumWhere es (fun o => p (false :: o)) := by
  unfold sumWhere
  simp only [List.length_cons, outcomes, List.filter_append, List.map_append, List.sum_append, List.filter_map, List.map_map]
  congr 1
  · rw [← sum_map_mul_left']; rfl
  · rw [← sum_map_mul_left']; rfl

theorem sumWhere_all : ∀ es, sumWhere es (fun _ => true) = 1
  | [] => by simp [sumWhere, outcomes, patternProb]
  | e :: es => by rw [sumWhere_cons, sumWhere_all es]; ring

theorem sumWhere_pos : ∀ es, sumWhere es (fun o => decide (1 ≤ countTrue o)) = 1 - pNone es
  | [] => by simp [sumWhere, outcomes, pNone, countTrue]
  | e :: es => by
    rw [sumWhere_cons]
    have h1 : (fun o : List Bool => decide (1 ≤ countTrue (true :: o))) = fun _ => true := by
      funext o; simp [countTrue]
    have h2 : (fun o : List Bool => decide (1 ≤ countTrue (false :: o))) = fun o => decide (1 ≤ countTrue o) := by
      funext o; exact decide_eq_decide.mpr (by simp [countTrue])
    rw [h1, h2, sumWhere_all, sumWhere_pos es, pNone]; ring

theorem sumWhere_two : ∀ es, sumWhere es (fun o => decide (2 ≤ countTrue o)) = pTwo es
  | [] => by simp [sumWhere, outcomes, pTwo, countTrue]
  | e :: es => by
    rw [sumWhere_cons]
    have h1 : (fun o : List Bool => decide (2 ≤ countTrue (true :: o))) = fun o => decide (1 ≤ countTrue o) := by
      funext o; exact decide_eq_decide.mpr (by simp [countTrue])
    have h2 : (fun o : List Bool => decide (2 ≤ countTrue (false :: o))) = fun o => decide (2 ≤ countTrue o) := by
      funext o; exact decide_eq_decide.mpr (by simp [countTrue])
    rw [h1, h2, sumWhere_pos, sumWhere_two es, pTwo]

theorem probTwoOrMore_eq (es : List ℝ) : probTwoOrMore es = pTwo es := sumWhere_two es

theorem combinations_map {β γ : Type} (f : β → γ) : ∀ (r : Nat) (l : List β), combinations r (l.map f) = (combinations r l).map (List.map f)
  | 0, l => by simp [combinations]
  | r + 1, [] => by simp [combinations]
  | r + 1, x :: xs => by
    simp only [List.map_cons, combinations, combinations_map f r xs, combinations_map f (r + 1) xs, List.map_append, List.map_map]
    rfl

theorem combinations_too_many {β : Type} : ∀ (r : Nat) (l : List β), l.length < r → combinations r l = []
  | 0, l, h => by simp at h
  | r + 1, [], _ => rfl
  | r + 1, x :: xs, h => by
    simp only [List.length_cons] at h
    simp [combinations, combinations_too_many r xs (by omega), combinations_too_many (r + 1) xs (by omega)]

theorem combinations_all {β : Type} : ∀ (l : List β), combinations l.length l = [l]
  | [] => rfl
  | x :: xs => by simp [combinations, combinations_all xs, combinations_too_many (xs.length + 1) xs (by omega)]

theorem combinations_one_less {β : Type} (x : β) (xs : List β) (h : xs ≠ []) :
    (combinations xs.length (x :: xs)).reverse = xs :: (combinations (xs.length - 1) xs).reverse.map (x :: ·) := by
  cases xs with
  | nil => exact absurd rfl h
  | cons y ys =>
    have := combinations_all (y :: ys)
    simp only [List.length_cons, Nat.add_sub_cancel] at this ⊢
    rw [combinations.eq_3, this]
    simp [List.map_reverse]

theorem pOne_code : ∀ es : List ℝ, es ≠ [] →
    (List.zipWith (fun e c => e * c.prod) es (combinations (es.length - 1) (es.map (1 - ·))).reverse).sum = pOne es := by
  have key : ∀ es : List ℝ, (es.map (1 - ·)).prod = pNone es := by
    intro es
    induction es with
    | nil => simp [pNone]
    | cons e es ih => simp [pNone, ih]
  intro es
  induction es with
  | nil => intro h; exact absurd rfl h
  | cons e es ih =>
    intro _
    by_cases hes : es = []
    · subst hes; simp [combinations, pOne, pNone]
    · have h1 := combinations_one_less (1 - e) (es.map (1 - ·)) (by simpa using hes)
      simp only [List.length_map] at h1
      simp only [List.length_cons, Nat.add_sub_cancel, List.map_cons, h1, List.zipWith_cons_cons, List.sum_cons, key, pOne]
      congr 1
      rw [← ih hes, List.zipWith_map_right]
      generalize (combinations (es.length - 1) (es.map (1 - ·))).reverse = c
      clear h1 ih hes
      induction es generalizing c with
      | nil => simp
      | cons a es ih2 =>
        cases c with
        | nil => simp
        | cons d c =>
          simp only [List.zipWith_cons_cons, List.sum_cons]
          rw [ih2 (by simp) c, List.prod_cons]
          ring

theorem getD_range (l : List ℝ) : (List.range l.length).map (fun i => l.getD i 0) = l := by
  apply List.ext_getElem
  · simp
  · intro i h1 h2
    simp at h1
    simp [h1]

theorem prod_pNone (es : List ℝ) : (es.map (1 - ·)).prod = pNone es := by
  induction es with
  | nil => simp [pNone]
  | cons e es ih => simp [pNone, ih]

theorem groupEff_eq (es : List ℝ) (h : 2 ≤ es.length) : groupEff es = .ok (pTwo es) := by
  unfold groupEff
  rw [if_neg (by omega), if_neg (by omega)]
  simp only [Except.ok.injEq]
  have hz : ∀ (a : List ℝ) (c : List (List Nat)) (f : Nat → ℝ),
      List.zipWith (fun e ix => e * (List.map f ix).prod) a c = List.zipWith (fun e d => e * d.prod) a (c.map (List.map f)) := by
    intro a c f; rw [List.zipWith_map_right]
  rw [hz, List.map_reverse, ← combinations_map]
  have hr : (List.range es.length).map (fun i => (es.map (1 - ·)).getD i 0) = es.map (1 - ·) := by
    have := getD_range (es.map (1 - ·))
    rwa [List.length_map] at this
  rw [hr, pOne_code es (by intro h0; simp [h0] at h), prod_pNone]
  have := p_total es
  linarith

theorem pNone_mem : ∀ es : List ℝ, (∀ e ∈ es, 0 ≤ e ∧ e ≤ 1) → 0 ≤ pNone es ∧ pNone es ≤ 1
  | [], _ => by simp [pNone]
  | e :: es, h => by
    obtain ⟨h1, h2⟩ := pNone_mem es fun e he => h e (by simp [he])
    obtain ⟨h3, h4⟩ := h e (by simp)
    simp only [pNone]
    constructor
    · exact mul_nonneg (by linarith) h1
    · nlinarith

theorem pTwo_mem : ∀ es : List ℝ, (∀ e ∈ es, 0 ≤ e ∧ e ≤ 1) → 0 ≤ pTwo es ∧ pTwo es ≤ 1 - pNone es
  | [], _ => by simp [pTwo, pNone]
  | e :: es, h => by
    obtain ⟨h1, h2⟩ := pTwo_mem es fun e he => h e (by simp [he])
    obtain ⟨h5, h6⟩ := pNone_mem es fun e he => h e (by simp [he])
    obtain ⟨h3, h4⟩ := h e (by simp)
    simp only [pTwo, pNone]
    constructor
    · have := mul_nonneg h3 (sub_nonneg.mpr h6)
      have := mul_nonneg (sub_nonneg.mpr h4) h1
      linarith
    · nlinarith [mul_nonneg h3 h5]

theorem pNone_mono : ∀ es es' : List ℝ, List.Forall₂ (fun a b => 0 ≤ a ∧ a ≤ b ∧ b ≤ 1) es es' → pNone es' ≤ pNone es
  | [], [], _ => le_refl _
  | e :: es, e' :: es', h => by
    simp only [List.forall₂_cons] at h
    obtain ⟨⟨h1, h2, h3⟩, h4⟩ := h
    have ih := pNone_mono es es' h4
    have hn : 0 ≤ pNone es' := (pNone_mem es' (by
      clear ih
      induction h4 with
      | nil => simp
      | cons hab _ ih => simp only [List.mem_cons, forall_eq_or_imp]; exact ⟨⟨by linarith [hab.1, hab.2.1], hab.2.2⟩, ih⟩)).1
    simp only [pNone]
    have a1 := mul_le_mul_of_nonneg_right (show 1 - e' ≤ 1 - e by linarith) hn
    have a2 := mul_le_mul_of_nonneg_left ih (show 0 ≤ 1 - e by linarith)
    linarith

theorem forall₂_right {es es' : List ℝ} (h : List.Forall₂ (fun a b => 0 ≤ a ∧ a ≤ b ∧ b ≤ 1) es es') : ∀ e ∈ es', 0 ≤ e ∧ e ≤ 1 := by
  induction h with
  | nil => simp
  | cons hab _ ih => simp only [List.mem_cons, forall_eq_or_imp]; exact ⟨⟨by linarith [hab.1, hab.2.1], hab.2.2⟩, ih⟩

theorem pTwo_mono : ∀ es es' : List ℝ, List.Forall₂ (fun a b => 0 ≤ a ∧ a ≤ b ∧ b ≤ 1) es es' → pTwo es ≤ pTwo es'
  | [], [], _ => le_refl _
  | e :: es, e' :: es', h => by
    simp only [List.forall₂_cons] at h
    obtain ⟨⟨h1, h2, h3⟩, h4⟩ := h
    have ih := pTwo_mono es es' h4
    have ihn := pNone_mono es es' h4
    obtain ⟨m1, m2⟩ := pTwo_mem es' (forall₂_right h4)
    simp only [pTwo]
    nlinarith [mul_nonneg (show 0 ≤ e by linarith) (show 0 ≤ pNone es - pNone es' by linarith),
      mul_nonneg (show 0 ≤ 1 - e by linarith) (show 0 ≤ pTwo es' - pTwo es by linarith),
      mul_nonneg (show 0 ≤ e' - e by linarith) (show 0 ≤ 1 - pNone es' - pTwo es' by linarith)]

end

end Tomopt
