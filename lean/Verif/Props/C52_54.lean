import Verif.Model.Loss
import Verif.Lemmas.Weighted
import Mathlib.Analysis.SpecialFunctions.ExpDeriv
import Mathlib.Analysis.Calculus.Deriv.Inv
import Mathlib.Analysis.Calculus.Deriv.Mul
import Mathlib.Tactic.Linarith
import Mathlib.Tactic.Ring
import Mathlib.Tactic.FieldSimp
import Mathlib.Tactic.Positivity

/- C52-C54, C74: losses. -/
namespace Tomopt

noncomputable section

open Loss

namespace C52

theorem sigmoid_zero : sigmoid 0 = 1 / 2 := by unfold sigmoid; norm_num

theorem sigmoid_pos (x : ℝ) : 0 < sigmoid x := by unfold sigmoid; positivity

theorem sigmoid_lt_one (x : ℝ) : sigmoid x < 1 := by
  unfold sigmoid
  rw [div_lt_one (by positivity)]
  have := Real.exp_pos (-x)
  linarith

theorem sigmoid_strictMono : StrictMono sigmoid := by
  intro x y h
  unfold sigmoid
  apply one_div_lt_one_div_of_lt (by positivity)
  have := Real.exp_lt_exp.mpr (neg_lt_neg h)
  linarith

theorem sigmoid_continuous : Continuous sigmoid := by
  unfold sigmoid
  apply Continuous.div continuous_const (by fun_prop)
  intro x
  positivity

theorem sigmoid_deriv_zero : HasDerivAt sigmoid (1 / 4) 0 := by
  have h1 : HasDerivAt (fun x : ℝ => 1 + Real.exp (-x)) (-1) 0 := by
    have h := ((hasDerivAt_neg (0 : ℝ)).exp).const_add 1
    simpa using h
  have h2 := h1.inv (by positivity)
  have h3 : sigmoid = fun x : ℝ => (1 + Real.exp (-x))⁻¹ := by
    funext x; unfold sigmoid; rw [one_div]
  rw [h3]
  exact h2.congr_deriv (by norm_num)

/-- a steep penalty in terms of the relative excess -/
def steepOf (d : ℝ) : ℝ := if d ≤ 0 then 2 * sigmoid d else 1 + d / 2

theorem steepOf_strictMono : StrictMono steepOf := by
  intro x y h
  unfold steepOf
  by_cases hx : x ≤ 0
  · rw [if_pos hx]
    by_cases hy : y ≤ 0
    · rw [if_pos hy]
      have := sigmoid_strictMono h
      linarith
    · rw [if_neg hy]
      have := sigmoid_strictMono.monotone hx
      rw [sigmoid_zero] at this
      push Not at hy
      linarith
  · rw [if_neg hx, if_neg (by linarith)]
    linarith

theorem steepOf_continuous : Continuous steepOf := by
  unfold steepOf
  apply Continuous.if_le (by have := sigmoid_continuous; fun_prop) (by fun_prop) continuous_id continuous_const
  intro x hx
  simp only [id] at hx
  rw [hx, sigmoid_zero]
  norm_num

theorem scale_strictMono (b s : ℝ) (hb : 0 < b) (hs : 0 < s) : StrictMono fun c => s * (c - b) / b := by
  intro x y h
  show s * (x - b) / b < s * (y - b) / b
  rw [div_lt_div_iff_of_pos_right hb]
  nlinarith

/-- **C52.** For a positive budget and smoothing, both forms of the penalty are positive, strictly increasing in the cost, exactly 1 at the budget and
continuous everywhere. -/
theorem penalty (steep : Bool) (b s : ℝ) (hb : 0 < b) (hs : 0 < s) :
    (∀ c, budgetCoef steep (some b) s c = .num (budgetNum steep b s c)) ∧ (∀ c, 0 < budgetNum steep b s c) ∧ StrictMono (budgetNum steep b s) ∧
      budgetNum steep b s b = 1 ∧ Continuous (budgetNum steep b s) := by
  have hsc := scale_strictMono b s hb hs
  refine ⟨fun c => by simp only [budgetCoef, if_neg hb.ne'], ?_⟩
  cases steep with
  | true =>
    have heq : budgetNum true b s = fun c => steepOf (s * (c - b) / b) := rfl
    rw [heq]
    refine ⟨?_, fun x y h => steepOf_strictMono (hsc h), ?_, ?_⟩
    · intro c
      show 0 < steepOf (s * (c - b) / b)
      unfold steepOf
      split
      · have := sigmoid_pos (s * (c - b) / b); linarith
      · rename_i h; push Not at h; linarith
    · simp [steepOf, sigmoid_zero]
    · exact steepOf_continuous.comp (by fun_prop)
  | false =>
    have heq : budgetNum false b s = fun c => 2 * sigmoid (s * (c - b) / b) + max (c - b) 0 / b := rfl
    rw [heq]
    refine ⟨?_, ?_, ?_, ?_⟩
    · intro c
      have := sigmoid_pos (s * (c - b) / b)
      have h2 : 0 ≤ max (c - b) 0 / b := div_nonneg (le_max_right _ _) hb.le
      show 0 < 2 * sigmoid (s * (c - b) / b) + max (c - b) 0 / b
      linarith
    · intro x y h
      have h1 := sigmoid_strictMono (hsc h)
      have h2 : max (x - b) 0 / b ≤ max (y - b) 0 / b := by
        rw [div_le_div_iff_of_pos_right hb]
        exact max_le_max (by linarith) le_rfl
      simp only at h1 ⊢
      linarith
    · simp [sigmoid_zero]
    · have h1 : Continuous fun c => sigmoid (s * (c - b) / b) := sigmoid_continuous.comp (by fun_prop)
      fun_prop

/-- **C52: steep form.** Above the budget the steep penalty is linear, with slope `s/(2b)`, and below it stays below 1. -/
theorem steep_linear (b s c : ℝ) (hb : 0 < b) (hs : 0 < s) (hc : b ≤ c) : budgetNum true b s c = 1 + s / (2 * b) * (c - b) := by
  show steepOf (s * (c - b) / b) = _
  unfold steepOf
  rcases eq_or_lt_of_le hc with rfl | h
  · simp [sigmoid_zero]
  · have : 0 < s * (c - b) / b := div_pos (mul_pos hs (by linarith)) hb
    rw [if_neg (by linarith)]
    field_simp

/-- The steep penalty is even smooth at the budget (the slopes on both sides agree). -/
theorem steep_smooth (b s : ℝ) (hb : 0 < b) (hs : 0 < s) : HasDerivAt (budgetNum true b s) (s / (2 * b)) b := by
  have h0 : HasDerivAt steepOf (1 / 2) 0 := by
    have hl : HasDerivWithinAt steepOf (1 / 2) (Set.Iic 0) 0 := by
      have h1 : HasDerivWithinAt (fun d => 2 * sigmoid d) (1 / 2) (Set.Iic 0) 0 := by
        have := (sigmoid_deriv_zero.const_mul 2).hasDerivWithinAt (s := Set.Iic 0)
        exact this.congr_deriv (by norm_num)
      apply h1.congr
      · intro x hx; unfold steepOf; rw [if_pos (show x ≤ 0 from hx)]
      · unfold steepOf; rw [if_pos le_rfl]
    have hr : HasDerivWithinAt steepOf (1 / 2) (Set.Ici 0) 0 := by
      have h1 : HasDerivWithinAt (fun d : ℝ => 1 + d / 2) (1 / 2) (Set.Ici 0) 0 := by
        have := (((hasDerivAt_id (0 : ℝ)).div_const 2).const_add 1).hasDerivWithinAt (s := Set.Ici 0)
        simpa using this
      apply h1.congr
      · intro x hx
        unfold steepOf
        rcases eq_or_lt_of_le (show (0 : ℝ) ≤ x from hx) with rfl | h
        · simp [sigmoid_zero]
        · rw [if_neg (by linarith)]
      · unfold steepOf; simp [sigmoid_zero]
    have := hl.union hr
    rw [Set.Iic_union_Ici, hasDerivWithinAt_univ] at this
    exact this
  have h1 : HasDerivAt (fun c => s * (c - b) / b) (s / b) b := by
    have := (((hasDerivAt_id b).sub_const b).const_mul s).div_const b
    simpa using this
  have hz : s * (b - b) / b = 0 := by simp
  have h2 := HasDerivAt.comp (h := fun c => s * (c - b) / b) b (by rw [hz]; exact h0) h1
  have heq : budgetNum true b s = steepOf ∘ fun c => s * (c - b) / b := rfl
  rw [heq]
  exact h2.congr_deriv (by field_simp)

/-- **C52: no budget.** Without a budget the cost contributes nothing. -/
theorem no_budget (steep : Bool) (s c : ℝ) : budgetCoef steep none s c = .num 0 := rfl

/-- **C52 (budget zero).** A budget of zero is accepted; the penalty is then infinite for every detector that costs something, and NaN for a free one. -/
theorem zero_budget_violated (steep : Bool) (s c : ℝ) : budgetCoef steep (some 0) s c = if c > 0 then .pinf else .nan := by
  simp [budgetCoef]

example : budgetNum true 10 10 20 = 6 := by rw [steep_linear 10 10 20 (by norm_num) (by norm_num) (by norm_num)]; norm_num

end C52

namespace C74

/-- the coefficient that is in force after some operations: the last one set from outside, else the first error, else the configured one -/
def coefAfter : List LossOp → Option ℝ → Option ℝ
  | [], k => k
  | .setCoef k :: os, _ => coefAfter os (some k)
  | .eval err _ :: os, none => coefAfter os (some err)
  | .eval _ _ :: os, some k => coefAfter os (some k)

/-- **C74: coefficient.** After any history the coefficient of the cost is the one last set explicitly or configured; if there is none, the inference
error of the very first evaluation. -/
theorem coef (steep : Bool) (b : Option ℝ) (s : ℝ) (os : List LossOp) (st : CostState) : (runLoss steep b s os st).1.coef = coefAfter os st.coef := by
  induction os generalizing st with
  | nil => rfl
  | cons o os ih =>
    cases o with
    | eval err c =>
      rw [runLoss]
      simp only
      rw [ih]
      cases h : st.coef with
      | none => simp [forward, h, coefAfter]
      | some k => simp [forward, h, coefAfter]
    | setCoef k => rw [runLoss, ih]; rfl

/-- Evaluations never change a coefficient once there is one. -/
theorem frozen (steep : Bool) (b : Option ℝ) (s : ℝ) (evals : List (ℝ × ℝ)) (k : ℝ) :
    (runLoss steep b s (evals.map fun e => .eval e.1 e.2) ⟨some k⟩).1.coef = some k := by
  rw [coef]
  induction evals with
  | nil => rfl
  | cons e es ih => exact ih

/-- **C74: components.** Each evaluation reports the inference error unchanged, and as cost the penalty times the coefficient in force (with the first
error standing in if there was none): the total is their sum. -/
theorem components (steep : Bool) (b : ℝ) (s : ℝ) (hb : 0 < b) (st : CostState) (err c : ℝ) :
    (forward steep (some b) s st err c).2 = (err, .num (budgetNum steep b s c * st.coef.getD err)) := by
  simp only [forward, budgetCoef, if_neg hb.ne']

/-- At the first evaluation without a configured coefficient, the cost of a detector at budget counts exactly as much as the error. -/
theorem balanced (steep : Bool) (b s err : ℝ) (hb : 0 < b) (hs : 0 < s) : (forward steep (some b) s ⟨none⟩ err b).2 = (err, .num err) := by
  rw [components steep b s hb, (C52.penalty steep b s hb hs).2.2.2.1]
  simp

/-- Evaluations are order-dependent through that coefficient: swapping two volumes can change the losses. -/
theorem order_matters : (runLoss true (some 1) 10 [.eval 1 1, .eval 2 1] ⟨none⟩).1.coef ≠ (runLoss true (some 1) 10 [.eval 2 1, .eval 1 1] ⟨none⟩).1.coef := by
  rw [coef, coef]
  simp [coefAfter]

/-- **Squared error** of voxelwise predictions: never negative, zero exactly for perfect predictions. -/
theorem mse_spec (pred targ : List ℝ) (h0 : pred ≠ []) (hlen : pred.length = targ.length) :
    ∃ x, mse pred targ = .num x ∧ 0 ≤ x ∧ (x = 0 ↔ pred = targ) := by
  have hn : 0 < pred.length := List.length_pos_iff.mpr h0
  have hR : (0 : ℝ) < pred.length := by exact_mod_cast hn
  have key : ∀ p t : List ℝ, p.length = t.length → 0 ≤ (List.zipWith (fun p t => (p - t) ^ 2) p t).sum ∧ ((List.zipWith (fun p t => (p - t) ^ 2) p t).sum = 0 ↔ p = t) := by
    intro p
    induction p with
    | nil => intro t ht; cases t with
      | nil => simp
      | cons a t => simp at ht
    | cons a p ih =>
      intro t ht
      cases t with
      | nil => simp at ht
      | cons b t =>
        simp only [List.length_cons, Nat.add_right_cancel_iff] at ht
        obtain ⟨h1, h2⟩ := ih t ht
        simp only [List.zipWith_cons_cons, List.sum_cons, List.cons.injEq]
        refine ⟨by positivity, ?_⟩
        constructor
        · intro h
          have h3 : (a - b) ^ 2 = 0 := by nlinarith [sq_nonneg (a - b)]
          have h4 : a = b := by have := pow_eq_zero_iff (two_ne_zero) |>.mp h3; linarith
          exact ⟨h4, h2.mp (by rw [h3] at h; linarith)⟩
        · rintro ⟨rfl, h⟩
          rw [h2.mpr h]; simp
  obtain ⟨h1, h2⟩ := key pred targ hlen
  refine ⟨_, by unfold mse; rw [if_neg (by omega)], div_nonneg h1 hR.le, ?_⟩
  rw [div_eq_zero_iff]
  constructor
  · rintro (h | h)
    · exact h2.mp h
    · linarith
  · intro h; exact .inl (h2.mpr h)

example : (runLoss true (some 1) 10 [.eval 3 1, .eval 5 2, .setCoef 7, .eval 1 1] ⟨none⟩).1.coef = some 7 := by rw [coef]; rfl

end C74

namespace C53

/-- distance of class number `i` (counted from `start`) from the target `t`, as documented -/
def away (useMse : Bool) (start t : ℤ) (i : Nat) : ℝ := if useMse then ((t - (start + i) : ℤ) : ℝ) ^ 2 else |((t - (start + i) : ℤ) : ℝ)|

/-- distances of all classes -/
def aways (useMse : Bool) (start t : ℤ) (c : Nat) : List ℝ := (List.range c).map (away useMse start t)

theorem aways_eq (useMse : Bool) (start t : ℤ) (c : Nat) : (ints start c).map (fun k => gap useMse (t - k)) = aways useMse start t c := by
  unfold ints aways gap away
  rw [List.map_map]
  rfl

theorem away_nonneg (useMse : Bool) (start t : ℤ) (i : Nat) : 0 ≤ away useMse start t i := by
  unfold away; split <;> positivity

theorem away_zero (useMse : Bool) (start t : ℤ) (i : Nat) : away useMse start t i = 0 ↔ t = start + i := by
  unfold away
  split
  · rw [sq_eq_zero_iff, Int.cast_eq_zero]; omega
  · rw [abs_eq_zero, Int.cast_eq_zero]; omega

/-- **C53: rows.** With targets of shape (N, 1), the loss of each row is computed from the distances of all classes to its own target. -/
theorem col_rows (useMse : Bool) (start : ℤ) (c : Nat) (probs : List (List ℝ)) (ts : List ℤ) (h : ts.length = probs.length) :
    iclRows useMse start c probs (.col ts) = .ok (List.zipWith (fun t p => iclRow (aways useMse start t c) p) ts probs) := by
  simp only [iclRows, diffs, if_pos h]
  congr 1
  rw [List.zipWith_map_left]
  simp only [aways_eq]

/-- also for a single documented target of shape (1,) -/
theorem single_rows (useMse : Bool) (start : ℤ) (c : Nat) (p : List ℝ) (t : ℤ) :
    iclRows useMse start c [p] (.flat [t]) = .ok [iclRow (aways useMse start t c) p] := by
  unfold iclRows diffs
  simp only [aways_eq, List.length_singleton, List.replicate_one, List.zipWith_cons_cons, List.zipWith_nil_left]

theorem sum_nonneg_of (l : List ℝ) (h : ∀ x ∈ l, 0 ≤ x) : 0 ≤ l.sum := List.sum_nonneg h

theorem sum_zero_iff (l : List ℝ) (h : ∀ x ∈ l, 0 ≤ x) : l.sum = 0 ↔ ∀ x ∈ l, x = 0 := by
  induction l with
  | nil => simp
  | cons a l ih =>
    have ha := h a List.mem_cons_self
    have hl : ∀ x ∈ l, 0 ≤ x := fun x hx => h x (List.mem_cons_of_mem _ hx)
    have := List.sum_nonneg hl
    rw [List.sum_cons]
    constructor
    · intro hs x hx
      have h1 : a = 0 := by linarith
      rcases List.mem_cons.mp hx with rfl | hx
      · exact h1
      · exact (ih hl).mp (by linarith) x hx
    · intro hx
      rw [hx a List.mem_cons_self, (ih hl).mpr fun x hx' => hx x (List.mem_cons_of_mem _ hx')]
      simp

/-- with at least two classes the distances do not all vanish -/
theorem aways_sum_pos (useMse : Bool) (start t : ℤ) (c : Nat) (hc : 2 ≤ c) : 0 < (aways useMse start t c).sum := by
  have hnn : ∀ x ∈ aways useMse start t c, 0 ≤ x := by
    intro x hx
    obtain ⟨i, -, rfl⟩ := List.mem_map.mp hx
    exact away_nonneg _ _ _ _
  rcases lt_or_eq_of_le (List.sum_nonneg hnn) with h | h
  · exact h
  · exfalso
    have h2 := (sum_zero_iff _ hnn).mp h.symm
    have a0 := (away_zero useMse start t 0).mp (h2 _ (List.mem_map.mpr ⟨0, List.mem_range.mpr (by omega), rfl⟩))
    have a1 := (away_zero useMse start t 1).mp (h2 _ (List.mem_map.mpr ⟨1, List.mem_range.mpr (by omega), rfl⟩))
    omega

/-- the loss of one row: the mean distance under the predicted probabilities, over the sum of distances -/
def rowLoss (useMse : Bool) (start t : ℤ) (p : List ℝ) : ℝ :=
  (List.zipWith (· * ·) (aways useMse start t p.length) p).sum / (aways useMse start t p.length).sum

theorem zip_div (s : ℝ) (a p : List ℝ) : (List.zipWith (fun d q => d / s * q) a p).sum = (List.zipWith (· * ·) a p).sum / s := by
  induction a generalizing p with
  | nil => simp
  | cons x a ih =>
    cases p with
    | nil => simp
    | cons q p =>
      simp only [List.zipWith_cons_cons, List.sum_cons, ih]
      rw [add_div, div_mul_eq_mul_div]

theorem row_eq (useMse : Bool) (start t : ℤ) (p : List ℝ) (hc : 2 ≤ p.length) : iclRow (aways useMse start t p.length) p = .num (rowLoss useMse start t p) := by
  unfold iclRow
  rw [if_neg (aways_sum_pos useMse start t _ hc).ne', zip_div]
  rfl

theorem zip_getElem (a p : List ℝ) (h : a.length = p.length) (x : ℝ) (hx : x ∈ List.zipWith (· * ·) a p) : ∃ i, ∃ h1 : i < a.length, ∃ h2 : i < p.length, x = a[i] * p[i] := by
  obtain ⟨i, hi, rfl⟩ := List.mem_iff_getElem.mp hx
  rw [List.length_zipWith] at hi
  exact ⟨i, by omega, by omega, by simp⟩

/-- **C53: sign and zero.** For at least two classes and non-negative predictions: the loss is a number, not negative, and zero exactly when every class
other than the target has probability zero. -/
theorem zero_iff (useMse : Bool) (start t : ℤ) (p : List ℝ) (hc : 2 ≤ p.length) (hp : ∀ x ∈ p, 0 ≤ x) :
    0 ≤ rowLoss useMse start t p ∧ (rowLoss useMse start t p = 0 ↔ ∀ (i : Nat) (h : i < p.length), t ≠ start + i → p[i] = 0) := by
  have hS := aways_sum_pos useMse start t _ hc
  have hlen : (aways useMse start t p.length).length = p.length := by simp [aways]
  have hnn : ∀ x ∈ List.zipWith (· * ·) (aways useMse start t p.length) p, 0 ≤ x := by
    intro x hx
    obtain ⟨i, h1, h2, rfl⟩ := zip_getElem _ _ hlen x hx
    apply mul_nonneg _ (hp _ (List.getElem_mem _))
    simp only [aways, List.getElem_map]
    exact away_nonneg _ _ _ _
  refine ⟨div_nonneg (List.sum_nonneg hnn) hS.le, ?_⟩
  unfold rowLoss
  rw [div_eq_zero_iff, or_iff_left hS.ne', sum_zero_iff _ hnn]
  constructor
  · intro h i hi hne
    have h1 : (aways useMse start t p.length)[i]'(by rw [hlen]; exact hi) * p[i] ∈ List.zipWith (· * ·) (aways useMse start t p.length) p := by
      have hi2 : i < (List.zipWith (· * ·) (aways useMse start t p.length) p).length := by rw [List.length_zipWith, hlen]; omega
      have := List.getElem_mem hi2
      simpa using this
    have h2 := h _ h1
    rcases mul_eq_zero.mp h2 with h3 | h3
    · simp only [aways, List.getElem_map, List.getElem_range] at h3
      exact absurd ((away_zero useMse start t i).mp h3) hne
    · exact h3
  · intro h x hx
    obtain ⟨i, h1, h2, rfl⟩ := zip_getElem _ _ hlen x hx
    by_cases hne : t = start + i
    · have : (aways useMse start t p.length)[i] = 0 := by
        simp only [aways, List.getElem_map, List.getElem_range]
        exact (away_zero useMse start t i).mpr hne
      rw [this, zero_mul]
    · rw [h i h2 hne, mul_zero]

/-- for probabilities the loss is at most 1 (so the values 1.0007 and 8.8773 quoted in the documentation cannot occur) -/
theorem le_one (useMse : Bool) (start t : ℤ) (p : List ℝ) (hc : 2 ≤ p.length) (hp : ∀ x ∈ p, 0 ≤ x) (h1 : p.sum ≤ 1) : rowLoss useMse start t p ≤ 1 := by
  have hS := aways_sum_pos useMse start t _ hc
  have hlen : (aways useMse start t p.length).length = p.length := by simp [aways]
  have hle1 : ∀ q ∈ p, q ≤ 1 := by
    intro q hq
    exact le_trans (List.single_le_sum hp q hq) h1
  unfold rowLoss
  rw [div_le_one hS]
  have key : ∀ a p : List ℝ, (∀ x ∈ a, 0 ≤ x) → (∀ q ∈ p, q ≤ 1) → (List.zipWith (· * ·) a p).sum ≤ a.sum := by
    intro a
    induction a with
    | nil => simp
    | cons x a ih =>
      intro p ha hp
      cases p with
      | nil => simpa using List.sum_nonneg ha
      | cons q p =>
        simp only [List.zipWith_cons_cons, List.sum_cons]
        have := ih p (fun y hy => ha y (List.mem_cons_of_mem _ hy)) (fun y hy => hp y (List.mem_cons_of_mem _ hy))
        have h2 := mul_le_mul_of_nonneg_left (hp q List.mem_cons_self) (ha x List.mem_cons_self)
        linarith
  apply key _ _ _ hle1
  intro x hx
  obtain ⟨i, -, rfl⟩ := List.mem_map.mp hx
  exact away_nonneg _ _ _ _

theorem sum_zip_set (a p : List ℝ) (i : Nat) (y : ℝ) (h : i < p.length) (hlen : a.length = p.length) :
    (List.zipWith (· * ·) a (p.set i y)).sum = (List.zipWith (· * ·) a p).sum + a[i] * (y - p[i]) := by
  induction a generalizing p i with
  | nil => simp at hlen; rw [← hlen] at h; simp at h
  | cons x a ih =>
    cases p with
    | nil => simp at h
    | cons q p =>
      simp only [List.length_cons, Nat.add_right_cancel_iff] at hlen
      cases i with
      | zero => simp; ring
      | succ i =>
        simp only [List.length_cons, Nat.add_lt_add_iff_right] at h
        simp only [List.set_cons_succ, List.zipWith_cons_cons, List.sum_cons, List.getElem_cons_succ, ih p i h hlen]
        ring

/-- **C53: distance counts.** Moving probability from a class to one further away from the target increases the loss, and by more the further it is. -/
theorem further_is_worse (useMse : Bool) (start t : ℤ) (p : List ℝ) (hc : 2 ≤ p.length) (i j : Nat) (hi : i < p.length) (hj : j < p.length) (hij : i ≠ j) (δ : ℝ) (hδ : 0 < δ)
    (hd : |t - (start + i)| < |t - (start + j)|) :
    rowLoss useMse start t ((p.set i (p[i] - δ)).set j (p[j] + δ)) = rowLoss useMse start t p +
      δ * (away useMse start t j - away useMse start t i) / (aways useMse start t p.length).sum ∧
    rowLoss useMse start t p < rowLoss useMse start t ((p.set i (p[i] - δ)).set j (p[j] + δ)) := by
  have hS := aways_sum_pos useMse start t _ hc
  have hlen : (aways useMse start t p.length).length = p.length := by simp [aways]
  have haw : away useMse start t i < away useMse start t j := by
    have h1 : |((t - (start + i) : ℤ) : ℝ)| < |((t - (start + j) : ℤ) : ℝ)| := by exact_mod_cast hd
    unfold away
    split
    · exact sq_lt_sq.mpr h1
    · exact h1
  have heq : rowLoss useMse start t ((p.set i (p[i] - δ)).set j (p[j] + δ)) = rowLoss useMse start t p +
      δ * (away useMse start t j - away useMse start t i) / (aways useMse start t p.length).sum := by
    unfold rowLoss
    simp only [List.length_set]
    rw [sum_zip_set _ _ j _ (by simpa using hj) (by simpa using hlen), sum_zip_set _ _ i _ hi hlen, List.getElem_set_ne hij]
    have h1 : (aways useMse start t p.length)[i]'(by rw [hlen]; exact hi) = away useMse start t i := by simp [aways]
    have h2 : (aways useMse start t p.length)[j]'(by rw [hlen]; exact hj) = away useMse start t j := by simp [aways]
    rw [h1, h2, ← add_div]
    congr 1
    ring
  refine ⟨heq, ?_⟩
  rw [heq]
  have : 0 < δ * (away useMse start t j - away useMse start t i) / (aways useMse start t p.length).sum := div_pos (mul_pos hδ (by linarith)) hS
  linarith

/-- **C53 (violated): documented shapes.** Targets of the documented shape (N,) are aligned with the classes, not with the rows: for N equal to the number
of classes the result is silently wrong. Here both rows put all probability on their own target, and still get loss one half. -/
theorem flat_targets_violated : iclRows false 0 2 [[0, 1], [1, 0]] (.flat [1, 0]) = .ok [.num (1 / 2), .num (1 / 2)] ∧
    iclRows false 0 2 [[0, 1], [1, 0]] (.col [1, 0]) = .ok [.num 0, .num 0] := by
  constructor
  · unfold iclRows diffs
    simp [ints, List.range_succ, gap, iclRow]
    norm_num
  · unfold iclRows diffs
    simp [ints, List.range_succ, gap, iclRow]

/-- Other lengths of flat targets raise. -/
theorem flat_targets_error (useMse : Bool) (start : ℤ) (c : Nat) (probs : List (List ℝ)) (t u : ℤ) (ts : List ℤ) (h : ts.length + 2 ≠ c) :
    iclRows useMse start c probs (.flat (t :: u :: ts)) = .error .runtimeError := by
  have h' : ¬ (t :: u :: ts).length = c := by simpa using h
  simp only [iclRows, diffs, if_neg h']

/-- **C53 (violated): a single class.** With one class and a correct prediction the loss is NaN. -/
theorem single_class_violated (useMse : Bool) (t : ℤ) (p : ℝ) : iclRow (aways useMse t t 1) [p] = .nan := by
  unfold iclRow
  have : (aways useMse t t 1).sum = 0 := by
    simp [aways, List.range_succ, away]
  rw [if_pos this]

/-- **C53 (violated): weights.** Weights of the documented shape (N,) multiply every loss by every weight: the mean is that of the unweighted losses
times that of the weights. -/
theorem flat_weight_violated (ls ws : List ℝ) : ∃ x, weigh ls (.flat ws) = .ok x ∧ reduce x "mean" = .ok (.scalar (ls.sum / ls.length * (ws.sum / ws.length))) := by
  refine ⟨_, rfl, ?_⟩
  unfold reduce
  rw [if_pos rfl]
  congr 2
  have h2 : ((ls.map fun l => ws.map fun w => l * w).flatten).length = ls.length * ws.length := by
    induction ls with
    | nil => simp
    | cons l ls ih =>
      rw [List.map_cons, List.flatten_cons, List.length_append, ih, List.length_cons, List.length_map]
      ring
  have h1 : ((ls.map fun l => ws.map fun w => l * w).flatten).sum = ls.sum * ws.sum := by
    clear h2
    induction ls with
    | nil => simp
    | cons l ls ih =>
      rw [List.map_cons, List.flatten_cons, List.sum_append, ih, List.sum_cons, add_mul, List.sum_map_mul_left]
      simp
  rw [h1, h2]
  push_cast
  rw [div_mul_div_comm]

/-- The reductions do what they say, anything else is rejected. -/
theorem reductions (x : List (List ℝ)) (r : String) : reduce x r =
    if r = "mean" then .ok (.scalar (x.flatten.sum / x.flatten.length)) else if r = "sum" then .ok (.scalar x.flatten.sum)
    else if r = "none" then .ok (.tensor x) else .error .valueError := rfl

example : (2 : Nat) ≤ [(0.25 : ℝ), 0.5, 0.25].length ∧ |(1 : ℤ) - (0 + (1 : ℕ))| < |(1 : ℤ) - (0 + (2 : ℕ))| := by constructor <;> decide

end C53

namespace C54

/-- `nearest` returns an entry of the table, none being closer -/
theorem nearest_spec (x0 : ℝ) (e : ℝ × Int) (es : List (ℝ × Int)) : nearest x0 e es ∈ e :: es ∧ ∀ f ∈ e :: es, |(nearest x0 e es).1 - x0| ≤ |f.1 - x0| := by
  induction es generalizing e with
  | nil => simp [nearest]
  | cons g es ih =>
    unfold nearest
    by_cases h : |g.1 - x0| < |e.1 - x0|
    · rw [if_pos h]
      obtain ⟨h1, h2⟩ := ih g
      refine ⟨List.mem_cons_of_mem _ h1, ?_⟩
      intro f hf
      rcases List.mem_cons.mp hf with rfl | hf
      · exact le_trans (h2 g List.mem_cons_self) h.le
      · exact h2 f hf
    · rw [if_neg h]
      obtain ⟨h1, h2⟩ := ih e
      constructor
      · rcases List.mem_cons.mp h1 with h1 | h1
        · rw [h1]; exact List.mem_cons_self
        · exact List.mem_cons_of_mem _ (List.mem_cons_of_mem _ h1)
      · intro f hf
        rcases List.mem_cons.mp hf with rfl | hf
        · exact h2 f List.mem_cons_self
        · rcases List.mem_cons.mp hf with rfl | hf
          · exact le_trans (h2 e List.mem_cons_self) (not_lt.mp h)
          · exact h2 f (List.mem_cons_of_mem _ hf)

/-- **C54: table.** A material that is in the table (with distinct X0s) gets its own class. -/
theorem own_class (tab : List (ℝ × Int)) (x0 : ℝ) (i : Int) (hm : (x0, i) ∈ tab) (hd : (tab.map (·.1)).Nodup) : classOf tab x0 = .ok i := by
  cases tab with
  | nil => simp at hm
  | cons e es =>
    unfold classOf
    obtain ⟨h1, h2⟩ := nearest_spec x0 e es
    have h3 := h2 _ hm
    simp only [sub_self, abs_zero] at h3
    have h4 : (nearest x0 e es).1 = x0 := by
      have := abs_nonpos_iff.mp h3
      linarith
    have h5 : nearest x0 e es = (x0, i) := by
      exact List.inj_on_of_nodup_map hd h1 hm h4
    simp only [h5]

/-- the class of a value, when the table is not empty -/
def cls (tab : List (ℝ × Int)) (x0 : ℝ) : Int :=
  match classOf tab x0 with
  | .ok i => i
  | .error _ => 0

theorem classOf_ok (tab : List (ℝ × Int)) (h : tab ≠ []) (x0 : ℝ) : classOf tab x0 = .ok (cls tab x0) := by
  cases tab with
  | nil => exact absurd rfl h
  | cons e es => rfl

theorem mem_unique (ts : List ℝ) (x : ℝ) : x ∈ unique ts ↔ x ∈ ts := by
  unfold unique
  rw [List.mem_mergeSort, List.mem_dedup]

theorem nodup_unique (ts : List ℝ) : (unique ts).Nodup := by
  unfold unique
  exact (List.mergeSort_perm _ _).nodup_iff.mpr (List.nodup_dedup ts)

theorem sorted_unique (ts : List ℝ) : (unique ts).Pairwise (· ≤ ·) := by
  unfold unique
  have := List.pairwise_mergeSort (le := fun a b : ℝ => decide (a ≤ b)) (by intro a b c; simp only [decide_eq_true_eq]; exact le_trans)
    (by intro a b; simp only [Bool.or_eq_true, decide_eq_true_eq]; exact le_total a b) ts.dedup
  exact this.imp (by intro a b h; exact of_decide_eq_true h)

/-- **C54: conversion for evaluation.** `x0targs_to_classtargs` maps every voxel to the class of its own X0, for every table and array. -/
theorem class_targets (tab : List (ℝ × Int)) (h : tab ≠ []) (ts : List ℝ) : classTargs tab ts = .ok (ts.map fun t => (cls tab t : ℝ)) := by
  have key : ∀ us out, out.length = ts.length → us.Nodup →
      classTargsFrom tab ts us out = .ok (List.zipWith (fun t o => if t ∈ us then (cls tab t : ℝ) else o) ts out) := by
    intro us
    induction us with
    | nil =>
      intro out hlen _
      unfold classTargsFrom
      congr 1
      simp only [List.not_mem_nil, if_false]
      clear h
      induction ts generalizing out with
      | nil => simp at hlen; simp [hlen]
      | cons t ts ih =>
        cases out with
        | nil => simp at hlen
        | cons o out => simp at hlen; simp [← ih out hlen]
    | cons u us ih =>
      intro out hlen hnd
      unfold classTargsFrom
      rw [classOf_ok tab h]
      simp only
      rw [List.nodup_cons] at hnd
      rw [ih _ (by simp [hlen]) hnd.2]
      congr 1
      clear ih h
      induction ts generalizing out with
      | nil => simp
      | cons t ts ih =>
        cases out with
        | nil => simp at hlen
        | cons o out =>
          simp only [List.length_cons, Nat.add_right_cancel_iff] at hlen
          simp only [List.zipWith_cons_cons, ih out hlen, List.cons.injEq, and_true]
          by_cases h1 : t = u
          · subst h1
            simp [hnd.1]
          · simp [h1]
  unfold classTargs
  rw [key (unique ts) (ts.map fun _ => 0) (by simp) (nodup_unique ts)]
  congr 1
  have : ∀ l : List ℝ, (∀ x ∈ l, x ∈ unique ts) → List.zipWith (fun t o => if t ∈ unique ts then (cls tab t : ℝ) else o) l (l.map fun _ => 0) = l.map fun t => (cls tab t : ℝ) := by
    intro l
    induction l with
    | nil => intro _; rfl
    | cons t l ih =>
      intro hl
      rw [List.map_cons, List.zipWith_cons_cons, if_pos (hl t List.mem_cons_self), ih fun x hx => hl x (List.mem_cons_of_mem _ hx), List.map_cons]
  exact this ts fun x hx => (mem_unique ts x).mpr hx

/-- **C54: conversion for losses, what holds.** The in-place relabelling of the losses is right if no class id is itself one of the (larger) X0 values
of the volume. Missing: volumes with such X0 values, see `interference_violated`. -/
theorem loss_targets_partial (tab : List (ℝ × Int)) (h : tab ≠ []) (ts : List ℝ) (hno : ∀ x ∈ ts, ∀ y ∈ ts, x < y → (cls tab x : ℝ) ≠ y) :
    relabel tab ts = .ok (ts.map fun t => (cls tab t : ℝ)) := by
  have key : ∀ us : List ℝ, us.Pairwise (· < ·) → (∀ x ∈ us, ∀ y ∈ us, x < y → (cls tab x : ℝ) ≠ y) →
      ∀ l : List (ℝ × Bool), (∀ p ∈ l, p.2 = true → ∀ y ∈ us, p.1 ≠ y) →
        relabelFrom tab us (l.map (·.1)) = .ok (l.map fun p => if p.2 = false ∧ p.1 ∈ us then (cls tab p.1 : ℝ) else p.1) := by
    intro us
    induction us with
    | nil => intro _ _ l _; unfold relabelFrom; simp
    | cons u us ih =>
      intro hp hq l hl
      unfold relabelFrom
      rw [classOf_ok tab h]
      simp only
      rw [List.pairwise_cons] at hp
      -- mark what has been relabelled
      have hmark : ((l.map (·.1)).map fun t => if t = u then (cls tab u : ℝ) else t) =
          (l.map fun p : ℝ × Bool => if p.1 = u then ((cls tab u : ℝ), true) else p).map (·.1) := by
        rw [List.map_map, List.map_map]
        apply List.map_congr_left
        intro p _
        simp only [Function.comp_def]
        split <;> rfl
      rw [hmark, ih hp.2 (fun x hx y hy => hq x (List.mem_cons_of_mem _ hx) y (List.mem_cons_of_mem _ hy))]
      · congr 1
        rw [List.map_map]
        apply List.map_congr_left
        rintro ⟨x, m⟩ hx
        simp only [Function.comp_def]
        by_cases hxu : x = u
        · subst hxu
          rw [if_pos rfl]
          have hm : m = false := by
            cases m with
            | false => rfl
            | true => exact absurd rfl (hl _ hx rfl x List.mem_cons_self)
          subst hm
          simp
        · rw [if_neg hxu]
          simp [hxu]
      · intro p hpm hp2 y hy
        obtain ⟨q, hq1, rfl⟩ := List.mem_map.mp hpm
        by_cases hqu : q.1 = u
        · rw [if_pos hqu]
          exact hq u List.mem_cons_self y (List.mem_cons_of_mem _ hy) (hp.1 y hy)
        · rw [if_neg hqu] at hp2 ⊢
          exact hl q hq1 hp2 y (List.mem_cons_of_mem _ hy)
  have hlt : (unique ts).Pairwise (· < ·) := by
    have h1 := sorted_unique ts
    have h2 := nodup_unique ts
    rw [List.nodup_iff_pairwise_ne] at h2
    exact (h1.and h2).imp fun h => lt_of_le_of_ne h.1 h.2
  have := key (unique ts) hlt (fun x hx y hy => hno x ((mem_unique _ _).mp hx) y ((mem_unique _ _).mp hy)) (ts.map fun t => (t, false)) (by
    intro p hp h2
    obtain ⟨t, -, rfl⟩ := List.mem_map.mp hp
    simp at h2)
  rw [List.map_map] at this
  have hid : ts.map ((fun p : ℝ × Bool => p.1) ∘ fun t => (t, false)) = ts := by
    rw [show ((fun p : ℝ × Bool => p.1) ∘ fun t => (t, false)) = id from rfl, List.map_id]
  rw [hid] at this
  unfold relabel
  rw [this]
  congr 1
  rw [List.map_map]
  apply List.map_congr_left
  intro t ht
  simp [(mem_unique ts t).mpr ht]

/-- **C54 (violated).** A class id that equals the X0 of another material in the volume is relabelled a second time: with classes `{0.5 m: 1, 1 m: 0}`
a volume with both materials becomes all class 0. -/
theorem interference_violated : relabel [(1 / 2, 1), (1, 0)] [1 / 2, 1] = .ok [0, 0] ∧ cls [(1 / 2, 1), (1, 0)] (1 / 2) = 1 := by
  have c1 : classOf [(1 / 2, 1), (1, 0)] (1 / 2 : ℝ) = .ok 1 := own_class _ _ _ (by simp) (by norm_num)
  have c2 : classOf [((1 / 2 : ℝ), (1 : Int)), (1, 0)] (1 : ℝ) = .ok 0 := own_class _ _ _ (by simp) (by norm_num)
  constructor
  · have hu : unique [1 / 2, 1] = [1 / 2, 1] := by
      unfold unique
      have hd : ([1 / 2, 1] : List ℝ).dedup = [1 / 2, 1] := by
        rw [List.dedup_eq_self]
        norm_num
      rw [hd]
      apply List.mergeSort_of_pairwise
      norm_num
    unfold relabel
    rw [hu]
    unfold relabelFrom
    rw [c1]
    simp only [List.map_cons, List.map_nil]
    unfold relabelFrom
    simp only [if_true, show ¬ (1:ℝ) = 1 / 2 by norm_num, if_false, Int.cast_one, c2, List.map_cons, List.map_nil]
    unfold relabelFrom
    simp
  · unfold cls
    rw [c1]

/-- **C54: back to X0.** Converting class ids to X0s and back returns the ids, when the table and its inverse match; unknown ids raise. -/
theorem back (tab : List (Int × ℝ)) (hd : (tab.map (·.2)).Nodup) (hk : (tab.map (·.1)).Nodup) (is : List Int) (his : ∀ i ∈ is, i ∈ tab.map (·.1)) (h0 : tab ≠ []) :
    ∃ xs, x0Preds tab is = .ok xs ∧ classTargs (tab.map fun e => (e.2, e.1)) xs = .ok (is.map fun i : Int => (i : ℝ)) := by
  have lk : ∀ i ∈ tab.map (·.1), ∃ x, tab.lookup i = some x ∧ (i, x) ∈ tab := by
    clear h0 his hd
    induction tab with
    | nil => simp
    | cons e tab ih =>
      intro i hi
      obtain ⟨k, v⟩ := e
      rw [List.map_cons, List.nodup_cons] at hk
      by_cases hik : i = k
      · subst hik
        exact ⟨v, by simp [List.lookup], List.mem_cons_self⟩
      · have : i ∈ tab.map (·.1) := by
          rcases List.mem_cons.mp hi with h | h
          · exact absurd h hik
          · exact h
        obtain ⟨x, h1, h2⟩ := ih hk.2 i this
        exact ⟨x, by rw [List.lookup_cons, beq_false_of_ne hik]; exact h1, List.mem_cons_of_mem _ h2⟩
  have h1 : ∃ xs, x0Preds tab is = .ok xs ∧ List.Forall₂ (fun i x => (i, x) ∈ tab) is xs := by
    clear h0
    induction is with
    | nil => exact ⟨[], rfl, .nil⟩
    | cons i is ih =>
      obtain ⟨xs, a, b⟩ := ih fun j hj => his j (List.mem_cons_of_mem _ hj)
      obtain ⟨x, c, d⟩ := lk i (his i List.mem_cons_self)
      exact ⟨x :: xs, by unfold x0Preds; simp [c, a], .cons d b⟩
  obtain ⟨xs, a, b⟩ := h1
  refine ⟨xs, a, ?_⟩
  rw [class_targets _ (by simpa using h0)]
  congr 1
  clear a his h0
  induction b with
  | nil => rfl
  | cons hix _ ih =>
    rw [List.map_cons, List.map_cons, ih]
    congr 2
    have := own_class (tab.map fun e => (e.2, e.1)) _ _ (List.mem_map.mpr ⟨_, hix, rfl⟩) (by simpa [List.map_map, Function.comp_def] using hd)
    unfold cls
    rw [this]

/-- unknown class ids raise -/
theorem unknown_error (tab : List (Int × ℝ)) (i : Int) (is : List Int) (h : tab.lookup i = none) : x0Preds tab (i :: is) = .error .keyError := by
  unfold x0Preds
  rw [h]

end C54

end

end Tomopt
