import Verif.Model.Infer
import Mathlib.Tactic.Ring
import Mathlib.Tactic.Linarith
import Mathlib.Tactic.Positivity
import Mathlib.Tactic.FieldSimp
import Mathlib.Algebra.BigOperators.Group.List.Basic
import Mathlib.Algebra.Order.BigOperators.Group.List

/- Helper lemmas about weighted sums. -/
namespace Tomopt

noncomputable section

open Real Infer

theorem sum_nonneg' : ∀ l : List ℝ, (∀ x ∈ l, 0 ≤ x) → 0 ≤ l.sum
  | [], _ => by simp
  | x :: l, h => by
    have := sum_nonneg' l fun y hy => h y (by simp [hy])
    have := h x (by simp)
    simp only [List.sum_cons]; linarith

theorem sum_pos' (l : List ℝ) (hne : l ≠ []) (h : ∀ x ∈ l, 0 < x) : 0 < l.sum := by
  cases l with
  | nil => exact absurd rfl hne
  | cons x l =>
    have := sum_nonneg' l fun y hy => (h y (by simp [hy])).le
    have := h x (by simp)
    simp only [List.sum_cons]; linarith

/-- weighted sums are between the bounds times the total weight -/
theorem wsum_bounds (f : ℝ → ℝ) (lo hi : ℝ) : ∀ (xs ws : List ℝ), xs.length = ws.length → (∀ w ∈ ws, 0 ≤ w) → (∀ x ∈ xs, lo ≤ f x ∧ f x ≤ hi) →
    lo * ws.sum ≤ (List.zipWith (fun x w => f x * w) xs ws).sum ∧ (List.zipWith (fun x w => f x * w) xs ws).sum ≤ hi * ws.sum
  | [], [], _, _, _ => by simp
  | x :: xs, w :: ws, hl, hw, hx => by
    obtain ⟨h1, h2⟩ := wsum_bounds f lo hi xs ws (by simpa using hl) (fun w hw' => hw w (by simp [hw'])) (fun x hx' => hx x (by simp [hx']))
    obtain ⟨h3, h4⟩ := hx x (by simp)
    have h5 := hw w (by simp)
    simp only [List.zipWith_cons_cons, List.sum_cons]
    constructor
    · nlinarith [mul_le_mul_of_nonneg_right h3 h5]
    · nlinarith [mul_le_mul_of_nonneg_right h4 h5]

/-- strict upper bound -/
theorem wsum_lt (f : ℝ → ℝ) (hi : ℝ) : ∀ (xs ws : List ℝ), xs.length = ws.length → ws ≠ [] → (∀ w ∈ ws, 0 < w) → (∀ x ∈ xs, f x < hi) →
    (List.zipWith (fun x w => f x * w) xs ws).sum < hi * ws.sum
  | [], [], _, h, _, _ => absurd rfl h
  | x :: xs, w :: ws, hl, _, hw, hx => by
    have h3 := hx x (by simp)
    have h5 := hw w (by simp)
    have h6 := mul_lt_mul_of_pos_right h3 h5
    simp only [List.zipWith_cons_cons, List.sum_cons]
    obtain ⟨_, h2⟩ := wsum_bounds f (f x) hi [x] [w] rfl (by simp [h5.le]) (by simp [h3.le])
    by_cases hws : ws = []
    · subst hws
      have : xs = [] := by simpa using hl
      subst this
      simp; linarith
    · have h1 := wsum_lt f hi xs ws (by simpa using hl) hws (fun w hw' => hw w (by simp [hw'])) (fun x hx' => hx x (by simp [hx']))
      nlinarith

theorem wsum_pos (f : ℝ → ℝ) : ∀ (xs ws : List ℝ), xs.length = ws.length → ws ≠ [] → (∀ w ∈ ws, 0 < w) → (∀ x ∈ xs, 0 < f x) →
    0 < (List.zipWith (fun x w => f x * w) xs ws).sum := by
  intro xs ws hl hne hw hx
  apply sum_pos'
  · cases xs with
    | nil => simp at hl; exact absurd hl.symm (by intro h; exact hne (List.eq_nil_of_length_eq_zero (by rw [← h])))
    | cons x xs =>
      cases ws with
      | nil => exact absurd rfl hne
      | cons w ws => simp
  · intro z hz
    rw [List.mem_iff_getElem] at hz
    obtain ⟨i, hi, rfl⟩ := hz
    simp only [List.getElem_zipWith]
    exact mul_pos (hx _ (List.getElem_mem _)) (hw _ (List.getElem_mem _))

theorem sum_scale (k : ℝ) (l : List ℝ) : (l.map (k * ·)).sum = k * l.sum := by
  induction l with
  | nil => simp
  | cons a l ih => simp [ih, mul_add]

theorem wsum_scale (f : ℝ → ℝ) (k : ℝ) : ∀ (xs ws : List ℝ), (List.zipWith (fun x w => f x * w) xs (ws.map (k * ·))).sum =
    k * (List.zipWith (fun x w => f x * w) xs ws).sum
  | [], _ => by simp
  | _ :: _, [] => by simp
  | x :: xs, w :: ws => by
    simp only [List.map_cons, List.zipWith_cons_cons, List.sum_cons, wsum_scale f k xs ws]; ring

theorem wsum_const (c : ℝ) (f : ℝ → ℝ) : ∀ (xs ws : List ℝ), xs.length = ws.length → (∀ x ∈ xs, f x = c) →
    (List.zipWith (fun x w => f x * w) xs ws).sum = c * ws.sum := by
  intro xs ws hl hx
  induction xs generalizing ws with
  | nil => cases ws with
    | nil => simp
    | cons => simp at hl
  | cons x xs ih =>
    cases ws with
    | nil => simp at hl
    | cons w ws =>
      simp only [List.zipWith_cons_cons, List.sum_cons, ih ws (by simpa using hl) (fun y hy => hx y (by simp [hy])), hx x (by simp)]; ring

/-- the weight of one muon for one variable is positive -/
theorem weight_pos (big w v : ℝ) (hb : 0 < big) (hw : 0 < w) (hv : 0 ≤ v) : 0 < nanToNum big (XF.quot w v) := by
  unfold XF.quot
  by_cases h : v = 0
  · rw [if_neg (by simpa using h), if_pos hw]; exact hb
  · rw [if_pos h]; exact div_pos hw (lt_of_le_of_ne hv (Ne.symm h))

theorem zipWith_mem {α β γ : Type} {f : α → β → γ} {xs : List α} {ys : List β} {z : γ} (h : z ∈ List.zipWith f xs ys) : ∃ x ∈ xs, ∃ y ∈ ys, z = f x y := by
  rw [List.mem_iff_getElem] at h
  obtain ⟨i, hi, rfl⟩ := h
  simp only [List.length_zipWith] at hi
  exact ⟨xs[i], List.getElem_mem _, ys[i], List.getElem_mem _, by simp⟩

end

end Tomopt
