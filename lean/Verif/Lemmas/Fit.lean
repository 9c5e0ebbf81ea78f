import Verif.Spec.Scatter
import Mathlib.Tactic.Ring
import Mathlib.Tactic.Linarith
import Mathlib.Tactic.FieldSimp
import Mathlib.Tactic.LinearCombination
import Mathlib.Tactic.Positivity

/- Helper lemmas for the weighted least-squares fit. -/
namespace Tomopt

noncomputable section

open Scatter

/-- the five sums -/
def s0 (l : List FitPt) : ℝ := (l.map fun h => h.w).sum
def sx (l : List FitPt) : ℝ := (l.map fun h => h.x * h.w).sum
def sz (l : List FitPt) : ℝ := (l.map fun h => h.z * h.w).sum
def sxz (l : List FitPt) : ℝ := (l.map fun h => h.x * h.z * h.w).sum
def szz (l : List FitPt) : ℝ := (l.map fun h => h.z * h.z * h.w).sum

/-- weighted sum of squares of `c + d z` -/
def quad (l : List FitPt) (c d : ℝ) : ℝ := (l.map fun h => h.w * (c + d * h.z) ^ 2).sum

theorem quad_nonneg {l : List FitPt} (hw : ∀ h ∈ l, 0 ≤ h.w) (c d : ℝ) : 0 ≤ quad l c d := by
  apply List.sum_nonneg
  intro x hx
  obtain ⟨h, hh, rfl⟩ := List.mem_map.mp hx
  exact mul_nonneg (hw h hh) (sq_nonneg _)

theorem quad_zero {l : List FitPt} (hw : ∀ h ∈ l, 0 ≤ h.w) (c d : ℝ) (h0 : quad l c d = 0) : ∀ h ∈ l, 0 < h.w → c + d * h.z = 0 := by
  induction l with
  | nil => simp
  | cons p l ih =>
    have h1 : 0 ≤ p.w * (c + d * p.z) ^ 2 := mul_nonneg (hw p (by simp)) (sq_nonneg _)
    have h2 := quad_nonneg (fun h hh => hw h (by simp [hh]) : ∀ h ∈ l, 0 ≤ h.w) c d
    have e : quad (p :: l) c d = p.w * (c + d * p.z) ^ 2 + quad l c d := by simp [quad]
    rw [e] at h0
    intro h hh hpos
    rcases List.mem_cons.mp hh with rfl | hh
    · have : h.w * (c + d * h.z) ^ 2 = 0 := by linarith
      rcases mul_eq_zero.mp this with h3 | h3
      · exact absurd h3 hpos.ne'
      · exact pow_eq_zero_iff (two_ne_zero) |>.mp h3
    · exact ih (fun h hh => hw h (by simp [hh])) (by linarith) h hh hpos

theorem quad_expand (l : List FitPt) (c d : ℝ) : quad l c d = c ^ 2 * s0 l + 2 * c * d * sz l + d ^ 2 * szz l := by
  induction l with
  | nil => simp [quad, s0, sz, szz]
  | cons p l ih =>
    simp only [quad, s0, sz, szz, List.map_cons, List.sum_cons] at ih ⊢
    rw [ih]; ring

theorem chi2_diff (l : List FitPt) (a b a' b' : ℝ) :
    chi2 l a' b' = chi2 l a b + quad l (a - a') (b - b') + 2 * (a - a') * (sx l - a * s0 l - b * sz l) +
      2 * (b - b') * (sxz l - a * sz l - b * szz l) := by
  induction l with
  | nil => simp [chi2, quad, sx, s0, sz, sxz, szz]
  | cons p l ih =>
    simp only [chi2, quad, sx, s0, sz, sxz, szz, List.map_cons, List.sum_cons] at ih ⊢
    rw [ih]; ring

/-- determinant of the normal equations -/
theorem det_pos {l : List FitPt} (hw : ∀ h ∈ l, 0 ≤ h.w) (p q : FitPt) (hp : p ∈ l) (hq : q ∈ l) (pw : 0 < p.w) (qw : 0 < q.w) (hz : p.z ≠ q.z) :
    0 < s0 l ∧ 0 < szz l ∧ 0 < s0 l * szz l - sz l ^ 2 := by
  have key : ∀ c d : ℝ, (c ≠ 0 ∨ d ≠ 0) → 0 < quad l c d := by
    intro c d hcd
    refine lt_of_le_of_ne (quad_nonneg hw c d) (fun h0 => ?_)
    have e1 := quad_zero hw c d h0.symm p hp pw
    have e2 := quad_zero hw c d h0.symm q hq qw
    have : d * (p.z - q.z) = 0 := by linarith
    rcases mul_eq_zero.mp this with h | h
    · rw [h] at e1
      rcases hcd with h' | h'
      · exact h' (by linarith)
      · exact h' h
    · exact hz (by linarith)
  have h0 : 0 < s0 l := by
    have := key 1 0 (by simp)
    rw [quad_expand] at this; linarith
  have h1 : 0 < szz l := by
    have := key 0 1 (by simp)
    rw [quad_expand] at this; linarith
  refine ⟨h0, h1, ?_⟩
  have h2 := key (-sz l) (s0 l) (Or.inr h0.ne')
  rw [quad_expand] at h2
  have : 0 < s0 l * (s0 l * szz l - sz l ^ 2) := by nlinarith
  exact (pos_iff_pos_of_mul_pos this).mp h0

/-- the code's formulas solve the normal equations -/
theorem fitAxis_normal {l : List FitPt} (h0 : s0 l ≠ 0) (h1 : szz l ≠ 0) (h2 : s0 l * szz l - sz l ^ 2 ≠ 0) :
    ∃ a b, fitAxis l = some (a, b) ∧ sx l = a * s0 l + b * sz l ∧ sxz l = a * sz l + b * szz l := by
  have hm : szz l / s0 l ≠ 0 := div_ne_zero h1 h0
  have hd : 1 - (sz l / s0 l) ^ 2 / (szz l / s0 l) = (s0 l * szz l - sz l ^ 2) / (s0 l * szz l) := by
    field_simp
  have hd' : 1 - (sz l / s0 l) ^ 2 / (szz l / s0 l) ≠ 0 := by
    rw [hd]; exact div_ne_zero h2 (mul_ne_zero h0 h1)
  refine ⟨(sx l * szz l - sz l * sxz l) / (s0 l * szz l - sz l ^ 2), (s0 l * sxz l - sz l * sx l) / (s0 l * szz l - sz l ^ 2), ?_, ?_, ?_⟩
  · have e1 : (sx l / s0 l - sz l / s0 l * (sxz l / s0 l) / (szz l / s0 l)) / (1 - (sz l / s0 l) ^ 2 / (szz l / s0 l)) =
        (sx l * szz l - sz l * sxz l) / (s0 l * szz l - sz l ^ 2) := by
      rw [hd]; field_simp
    have hu : fitAxis l = if s0 l = 0 then none else if szz l / s0 l = 0 then none else
        if 1 - (sz l / s0 l) ^ 2 / (szz l / s0 l) = 0 then none else
        some ((sx l / s0 l - sz l / s0 l * (sxz l / s0 l) / (szz l / s0 l)) / (1 - (sz l / s0 l) ^ 2 / (szz l / s0 l)),
          (sxz l / s0 l - (sx l / s0 l - sz l / s0 l * (sxz l / s0 l) / (szz l / s0 l)) / (1 - (sz l / s0 l) ^ 2 / (szz l / s0 l)) * (sz l / s0 l)) /
            (szz l / s0 l)) := rfl
    rw [hu, if_neg h0, if_neg hm, if_neg hd', e1]
    congr 2
    generalize s0 l = A at *
    generalize sx l = B at *
    generalize sz l = C at *
    generalize sxz l = D at *
    generalize szz l = E at *
    rw [div_div_eq_mul_div, div_eq_div_iff h1 h2, sub_mul, div_mul_cancel₀ _ h0, mul_assoc, div_mul_cancel₀ _ h0, sub_mul]
    have : (B * E - C * D) / (A * E - C ^ 2) * C * (A * E - C ^ 2) = (B * E - C * D) * C := by
      rw [mul_right_comm, div_mul_cancel₀ _ h2]
    rw [this]; ring
  · rw [div_mul_eq_mul_div, div_mul_eq_mul_div, ← add_div, eq_div_iff h2]; ring
  · rw [div_mul_eq_mul_div, div_mul_eq_mul_div, ← add_div, eq_div_iff h2]; ring

end

end Tomopt
