import Verif.Lemmas.AngleErr
import Verif.Lemmas.Floats

/- Roots of rounded squares. -/
namespace Tomopt

noncomputable section

open Real Scatter Floats

namespace C131

/-- rounding keeps the order -/
theorem mono (p : Nat) (fl : ℝ → ℝ) (hf : Nearest p fl) {x y : ℝ} (h : x ≤ y) : fl x ≤ fl y := by
  rcases eq_or_lt_of_le h with rfl | h
  · exact le_rfl
  · by_contra hc
    push Not at hc
    have a := sq_le_sq.mpr ((hf x).2 (fl y) (hf y).1)
    have b := sq_le_sq.mpr ((hf y).2 (fl x) (hf x).1)
    nlinarith

/-- rounding the square and the root of a number gives the number back -/
theorem sqrt_sq (p : Nat) (hp : 2 ≤ p) (fl : ℝ → ℝ) (hf : Nearest p fl) (z : ℝ) (hz : IsFloat p z) (hpos : 0 < z) : z ≤ fl (sqrt (fl (z * z))) := by
  obtain ⟨k, hk1, hk2⟩ := exists_mem_Ico_zpow hpos (one_lt_two (α := ℝ))
  obtain ⟨j, hj⟩ := multiple p k z hz hk1 (by omega)
  have hU : (0 : ℝ) < 2 ^ (k + 1 - p) := by positivity
  have e1 : (2 : ℝ) ^ k = 2 ^ (p - 1) * (2 : ℝ) ^ (k + 1 - p) := by
    rw [← zpow_natCast, ← zpow_add₀ two_ne_zero]; congr 1; omega
  have e2 : (2 : ℝ) ^ (k + 1) = 2 ^ p * (2 : ℝ) ^ (k + 1 - p) := by
    rw [← zpow_natCast, ← zpow_add₀ two_ne_zero]; congr 1; omega
  have j1 : (2 : ℤ) ^ (p - 1) ≤ j := by
    rw [hj, e1] at hk1
    exact_mod_cast le_of_mul_le_mul_right hk1 hU
  have j2 : j < (2 : ℤ) ^ p := by
    rw [hj, e2] at hk2
    exact_mod_cast lt_of_mul_lt_mul_right hk2 hU.le
  rcases eq_or_lt_of_le j1 with rfl | j1
  · have hz' : z = (2 : ℝ) ^ k := by rw [hj, e1]; push_cast; rfl
    have : IsFloat p (z * z) := ⟨1, k + k, by simpa using one_le_pow₀ (by norm_num), by rw [hz', zpow_add₀ two_ne_zero]; simp⟩
    rw [nearest_self p fl hf _ this, sqrt_mul_self hpos.le, nearest_self p fl hf _ hz]
  · have ne := nearest_error p (by omega) fl hf (z * z) (by positivity)
    have P : (4 : ℝ) ≤ 2 ^ p := by
      have := pow_le_pow_right₀ (by norm_num : (1 : ℝ) ≤ 2) hp; linarith
    have r1 : (1 : ℝ) ≤ j := by
      have : (1 : ℤ) ≤ 2 ^ (p - 1) := one_le_pow₀ (by norm_num)
      exact_mod_cast (by omega : (1 : ℤ) ≤ j)
    have r2 : (j : ℝ) ≤ 2 ^ p - 1 := by
      have : j ≤ (2 : ℤ) ^ p - 1 := by omega
      exact_mod_cast this
    have r3 : (2 : ℝ) ^ (p - 1) + 1 ≤ j := by exact_mod_cast (by omega : (2 : ℤ) ^ (p - 1) + 1 ≤ j)
    have prod := mul_nonneg (sub_nonneg.mpr r1) (sub_nonneg.mpr r2)
    generalize hgen : (2 : ℝ) ^ (k + 1 - p) = U at *
    have big : (((j : ℝ) - 1 / 2) * U) ^ 2 < fl (z * z) := by
      have a := (abs_le.mp (le_of_mul_le_mul_left (by rw [mul_div_cancel₀ _ (by positivity)]; exact ne) (by positivity : (0 : ℝ) < 2 ^ p) : |z * z - fl (z * z)| ≤ z * z / 2 ^ p)).2
      have b : z * z / 2 ^ p < (j - 1 / 4) * U ^ 2 := by
        rw [div_lt_iff₀ (by positivity), hj]
        have : (j : ℝ) * j < (j - 1 / 4) * 2 ^ p := by nlinarith
        have := mul_lt_mul_of_pos_right this (pow_pos hU 2)
        nlinarith
      have c : z * z = (j : ℝ) ^ 2 * U ^ 2 := by rw [hj]; ring
      nlinarith
    have y1 := lt_sqrt_of_sq_lt big
    rcases le_or_gt z (sqrt (fl (z * z))) with h | h
    · exact nearest_ge p fl hf _ z hz h
    · have y2 : sqrt (fl (z * z)) < j * U := by rw [← hj]; exact h
      have := nearest_eq p (by omega) fl hf k j (sqrt (fl (z * z))) (by rw [e1]; nlinarith) (by rw [abs_of_pos (by exact_mod_cast (by linarith : (0 : ℝ) < j))]; exact j2.le)
        (by rw [hgen, abs_lt]; constructor <;> nlinarith)
      rw [this, hgen, hj]

end C131

end

end Tomopt
