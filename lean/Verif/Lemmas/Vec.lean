import Verif.Spec.Scatter
import Mathlib.Tactic.Ring
import Mathlib.Tactic.Linarith
import Mathlib.Tactic.FieldSimp
import Mathlib.Tactic.LinearCombination
import Mathlib.Tactic.Positivity

/- Helper lemmas on vectors, angles and closest points. -/
namespace Tomopt

noncomputable section

open Real Scatter

theorem cramer3 (a b c r : V3) : det3 a b c * r.1 = det3 r b c * a.1 + det3 a r c * b.1 + det3 a b r * c.1 ∧
    det3 a b c * r.2.1 = det3 r b c * a.2.1 + det3 a r c * b.2.1 + det3 a b r * c.2.1 ∧
    det3 a b c * r.2.2 = det3 r b c * a.2.2 + det3 a r c * b.2.2 + det3 a b r * c.2.2 := by
  simp only [det3, vdot, vcross]
  refine ⟨by ring, by ring, by ring⟩

theorem vnorm_eq (p : V3) : vnorm p = len3 p := by
  unfold vnorm len3 vdot; congr 1; ring

theorem vdot_self (p : V3) : vdot p p = len3 p ^ 2 := by
  rw [len3, sq_sqrt (by positivity)]; unfold vdot; ring

theorem len3_nonneg (p : V3) : 0 ≤ len3 p := sqrt_nonneg _

theorem len3_zero (p : V3) : len3 p = 0 ↔ p = (0, 0, 0) := by
  unfold len3
  rw [sqrt_eq_zero (by positivity)]
  constructor
  · intro h
    have h1 := sq_nonneg p.1
    have h2 := sq_nonneg p.2.1
    have h3 := sq_nonneg p.2.2
    have e1 : p.1 = 0 := by rw [← sq_eq_zero_iff]; linarith
    have e2 : p.2.1 = 0 := by rw [← sq_eq_zero_iff]; linarith
    have e3 : p.2.2 = 0 := by rw [← sq_eq_zero_iff]; linarith
    exact Prod.ext e1 (Prod.ext e2 e3)
  · rintro rfl; simp

theorem len3_pos (p : V3) (h : p ≠ (0, 0, 0)) : 0 < len3 p :=
  lt_of_le_of_ne (len3_nonneg p) (fun e => h ((len3_zero p).mp e.symm))

theorem lagrange (p q : V3) : len3 p ^ 2 * len3 q ^ 2 - vdot p q ^ 2 = len3 (vcross p q) ^ 2 := by
  rw [← vdot_self, ← vdot_self, ← vdot_self]; simp only [vdot, vcross]; ring

theorem cross_zero_parallel (p q : V3) : vcross p q = (0, 0, 0) ↔ Parallel p q := by
  constructor
  · intro h
    simp only [vcross, Prod.mk.injEq] at h
    obtain ⟨h1, h2, h3⟩ := h
    by_cases hp : p = (0, 0, 0)
    · exact ⟨1, 0, Or.inl one_ne_zero, by rw [hp]; simp [scale3]⟩
    · have : p.1 ≠ 0 ∨ p.2.1 ≠ 0 ∨ p.2.2 ≠ 0 := by
        by_contra hc
        push Not at hc
        exact hp (Prod.ext hc.1 (Prod.ext hc.2.1 hc.2.2))
      rcases this with hc | hc | hc
      · refine ⟨q.1, p.1, Or.inr hc, ?_⟩
        simp only [scale3, Prod.mk.injEq]; refine ⟨by ring, by linarith, by linarith⟩
      · refine ⟨q.2.1, p.2.1, Or.inr hc, ?_⟩
        simp only [scale3, Prod.mk.injEq]; refine ⟨by linarith, by ring, by linarith⟩
      · refine ⟨q.2.2, p.2.2, Or.inr hc, ?_⟩
        simp only [scale3, Prod.mk.injEq]; refine ⟨by linarith, by linarith, by ring⟩
  · rintro ⟨a, b, hab, h⟩
    simp only [scale3, Prod.mk.injEq] at h
    obtain ⟨h1, h2, h3⟩ := h
    have z : ∀ x y : ℝ, a * x = 0 → b * x = 0 → x = 0 := by
      intro x _ h h'
      rcases hab with ha | hb
      · exact (mul_eq_zero.mp h).resolve_left ha
      · exact (mul_eq_zero.mp h').resolve_left hb
    simp only [vcross, Prod.mk.injEq]
    refine ⟨z _ 0 ?_ ?_, z _ 0 ?_ ?_, z _ 0 ?_ ?_⟩
    · linear_combination q.2.2 * h2 - q.2.1 * h3
    · linear_combination p.2.2 * h2 - p.2.1 * h3
    · linear_combination q.1 * h3 - q.2.2 * h1
    · linear_combination p.1 * h3 - p.2.2 * h1
    · linear_combination q.2.1 * h1 - q.1 * h2
    · linear_combination p.2.1 * h1 - p.1 * h2

/-- polar coordinates in the plane, as the code computes phi -/
theorem phiOf_spec (x y : ℝ) : 0 ≤ phiOf x y ∧ phiOf x y < 2 * π ∧ sqrt (x ^ 2 + y ^ 2) * cos (phiOf x y) = x ∧
    sqrt (x ^ 2 + y ^ 2) * sin (phiOf x y) = y := by
  have hpi := pi_pos
  by_cases hx : x = 0
  · subst hx
    rcases lt_trichotomy y 0 with hy | hy | hy
    · have e : phiOf 0 y = 3 * π / 2 := by simp [phiOf, hy, hy.le, not_lt.mpr hy.le]
      have ec : cos (3 * π / 2) = 0 := by
        rw [show 3 * π / 2 = π / 2 + π by ring, cos_add_pi, cos_pi_div_two, neg_zero]
      have es : sin (3 * π / 2) = -1 := by
        rw [show 3 * π / 2 = π / 2 + π by ring, sin_add_pi, sin_pi_div_two]
      rw [e, ec, es]
      refine ⟨by positivity, by linarith, by ring, ?_⟩
      rw [show (0 : ℝ) ^ 2 + y ^ 2 = (-y) ^ 2 by ring, sqrt_sq (by linarith)]; ring
    · subst hy
      have e : phiOf 0 0 = 0 := by simp [phiOf]
      rw [e]
      refine ⟨le_refl _, by linarith, by simp, by simp⟩
    · have e : phiOf 0 y = π / 2 := by simp [phiOf, hy, not_lt.mpr hy.le]
      rw [e, cos_pi_div_two, sin_pi_div_two]
      refine ⟨by positivity, by linarith, by ring, ?_⟩
      rw [show (0 : ℝ) ^ 2 + y ^ 2 = y ^ 2 by ring, sqrt_sq hy.le]; ring
  · have h1 := neg_pi_div_two_lt_arctan (y / x)
    have h2 := arctan_lt_pi_div_two (y / x)
    have hs : sqrt (x ^ 2 + y ^ 2) = |x| * sqrt (1 + (y / x) ^ 2) := by
      rw [← sqrt_sq_eq_abs, ← sqrt_mul (sq_nonneg x)]
      congr 1; field_simp
    have hp : 0 < sqrt (1 + (y / x) ^ 2) := sqrt_pos.mpr (by positivity)
    have hc : sqrt (x ^ 2 + y ^ 2) * cos (arctan (y / x)) = |x| := by
      rw [hs, cos_arctan]; field_simp
    have hsn : sqrt (x ^ 2 + y ^ 2) * sin (arctan (y / x)) = |x| * (y / x) := by
      rw [hs, sin_arctan]; field_simp
    rcases lt_or_gt_of_ne hx with hneg | hpos
    · have e : phiOf x y = arctan (y / x) + π := by
        simp [phiOf, hx, hneg, not_lt.mpr hneg.le]
      rw [e, cos_add_pi, sin_add_pi, mul_neg, mul_neg, hc, hsn, abs_of_neg hneg]
      refine ⟨by linarith, by linarith, by ring, by field_simp⟩
    · by_cases hy : y < 0
      · have e : phiOf x y = arctan (y / x) + 2 * π := by
          simp [phiOf, hx, hpos, not_lt.mpr hpos.le, hy]
        have hneg : arctan (y / x) < 0 := by
          rw [arctan_lt_zero]; exact div_neg_of_neg_of_pos hy hpos
        rw [e, cos_add_two_pi, sin_add_two_pi, hc, hsn, abs_of_pos hpos]
        refine ⟨by linarith, by linarith, rfl, by field_simp⟩
      · have e : phiOf x y = arctan (y / x) := by
          simp [phiOf, hx, not_lt.mpr hpos.le, hy]
        have hnn : 0 ≤ arctan (y / x) := by
          rw [arctan_nonneg]; exact div_nonneg (not_lt.mp hy) hpos.le
        rw [e, hc, hsn, abs_of_pos hpos]
        refine ⟨hnn, by linarith, rfl, by field_simp⟩

/-- azimuth differences modulo a full turn -/
theorem dphiMin_spec (a b : ℝ) (ha : 0 ≤ a) (ha' : a < 2 * π) (hb : 0 ≤ b) (hb' : b < 2 * π) :
    0 ≤ dphiMin a b ∧ dphiMin a b ≤ π ∧ (∃ s : ℝ, (s = 1 ∨ s = -1) ∧ ∃ k : ℤ, a + s * dphiMin a b = b + 2 * π * k) ∧
    ∀ (d : ℝ) (k : ℤ), a + d = b + 2 * π * k → dphiMin a b ≤ |d| := by
  have hpi := pi_pos
  have m1 : dphiMin a b ≤ 2 * π - a + b := (min_le_left _ _).trans (min_le_left _ _)
  have m2 : dphiMin a b ≤ 2 * π - b + a := (min_le_left _ _).trans (min_le_right _ _)
  have m3 : dphiMin a b ≤ |a - b| := min_le_right _ _
  have m3a : dphiMin a b ≤ |b - a| := by rw [abs_sub_comm]; exact m3
  refine ⟨?_, ?_, ?_, ?_⟩
  · exact le_min (le_min (by linarith) (by linarith)) (abs_nonneg _)
  · rcases abs_cases (a - b) with ⟨h, _⟩ | ⟨h, _⟩ <;> linarith
  · unfold dphiMin
    rcases min_choice (min (2 * π - a + b) (2 * π - b + a)) |a - b| with h | h
    · rw [h]
      rcases min_choice (2 * π - a + b) (2 * π - b + a) with h' | h'
      · rw [h']; exact ⟨1, Or.inl rfl, 1, by push_cast; ring⟩
      · rw [h']; exact ⟨-1, Or.inr rfl, -1, by push_cast; ring⟩
    · rw [h]
      rcases abs_cases (a - b) with ⟨h', _⟩ | ⟨h', _⟩
      · rw [h']; exact ⟨-1, Or.inr rfl, 0, by push_cast; ring⟩
      · rw [h']; exact ⟨1, Or.inl rfl, 0, by push_cast; ring⟩
  · intro d k h
    rcases lt_trichotomy k 0 with hk | hk | hk
    · have : (k : ℝ) ≤ -1 := by exact_mod_cast Int.le_sub_one_of_lt hk
      have : -d ≤ |d| := neg_le_abs d
      nlinarith
    · subst hk
      have : d = b - a := by push_cast at h; linarith
      rw [this]; exact m3a
    · have : (1 : ℝ) ≤ k := by exact_mod_cast hk
      have : d ≤ |d| := le_abs_self d
      nlinarith

end

end Tomopt
