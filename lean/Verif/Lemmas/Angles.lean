import Verif.Lemmas.Muon
import Mathlib.Tactic.Linarith
import Mathlib.Tactic.Ring
import Mathlib.Tactic.FieldSimp
import Mathlib.Tactic.Positivity

/- Helper lemmas about angles. -/
namespace Tomopt

open Real

theorem pmod_nonneg (a : ℝ) {b : ℝ} (hb : 0 < b) : 0 ≤ pmod a b := by
  unfold pmod
  have := Int.floor_le (a / b)
  have h2 : b * (⌊a / b⌋ : ℝ) ≤ b * (a / b) := mul_le_mul_of_nonneg_left this hb.le
  have h3 : b * (a / b) = a := by field_simp
  linarith

theorem pmod_lt (a : ℝ) {b : ℝ} (hb : 0 < b) : pmod a b < b := by
  unfold pmod
  have := Int.lt_floor_add_one (a / b)
  have h2 : b * (a / b) < b * ((⌊a / b⌋ : ℝ) + 1) := mul_lt_mul_of_pos_left this hb
  have h3 : b * (a / b) = a := by field_simp
  linarith

theorem two_pi_pos : 0 < 2 * π := by positivity

theorem sin_pmod (a : ℝ) : sin (pmod a (2 * π)) = sin a := by
  unfold pmod
  rw [mul_comm]
  exact Real.sin_sub_int_mul_two_pi a _

theorem cos_pmod (a : ℝ) : cos (pmod a (2 * π)) = cos a := by
  unfold pmod
  rw [mul_comm]
  exact Real.cos_sub_int_mul_two_pi a _

/-- round trip in theta -/
theorem theta_roundtrip {th ph : ℝ} (h0 : 0 ≤ th) (h1 : th < π / 2) :
    ∃ tx ty, thetaXFromThetaPhi th ph = some tx ∧ thetaYFromThetaPhi th ph = some ty ∧
      thetaFromThetaXY tx ty = some th ∧ tan tx = tan th * cos ph ∧ tan ty = tan th * sin ph ∧
      |tx| < π / 2 ∧ |ty| < π / 2 := by
  have hn : ¬ th ≥ π / 2 := not_le.mpr h1
  refine ⟨arctan (tan th * cos ph), arctan (tan th * sin ph), by simp [thetaXFromThetaPhi, hn],
    by simp [thetaYFromThetaPhi, hn], ?_, tan_arctan _, tan_arctan _, ?_, ?_⟩
  · have a1 : |arctan (tan th * cos ph)| < π / 2 := abs_lt.mpr ⟨by linarith [neg_pi_div_two_lt_arctan (tan th * cos ph)], arctan_lt_pi_div_two _⟩
    have a2 : |arctan (tan th * sin ph)| < π / 2 := abs_lt.mpr ⟨by linarith [neg_pi_div_two_lt_arctan (tan th * sin ph)], arctan_lt_pi_div_two _⟩
    unfold thetaFromThetaXY
    rw [if_neg (by push Not; exact ⟨a1, a2⟩), tan_arctan, tan_arctan]
    have ht : 0 ≤ tan th := tan_nonneg_of_nonneg_of_le_pi_div_two h0 h1.le
    have : (tan th * cos ph) ^ 2 + (tan th * sin ph) ^ 2 = tan th ^ 2 := by
      have := sin_sq_add_cos_sq ph
      have e : (tan th * cos ph) ^ 2 + (tan th * sin ph) ^ 2 = tan th ^ 2 * (sin ph ^ 2 + cos ph ^ 2) := by ring
      rw [e, this, mul_one]
    rw [this, sqrt_sq ht, arctan_tan (by linarith [pi_pos]) h1]
  · exact abs_lt.mpr ⟨by linarith [neg_pi_div_two_lt_arctan (tan th * cos ph)], arctan_lt_pi_div_two _⟩
  · exact abs_lt.mpr ⟨by linarith [neg_pi_div_two_lt_arctan (tan th * sin ph)], arctan_lt_pi_div_two _⟩

theorem neg_of_tan_neg {t : ℝ} (h : |t| < π / 2) : (t < 0 ↔ tan t < 0) ∧ (t = 0 ↔ tan t = 0) ∧ (0 < t ↔ 0 < tan t) := by
  obtain ⟨h1, h2⟩ := abs_lt.mp h
  have mono := Real.strictMonoOn_tan
  have hm : t ∈ Set.Ioo (-(π / 2)) (π / 2) := ⟨h1, h2⟩
  have hz : (0 : ℝ) ∈ Set.Ioo (-(π / 2)) (π / 2) := ⟨by linarith [pi_pos], by linarith [pi_pos]⟩
  refine ⟨?_, ?_, ?_⟩
  · have := mono.lt_iff_lt hm hz; rw [tan_zero] at this; exact this.symm
  · have := mono.injOn.eq_iff hm hz; rw [tan_zero] at this; exact this.symm
  · have := mono.lt_iff_lt hz hm; rw [tan_zero] at this; exact this.symm

/-- phi computed from projected angles whose tangents are `r cos ph`, `r sin ph` with `r > 0` is `ph`. -/
theorem phi_of_polar {tx ty r ph : ℝ} (hx : |tx| < π / 2) (hy : |ty| < π / 2) (hr : 0 < r)
    (h0 : 0 ≤ ph) (h2 : ph < 2 * π) (ex : tan tx = r * cos ph) (ey : tan ty = r * sin ph) :
    phiFromThetaXY tx ty = some ph := by
  unfold phiFromThetaXY
  rw [if_neg (by push Not; exact ⟨hx, hy⟩)]
  obtain ⟨x1, x2, x3⟩ := neg_of_tan_neg hx
  obtain ⟨y1, y2, y3⟩ := neg_of_tan_neg hy
  have hpi := pi_pos
  rw [ex] at x1 x2 x3
  rw [ey] at y1 y2 y3
  have sx : tx < 0 ↔ cos ph < 0 := by
    rw [x1]; constructor
    · intro h; by_contra hc; push Not at hc; exact absurd (mul_nonneg hr.le hc) (by linarith)
    · intro h; exact mul_neg_of_pos_of_neg hr h
  have sy : ty < 0 ↔ sin ph < 0 := by
    rw [y1]; constructor
    · intro h; by_contra hc; push Not at hc; exact absurd (mul_nonneg hr.le hc) (by linarith)
    · intro h; exact mul_neg_of_pos_of_neg hr h
  have tdiv : cos ph ≠ 0 → arctanDiv (tan ty) (tan tx) = some (arctan (tan ph)) := by
    intro hc
    unfold arctanDiv
    rw [ex, ey, if_pos (mul_ne_zero hr.ne' hc), mul_div_mul_left _ _ hr.ne', ← tan_eq_sin_div_cos]
  rcases lt_trichotomy ph (π / 2) with hlt | heq | hgt
  · -- first quadrant
    have hc : 0 < cos ph := cos_pos_of_mem_Ioo ⟨by linarith, hlt⟩
    have hs : 0 ≤ sin ph := sin_nonneg_of_nonneg_of_le_pi h0 (by linarith)
    rw [tdiv hc.ne', Option.map_some]
    rw [if_neg (by rw [sx]; linarith), if_neg (by rw [sy]; linarith), arctan_tan (by linarith) hlt]
  · subst heq
    have hc : cos (π / 2) = 0 := cos_pi_div_two
    have hs : sin (π / 2) = 1 := sin_pi_div_two
    unfold arctanDiv
    rw [ex, ey, hc, hs]
    simp only [mul_zero, ne_eq, not_true_eq_false, if_false, mul_one, hr, if_true, Option.map_some]
    rw [if_neg (by rw [sx, hc]; linarith), if_neg (by rw [sy, hs]; linarith)]
  · rcases lt_trichotomy ph (3 * π / 2) with hlt | heq | hgt3
    · have hc : cos ph < 0 := by
        have := cos_neg_of_pi_div_two_lt_of_lt hgt (by linarith : ph < π + π / 2)
        exact this
      rw [tdiv hc.ne, Option.map_some, if_pos (sx.mpr hc)]
      have : tan ph = tan (ph - π) := by rw [tan_sub_pi]
      rw [this, arctan_tan (by linarith) (by linarith)]
      congr 1; ring
    · have e : ph = π / 2 + π := by rw [heq]; ring
      have hc : cos ph = 0 := by rw [e, cos_add_pi, cos_pi_div_two, neg_zero]
      have hs : sin ph = -1 := by rw [e, sin_add_pi, sin_pi_div_two]
      have hyneg : ty < 0 := sy.mpr (by rw [hs]; linarith)
      unfold arctanDiv
      rw [ex, ey, hc, hs]
      have hr' : ¬ (0 : ℝ) < r * -1 := by linarith
      have hr'' : r * -1 < 0 := by linarith
      simp only [mul_zero, ne_eq, not_true_eq_false, if_false, hr', hr'', if_true, Option.map_some]
      rw [if_neg (by rw [sx, hc]; linarith), if_pos hyneg]
      congr 1; rw [heq]; ring
    · have hc : 0 < cos ph := by
        have : cos ph = cos (ph - 2 * π) := by rw [cos_sub_two_pi]
        rw [this]; exact cos_pos_of_mem_Ioo ⟨by linarith, by linarith⟩
      have hs : sin ph < 0 := by
        have : sin ph = sin (ph - 2 * π) := by rw [sin_sub_two_pi]
        rw [this]; exact sin_neg_of_neg_of_neg_pi_lt (by linarith) (by linarith)
      rw [tdiv hc.ne', Option.map_some, if_neg (by rw [sx]; linarith), if_pos (sy.mpr hs)]
      have : tan ph = tan (ph - 2 * π) := by
        rw [tan_eq_sin_div_cos, tan_eq_sin_div_cos, sin_sub_two_pi, cos_sub_two_pi]
      rw [this, arctan_tan (by linarith) (by linarith)]
      congr 1; ring

/-- every non-zero point of the plane has a polar representation with angle in `[0, 2pi)` -/
theorem polar_exists (a b : ℝ) (h : a ≠ 0 ∨ b ≠ 0) :
    ∃ ph, 0 ≤ ph ∧ ph < 2 * π ∧ a = sqrt (a ^ 2 + b ^ 2) * cos ph ∧ b = sqrt (a ^ 2 + b ^ 2) * sin ph := by
  have hpi := pi_pos
  set r := sqrt (a ^ 2 + b ^ 2) with hr
  have hpos : 0 < a ^ 2 + b ^ 2 := by
    rcases h with h | h
    · have := sq_pos_of_ne_zero (a := a) h; have := sq_nonneg b; linarith
    · have := sq_pos_of_ne_zero (a := b) h; have := sq_nonneg a; linarith
  have hrpos : 0 < r := sqrt_pos.mpr hpos
  have hr2 : r ^ 2 = a ^ 2 + b ^ 2 := sq_sqrt hpos.le
  have hle : |a / r| ≤ 1 := by
    rw [abs_div, abs_of_pos hrpos, div_le_one hrpos]
    apply abs_le_of_sq_le_sq _ hrpos.le
    rw [hr2]; have := sq_nonneg b; linarith
  obtain ⟨hl1, hl2⟩ := abs_le.mp hle
  have hc := cos_arccos hl1 hl2
  have hs : sin (arccos (a / r)) = |b| / r := by
    rw [sin_arccos]
    have : 1 - (a / r) ^ 2 = (|b| / r) ^ 2 := by
      rw [div_pow, div_pow, sq_abs]; field_simp; rw [hr2]; ring
    rw [this, sqrt_sq (by positivity)]
  by_cases hb : 0 ≤ b
  · refine ⟨arccos (a / r), arccos_nonneg _, by linarith [arccos_le_pi (a / r)], ?_, ?_⟩
    · rw [hc]; field_simp
    · rw [hs, abs_of_nonneg hb]; field_simp
  · push Not at hb
    refine ⟨2 * π - arccos (a / r), by linarith [arccos_le_pi (a / r)], ?_, ?_, ?_⟩
    · have hne : 0 < arccos (a / r) := by
        rw [arccos_pos]
        rw [div_lt_one hrpos]
        have : a ^ 2 < r ^ 2 := by rw [hr2]; have := sq_pos_of_ne_zero (a := b) hb.ne; linarith
        nlinarith [abs_nonneg a, le_abs_self a]
      linarith
    · rw [cos_two_pi_sub, hc]; field_simp
    · rw [sin_two_pi_sub, hs, abs_of_neg hb]; field_simp

end Tomopt
