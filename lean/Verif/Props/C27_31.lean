import Verif.Lemmas.Vec
import Mathlib.Tactic.NormNum
import Mathlib.Analysis.Real.Pi.Bounds

/- C27-C31, C70: closest approach, angles, decomposition, selection, entry and exit points. -/
namespace Tomopt

noncomputable section

open Real Scatter

namespace C27

/-- the solved equations: the vector from the point on the incoming line to the point on the outgoing line is a multiple of the common normal -/
theorem coefs_solve (tin tout : Track) (c : ℝ × ℝ × ℝ) (h : trackCoefs tin tout = some c) :
    tout.point c.2.1 = ((tin.point c.1).1 + c.2.2 * (vcross tin.1 tout.1).1, (tin.point c.1).2.1 + c.2.2 * (vcross tin.1 tout.1).2.1,
      (tin.point c.1).2.2 + c.2.2 * (vcross tin.1 tout.1).2.2) := by
  unfold trackCoefs at h
  simp only at h
  split at h
  · simp at h
  · rename_i hd
    simp only [Option.some.injEq] at h
    subst h
    obtain ⟨c1, c2, c3⟩ := cramer3 tin.1 (-tout.1.1, -tout.1.2.1, -tout.1.2.2) (vcross tin.1 tout.1)
      (tout.2.1 - tin.2.1, tout.2.2.1 - tin.2.2.1, tout.2.2.2 - tin.2.2.2)
    simp only [Track.point]
    refine Prod.ext ?_ (Prod.ext ?_ ?_) <;> simp only
    · rw [div_mul_eq_mul_div, div_mul_eq_mul_div, div_mul_eq_mul_div]
      field_simp
      linear_combination c1
    · rw [div_mul_eq_mul_div, div_mul_eq_mul_div, div_mul_eq_mul_div]
      field_simp
      linear_combination c2
    · rw [div_mul_eq_mul_div, div_mul_eq_mul_div, div_mul_eq_mul_div]
      field_simp
      linear_combination c3

/-- The inversion fails exactly for parallel lines. -/
theorem singular_iff (tin tout : Track) : trackCoefs tin tout = none ↔ Parallel tin.1 tout.1 := by
  have hd : det3 tin.1 (-tout.1.1, -tout.1.2.1, -tout.1.2.2) (vcross tin.1 tout.1) = -len3 (vcross tin.1 tout.1) ^ 2 := by
    rw [← vdot_self]; simp only [det3, vdot, vcross]; ring
  rw [← cross_zero_parallel, ← len3_zero]
  unfold trackCoefs
  simp only [hd]
  split
  · rename_i h
    simp only [true_iff]
    simpa using h
  · rename_i h
    simp only [reduceCtorEq, false_iff]
    intro h0; apply h; rw [h0]; ring

/-- **C27.** For non-parallel lines the reported location is the midpoint of the segment joining the two lines at their closest approach, and
that pair of points is the only closest pair. -/
theorem poca_midpoint (tin tout : Track) (hnp : ¬ Parallel tin.1 tout.1) :
    ∃ c, trackCoefs tin tout = some c ∧ poca tin tout c = mid3 (tin.point c.1) (tout.point c.2.1) ∧
      (∀ s t, dist2 (tin.point c.1) (tout.point c.2.1) ≤ dist2 (tin.point s) (tout.point t)) ∧
      (∀ s t, dist2 (tin.point s) (tout.point t) ≤ dist2 (tin.point c.1) (tout.point c.2.1) → s = c.1 ∧ t = c.2.1) := by
  cases hc : trackCoefs tin tout with
  | none => exact absurd ((singular_iff tin tout).mp hc) hnp
  | some c =>
    have hs := coefs_solve tin tout c hc
    have e1 := congrArg (fun p : V3 => p.1) hs
    have e2 := congrArg (fun p : V3 => p.2.1) hs
    have e3 := congrArg (fun p : V3 => p.2.2) hs
    simp only at e1 e2 e3
    have key : ∀ s t, dist2 (tin.point s) (tout.point t) = dist2 (tin.point c.1) (tout.point c.2.1) +
        (((s - c.1) * tin.1.1 - (t - c.2.1) * tout.1.1) ^ 2 + ((s - c.1) * tin.1.2.1 - (t - c.2.1) * tout.1.2.1) ^ 2 +
          ((s - c.1) * tin.1.2.2 - (t - c.2.1) * tout.1.2.2) ^ 2) := by
      intro s t
      simp only [dist2, e1, e2, e3]
      have f1 : (tin.point s).1 - (tout.point t).1 = ((s - c.1) * tin.1.1 - (t - c.2.1) * tout.1.1) - c.2.2 * (vcross tin.1 tout.1).1 := by
        simp only [Track.point] at e1 ⊢; linarith
      have f2 : (tin.point s).2.1 - (tout.point t).2.1 = ((s - c.1) * tin.1.2.1 - (t - c.2.1) * tout.1.2.1) - c.2.2 * (vcross tin.1 tout.1).2.1 := by
        simp only [Track.point] at e2 ⊢; linarith
      have f3 : (tin.point s).2.2 - (tout.point t).2.2 = ((s - c.1) * tin.1.2.2 - (t - c.2.1) * tout.1.2.2) - c.2.2 * (vcross tin.1 tout.1).2.2 := by
        simp only [Track.point] at e3 ⊢; linarith
      rw [f1, f2, f3]
      simp only [vcross]
      ring
    refine ⟨c, rfl, ?_, ?_, ?_⟩
    · have hm : mid3 (tin.point c.1) (tout.point c.2.1) = ((tin.point c.1).1 + c.2.2 * (vcross tin.1 tout.1).1 / 2,
          (tin.point c.1).2.1 + c.2.2 * (vcross tin.1 tout.1).2.1 / 2, (tin.point c.1).2.2 + c.2.2 * (vcross tin.1 tout.1).2.2 / 2) := by
        simp only [mid3, e1, e2, e3]
        refine Prod.ext ?_ (Prod.ext ?_ ?_) <;> simp only <;> ring
      rw [hm]; rfl
    · intro s t
      rw [key s t]
      have := sq_nonneg ((s - c.1) * tin.1.1 - (t - c.2.1) * tout.1.1)
      have := sq_nonneg ((s - c.1) * tin.1.2.1 - (t - c.2.1) * tout.1.2.1)
      have := sq_nonneg ((s - c.1) * tin.1.2.2 - (t - c.2.1) * tout.1.2.2)
      linarith
    · intro s t hle
      rw [key s t] at hle
      have q1 := sq_nonneg ((s - c.1) * tin.1.1 - (t - c.2.1) * tout.1.1)
      have q2 := sq_nonneg ((s - c.1) * tin.1.2.1 - (t - c.2.1) * tout.1.2.1)
      have q3 := sq_nonneg ((s - c.1) * tin.1.2.2 - (t - c.2.1) * tout.1.2.2)
      have z1 := sq_eq_zero_iff.mp (show ((s - c.1) * tin.1.1 - (t - c.2.1) * tout.1.1) ^ 2 = 0 by linarith)
      have z2 := sq_eq_zero_iff.mp (show ((s - c.1) * tin.1.2.1 - (t - c.2.1) * tout.1.2.1) ^ 2 = 0 by linarith)
      have z3 := sq_eq_zero_iff.mp (show ((s - c.1) * tin.1.2.2 - (t - c.2.1) * tout.1.2.2) ^ 2 = 0 by linarith)
      by_contra hne
      apply hnp
      refine ⟨s - c.1, t - c.2.1, ?_, ?_⟩
      · by_contra h
        push Not at h
        exact hne ⟨by linarith, by linarith⟩
      · simp only [scale3]
        refine Prod.ext ?_ (Prod.ext ?_ ?_) <;> simp only <;> linarith

/-- When the lines meet, the reported location is where they meet. -/
theorem poca_intersection (tin tout : Track) (hnp : ¬ Parallel tin.1 tout.1) (s t : ℝ) (h : tin.point s = tout.point t) :
    ∃ c, trackCoefs tin tout = some c ∧ poca tin tout c = tin.point s := by
  obtain ⟨c, hc, hm, _, hu⟩ := poca_midpoint tin tout hnp
  have h0 : dist2 (tin.point s) (tout.point t) = 0 := by rw [h]; simp [dist2]
  obtain ⟨rfl, rfl⟩ := hu s t (by rw [h0]; unfold dist2; positivity)
  refine ⟨c, hc, ?_⟩
  rw [hm, ← h]
  simp only [mid3]
  refine Prod.ext ?_ (Prod.ext ?_ ?_) <;> simp only <;> ring

/-- `dxy` is the horizontal part of the connecting segment. -/
theorem dxy_spec (tin tout : Track) (c : ℝ × ℝ × ℝ) (h : trackCoefs tin tout = some c) :
    dxy tin tout c = ((tout.point c.2.1).1 - (tin.point c.1).1, (tout.point c.2.1).2.1 - (tin.point c.1).2.1) := by
  rw [coefs_solve tin tout c h]
  simp [dxy]

/-- Non-vacuity: a vertical line and one along x one unit aside: the location is half way. -/
example : ∃ c, trackCoefs ((0, 0, -1), (0, 0, 2)) ((1, 0, -1), (0, 1, 0)) = some c ∧ poca ((0, 0, -1), (0, 0, 2)) ((1, 0, -1), (0, 1, 0)) c = (0, 1 / 2, 0) := by
  refine ⟨(2, 0, -1), ?_, ?_⟩
  · unfold trackCoefs det3 vdot vcross; norm_num
  · unfold poca vcross; norm_num

end C27

namespace C28

/-- **C28.** For a non-zero track vector: theta is in [0, pi], phi in [0, 2 pi), and they are the spherical angles of the track measured from the downward
vertical. Downward tracks have theta below a quarter turn. -/
theorem angles (v : V3) (hv : v ≠ (0, 0, 0)) :
    ∃ th, thetaOf v = some th ∧ 0 ≤ th ∧ th ≤ π ∧ 0 ≤ phiOf v.1 v.2.1 ∧ phiOf v.1 v.2.1 < 2 * π ∧
      scale3 (len3 v) (dir th (phiOf v.1 v.2.1)) = v ∧ (v.2.2 < 0 ↔ th < π / 2) := by
  have hl := len3_pos v hv
  obtain ⟨p1, p2, p3, p4⟩ := phiOf_spec v.1 v.2.1
  have harg : -1 ≤ -v.2.2 / len3 v ∧ -v.2.2 / len3 v ≤ 1 := by
    have h : v.2.2 ^ 2 ≤ len3 v ^ 2 := by
      rw [← vdot_self]; unfold vdot; nlinarith [sq_nonneg v.1, sq_nonneg v.2.1]
    have := abs_le_of_sq_le_sq' h hl.le
    constructor
    · rw [le_div_iff₀ hl]; linarith
    · rw [div_le_iff₀ hl]; linarith
  have hth : thetaOf v = some (arccos (-v.2.2 / len3 v)) := by
    unfold thetaOf
    rw [vnorm_eq, if_neg hl.ne']
    simp only [Option.some.injEq]
    split
    · rfl
    · rename_i h
      simp only [ne_eq, not_not] at h
      rw [h, arccos_one]
  have hsin : len3 v * sin (arccos (-v.2.2 / len3 v)) = sqrt (v.1 ^ 2 + v.2.1 ^ 2) := by
    rw [sin_arccos]
    conv_lhs => rw [← sqrt_sq hl.le]
    rw [← sqrt_mul (sq_nonneg _)]
    congr 1
    rw [sqrt_sq hl.le]
    have : len3 v ^ 2 * (1 - (-v.2.2 / len3 v) ^ 2) = len3 v ^ 2 - v.2.2 ^ 2 := by field_simp
    rw [this, ← vdot_self]; unfold vdot; ring
  have hcos : len3 v * cos (arccos (-v.2.2 / len3 v)) = -v.2.2 := by
    rw [cos_arccos harg.1 harg.2]; field_simp
  refine ⟨_, hth, arccos_nonneg _, arccos_le_pi _, p1, p2, ?_, ?_⟩
  · simp only [scale3, dir]
    refine Prod.ext ?_ (Prod.ext ?_ ?_) <;> simp only
    · rw [← mul_assoc, hsin, p3]
    · rw [← mul_assoc, hsin, p4]
    · rw [mul_neg, hcos, neg_neg]
  · rw [arccos_lt_pi_div_two, div_pos_iff_of_pos_right hl, neg_pos]

/-- A zero vector has no angle (NaN). -/
theorem zero_nan : thetaOf (0, 0, 0) = none := by simp [thetaOf, vnorm, vdot]

/-- `theta_xy` is the pair of projected angles of a downward track: arctan of dx and of dy per unit of descent. -/
theorem theta_xy (v : V3) (hv : v.2.2 < 0) : ∃ th, thetaOf v = some th ∧
    thetaXY th (phiOf v.1 v.2.1) = (arctan (v.1 / -v.2.2), arctan (v.2.1 / -v.2.2)) := by
  have hne : v ≠ (0, 0, 0) := by rintro rfl; simp at hv
  obtain ⟨th, h, h0, _, _, _, hd, hlt⟩ := angles v hne
  refine ⟨th, h, ?_⟩
  have hl := len3_pos v hne
  have hc : 0 < cos th := cos_pos_of_mem_Ioo ⟨by linarith [pi_pos], hlt.mp hv⟩
  have e1 := congrArg (fun p : V3 => p.1) hd
  have e2 := congrArg (fun p : V3 => p.2.1) hd
  have e3 := congrArg (fun p : V3 => p.2.2) hd
  simp only [scale3, dir] at e1 e2 e3
  have e3' : -v.2.2 = len3 v * cos th := by linarith
  unfold thetaXY
  rw [e3']
  refine Prod.ext ?_ ?_ <;> simp only
  · congr 1; conv_rhs => rw [← e1]
    rw [tan_eq_sin_div_cos]; field_simp
  · congr 1; conv_rhs => rw [← e2]
    rw [tan_eq_sin_div_cos]; field_simp

/-- Non-vacuity -/
example : ((1, -1, -2) : V3) ≠ (0, 0, 0) ∧ ((1, -1, -2) : V3).2.2 < 0 := by constructor <;> norm_num

end C28

namespace C29

theorem msc_some (p q : V3) (hp : p ≠ (0, 0, 0)) (hq : q ≠ (0, 0, 0)) : thetaMsc p q = some (arccos (vdot p q / (len3 p * len3 q))) := by
  have h1 := len3_pos p hp
  have h2 := len3_pos q hq
  unfold thetaMsc
  rw [vnorm_eq, vnorm_eq, if_neg (by positivity)]

theorem cauchy (p q : V3) : |vdot p q| ≤ len3 p * len3 q := by
  apply abs_le_of_sq_le_sq _ (mul_nonneg (len3_nonneg p) (len3_nonneg q))
  have := lagrange p q
  have := sq_nonneg (len3 (vcross p q))
  rw [mul_pow]; linarith

/-- **C29.** The total scattering angle of two non-zero tracks is the angle between them: it is in [0, pi] and its cosine is the normalised scalar product. -/
theorem msc_is_angle (p q : V3) (hp : p ≠ (0, 0, 0)) (hq : q ≠ (0, 0, 0)) :
    ∃ a, thetaMsc p q = some a ∧ 0 ≤ a ∧ a ≤ π ∧ len3 p * len3 q * cos a = dot3 p q := by
  refine ⟨_, msc_some p q hp hq, arccos_nonneg _, arccos_le_pi _, ?_⟩
  have h1 := len3_pos p hp
  have h2 := len3_pos q hq
  have h3 : 0 < len3 p * len3 q := by positivity
  have hc := abs_le.mp (cauchy p q)
  rw [cos_arccos]
  · rw [mul_div_cancel₀ _ h3.ne']; rfl
  · rw [le_div_iff₀ h3]; linarith
  · rw [div_le_iff₀ h3]; linarith

/-- zero exactly when the tracks point the same way -/
theorem msc_zero_iff (p q : V3) (hp : p ≠ (0, 0, 0)) (hq : q ≠ (0, 0, 0)) : thetaMsc p q = some 0 ↔ SameWay p q := by
  have h1 := len3_pos p hp
  have h2 := len3_pos q hq
  have h3 : 0 < len3 p * len3 q := by positivity
  rw [msc_some p q hp hq, Option.some.injEq, arccos_eq_zero, le_div_iff₀ h3, one_mul]
  constructor
  · intro h
    have he : vdot p q = len3 p * len3 q := le_antisymm (le_of_abs_le (cauchy p q)) h
    have hl := lagrange p q
    rw [he] at hl
    have hz : len3 (vcross p q) = 0 := by
      rw [← sq_eq_zero_iff]; linarith [mul_pow (len3 p) (len3 q) 2]
    have hx := (len3_zero _).mp hz
    simp only [vcross, Prod.mk.injEq] at hx
    obtain ⟨x1, x2, x3⟩ := hx
    refine ⟨vdot p q / len3 p ^ 2, by rw [he]; positivity, ?_⟩
    have hn : len3 p ^ 2 ≠ 0 := by positivity
    have hn' := vdot_self p
    simp only [scale3]
    refine Prod.ext ?_ (Prod.ext ?_ ?_) <;> simp only <;> rw [div_mul_eq_mul_div, eq_div_iff hn, ← hn'] <;> unfold vdot
    · linear_combination (-p.2.1) * x3 + p.2.2 * x2
    · linear_combination p.1 * x3 - p.2.2 * x1
    · linear_combination (-p.1) * x2 + p.2.1 * x1
  · rintro ⟨c, hc, rfl⟩
    have e : len3 (scale3 c p) = c * len3 p := by
      unfold len3 scale3
      rw [show (c * p.1) ^ 2 + (c * p.2.1) ^ 2 + (c * p.2.2) ^ 2 = c ^ 2 * (p.1 ^ 2 + p.2.1 ^ 2 + p.2.2 ^ 2) by ring, sqrt_mul (sq_nonneg _), sqrt_sq hc.le]
    have e2 : vdot p (scale3 c p) = c * len3 p ^ 2 := by
      rw [← vdot_self]; unfold vdot scale3; ring
    rw [e, e2]; apply le_of_eq; ring

/-- unchanged by swapping the tracks, and by rescaling either -/
theorem msc_symm (p q : V3) : thetaMsc p q = thetaMsc q p := by
  unfold thetaMsc
  rw [mul_comm (vnorm p), show vdot p q = vdot q p by unfold vdot; ring]

theorem msc_scale (p q : V3) (c d : ℝ) (hc : 0 < c) (hd : 0 < d) : thetaMsc (scale3 c p) (scale3 d q) = thetaMsc p q := by
  have e : ∀ (c : ℝ) (p : V3), 0 < c → vnorm (scale3 c p) = c * vnorm p := by
    intro c p hc
    rw [vnorm_eq, vnorm_eq]
    unfold len3 scale3
    rw [show (c * p.1) ^ 2 + (c * p.2.1) ^ 2 + (c * p.2.2) ^ 2 = c ^ 2 * (p.1 ^ 2 + p.2.1 ^ 2 + p.2.2 ^ 2) by ring, sqrt_mul (sq_nonneg _), sqrt_sq hc.le]
  have e2 : vdot (scale3 c p) (scale3 d q) = c * d * vdot p q := by unfold vdot scale3; ring
  unfold thetaMsc
  rw [e c p hc, e d q hd, e2]
  by_cases h : vnorm p * vnorm q = 0
  · rw [if_pos h, if_pos (by rw [show c * vnorm p * (d * vnorm q) = c * d * (vnorm p * vnorm q) by ring, h, mul_zero])]
  · have hcd : c * d ≠ 0 := by positivity
    rw [if_neg h, if_neg]
    · congr 2
      rw [show c * vnorm p * (d * vnorm q) = c * d * (vnorm p * vnorm q) by ring, mul_div_mul_left _ _ hcd]
    · rw [show c * vnorm p * (d * vnorm q) = c * d * (vnorm p * vnorm q) by ring]
      exact mul_ne_zero hcd h

/-- **C29, projected angles.** For two downward tracks the changes of the projected angles are the absolute differences of the angles in the zx and the zy plane: in [0, pi), the
same in both directions, and both zero exactly when the tracks point the same way. -/
theorem dtheta_xy (p q : V3) (hp : p.2.2 < 0) (hq : q.2.2 < 0) : ∃ a b, thetaOf p = some a ∧ thetaOf q = some b ∧
    ∃ d, dthetaXY (thetaXY a (phiOf p.1 p.2.1)) (thetaXY b (phiOf q.1 q.2.1)) = d ∧
      d = (|arctan (p.1 / -p.2.2) - arctan (q.1 / -q.2.2)|, |arctan (p.2.1 / -p.2.2) - arctan (q.2.1 / -q.2.2)|) ∧
      0 ≤ d.1 ∧ d.1 < π ∧ 0 ≤ d.2 ∧ d.2 < π ∧ dthetaXY (thetaXY b (phiOf q.1 q.2.1)) (thetaXY a (phiOf p.1 p.2.1)) = d ∧ (d = (0, 0) ↔ SameWay p q) := by
  obtain ⟨a, ha, ea⟩ := C28.theta_xy p hp
  obtain ⟨b, hb, eb⟩ := C28.theta_xy q hq
  have hlt : ∀ x y : ℝ, |arctan x - arctan y| < π := by
    intro x y
    rw [abs_lt]
    constructor <;> linarith [arctan_lt_pi_div_two x, arctan_lt_pi_div_two y, neg_pi_div_two_lt_arctan x, neg_pi_div_two_lt_arctan y]
  have hz : ∀ x y : ℝ, |arctan x - arctan y| = 0 ↔ x = y := by
    intro x y
    rw [abs_eq_zero, sub_eq_zero]
    exact arctan_injective.eq_iff
  refine ⟨a, b, ha, hb, _, rfl, ?_, ?_⟩
  · rw [ea, eb]; rfl
  · rw [ea, eb]
    refine ⟨abs_nonneg _, hlt _ _, abs_nonneg _, hlt _ _, ?_, ?_⟩
    · simp only [dthetaXY]; rw [abs_sub_comm (arctan (q.1 / _)), abs_sub_comm (arctan (q.2.1 / _))]
    · simp only [dthetaXY, Prod.mk.injEq, hz]
      have h1 : -p.2.2 ≠ 0 := by linarith
      have h2 : -q.2.2 ≠ 0 := by linarith
      constructor
      · rintro ⟨e1, e2⟩
        rw [div_eq_div_iff h1 h2] at e1 e2
        refine ⟨q.2.2 / p.2.2, div_pos_of_neg_of_neg hq hp, ?_⟩
        have h3 : p.2.2 ≠ 0 := hp.ne
        refine Prod.ext ?_ (Prod.ext ?_ ?_) <;> simp only [scale3] <;> field_simp <;> linarith
      · rintro ⟨c, hc, rfl⟩
        simp only [scale3]
        have h3 : p.2.2 ≠ 0 := hp.ne
        have h4 := hc.ne'
        constructor <;> field_simp

/-- In terms of the reported track angles: the spherical law of cosines. -/
theorem msc_from_angles (p q : V3) (hp : p ≠ (0, 0, 0)) (hq : q ≠ (0, 0, 0)) :
    ∃ a t t', thetaMsc p q = some a ∧ thetaOf p = some t ∧ thetaOf q = some t' ∧
      cos a = cos t * cos t' + sin t * sin t' * cos (phiOf p.1 p.2.1 - phiOf q.1 q.2.1) := by
  obtain ⟨a, ha, _, _, hc⟩ := msc_is_angle p q hp hq
  obtain ⟨t, ht, _, _, _, _, hd, _⟩ := C28.angles p hp
  obtain ⟨t', ht', _, _, _, _, hd', _⟩ := C28.angles q hq
  refine ⟨a, t, t', ha, ht, ht', ?_⟩
  have h1 := len3_pos p hp
  have h2 := len3_pos q hq
  have h3 : len3 p * len3 q ≠ 0 := by positivity
  apply mul_left_cancel₀ h3
  rw [hc]
  conv_lhs => rw [← hd, ← hd']
  simp only [dot3, scale3, dir, cos_sub]
  ring

example : ((0, 0, -1) : V3) ≠ (0, 0, 0) ∧ SameWay (0, 0, -1) (0, 0, -2) :=
  ⟨by norm_num, 2, by norm_num, by simp [scale3]⟩

end C29

namespace C30

theorem dir_turn (th ph : ℝ) (k : ℤ) : dir th (ph + 2 * π * k) = dir th ph := by
  unfold dir
  rw [show ph + 2 * π * k = ph + k * (2 * π) by ring, cos_add_int_mul_two_pi, sin_add_int_mul_two_pi]

theorem dir_neg (th ph : ℝ) : dir (-th) ph = dir th (ph + π) := by
  unfold dir
  simp [sin_add_pi, cos_add_pi]

/-- **C30.** For in-range angles, whichever way ties are broken: with the reported (dtheta, dphi), some choice of signs takes the incoming direction to the
outgoing one. -/
theorem decomposition (tie : Bool) (t f t' f' : ℝ) (ht : 0 ≤ t) (ht' : 0 ≤ t') (hf : 0 ≤ f) (hf2 : f < 2 * π) (hf' : 0 ≤ f') (hf2' : f' < 2 * π) :
    let d := dthetaDphi tie t f t' f'
    0 ≤ d.1 ∧ 0 ≤ d.2 ∧ d.2 ≤ π ∧ ∃ s r : ℝ, (s = 1 ∨ s = -1) ∧ (r = 1 ∨ r = -1) ∧ dir (t + s * d.1) (f + r * d.2) = dir t' f' := by
  obtain ⟨m0, m1, ⟨r, hr, k, hk⟩, _⟩ := dphiMin_spec f f' hf hf2 hf' hf2'
  have h0 : 0 ≤ |t - t'| ∧ 0 ≤ dphiMin f f' ∧ dphiMin f f' ≤ π ∧ ∃ s r : ℝ, (s = 1 ∨ s = -1) ∧ (r = 1 ∨ r = -1) ∧
      dir (t + s * |t - t'|) (f + r * dphiMin f f') = dir t' f' := by
    refine ⟨abs_nonneg _, m0, m1, ?_⟩
    rcases abs_cases (t - t') with ⟨h, _⟩ | ⟨h, _⟩
    · refine ⟨-1, r, Or.inr rfl, hr, ?_⟩
      rw [h, hk, dir_turn]; congr 1; ring
    · refine ⟨1, r, Or.inl rfl, hr, ?_⟩
      rw [h, hk, dir_turn]; congr 1; ring
  have h1 : 0 ≤ t + t' ∧ 0 ≤ π - dphiMin f f' ∧ π - dphiMin f f' ≤ π ∧ ∃ s r : ℝ, (s = 1 ∨ s = -1) ∧ (r = 1 ∨ r = -1) ∧
      dir (t + s * (t + t')) (f + r * (π - dphiMin f f')) = dir t' f' := by
    refine ⟨by linarith, by linarith, by linarith, -1, -r, Or.inr rfl, by rcases hr with rfl | rfl <;> simp, ?_⟩
    rw [show t + -1 * (t + t') = -t' by ring, dir_neg]
    rcases hr with rfl | rfl
    · rw [show f + -1 * (π - dphiMin f f') + π = f + 1 * dphiMin f f' by ring, hk, dir_turn]
    · rw [show f + - -1 * (π - dphiMin f f') + π = (f + -1 * dphiMin f f') + 2 * π * ((1 : ℤ) : ℝ) by push_cast; ring, hk, dir_turn, dir_turn]
  simp only [dthetaDphi]
  split_ifs
  · exact h0
  · exact h1
  · exact h0
  · exact h1

/-- ... and no other change of theta and phi between these directions is smaller (in quadrature), if the outgoing track is not vertical. -/
theorem smallest (tie : Bool) (t f t' f' : ℝ) (ht : 0 ≤ t) (ht2 : t < π / 2) (ht' : 0 < t') (ht2' : t' < π / 2) (hf : 0 ≤ f) (hf2 : f < 2 * π)
    (hf' : 0 ≤ f') (hf2' : f' < 2 * π) (a b : ℝ) (hab : dir (t + a) (f + b) = dir t' f') :
    let d := dthetaDphi tie t f t' f'
    d.1 ^ 2 + d.2 ^ 2 ≤ a ^ 2 + b ^ 2 := by
  obtain ⟨m0, m1, ⟨r, hr, k, hk⟩, mmin⟩ := dphiMin_spec f f' hf hf2 hf' hf2'
  have hpi := pi_pos
  -- the reported pair is the smaller of the two hypotheses
  have hsel : (dthetaDphi tie t f t' f').1 ^ 2 + (dthetaDphi tie t f t' f').2 ^ 2 ≤ |t - t'| ^ 2 + dphiMin f f' ^ 2 ∧
      (dthetaDphi tie t f t' f').1 ^ 2 + (dthetaDphi tie t f t' f').2 ^ 2 ≤ (t + t') ^ 2 + (π - dphiMin f f') ^ 2 := by
    have mono : ∀ x y : ℝ, 0 ≤ x → sqrt x ≤ sqrt y → 0 ≤ y → x ≤ y := fun x y _ h hy => (sqrt_le_sqrt_iff hy).mp h
    simp only [dthetaDphi]
    split_ifs with c1 c2 c3
    · exact ⟨le_refl _, mono _ _ (by positivity) c1.le (by positivity)⟩
    · exact ⟨mono _ _ (by positivity) c2.le (by positivity), le_refl _⟩
    · exact ⟨le_refl _, mono _ _ (by positivity) (not_lt.mp c2) (by positivity)⟩
    · exact ⟨mono _ _ (by positivity) (not_lt.mp c1) (by positivity), le_refl _⟩
  simp only [dir, Prod.mk.injEq, neg_inj] at hab
  obtain ⟨x1, x2, x3⟩ := hab
  have hs : 0 < sin t' := sin_pos_of_pos_of_lt_pi ht' (by linarith)
  have sqle : ∀ x y : ℝ, 0 ≤ x → x ≤ |y| → x ^ 2 ≤ y ^ 2 := by
    intro x y hx h
    rw [← sq_abs y]; exact pow_le_pow_left₀ hx h 2
  have sameAngle : ∀ u v : ℝ, cos u = cos v → sin u = sin v → ∃ m : ℤ, u = v + 2 * π * m := by
    intro u v hc hsn
    have : (u : Real.Angle) = (v : Real.Angle) := Real.Angle.cos_sin_inj hc hsn
    rw [Real.Angle.angle_eq_iff_two_pi_dvd_sub] at this
    obtain ⟨m, hm⟩ := this
    exact ⟨m, by linarith⟩
  obtain ⟨n, hn | hn⟩ := (cos_eq_cos_iff).mp x3
  · -- t' = 2 n pi + (t + a): the same branch
    have hsin : sin (t + a) = sin t' := by
      rw [hn, show 2 * (n : ℝ) * π + (t + a) = t + a + n * (2 * π) by ring, sin_add_int_mul_two_pi]
    rw [hsin] at x1 x2
    obtain ⟨m, hm⟩ := sameAngle _ _ (mul_left_cancel₀ hs.ne' x1) (mul_left_cancel₀ hs.ne' x2)
    have hb := mmin b m hm
    have ha : |t - t'| ≤ |a| := by
      rcases lt_trichotomy n 0 with hn0 | hn0 | hn0
      · have : (n : ℝ) ≤ -1 := by exact_mod_cast Int.le_sub_one_of_lt hn0
        have h1 : π ≤ a := by nlinarith
        rw [abs_of_nonneg (by linarith : (0 : ℝ) ≤ a), abs_le]; constructor <;> linarith
      · subst hn0
        have : a = t' - t := by push_cast at hn; linarith
        rw [this, abs_sub_comm]
      · have : (1 : ℝ) ≤ n := by exact_mod_cast hn0
        have h1 : a ≤ -π := by nlinarith
        rw [abs_of_nonpos (by linarith : a ≤ 0), abs_le]; constructor <;> linarith
    have := sqle _ _ (abs_nonneg _) ha
    have := sqle _ _ m0 hb
    exact hsel.1.trans (by linarith)
  · -- t' = 2 n pi - (t + a): the reflected branch
    have hsin : sin (t + a) = -sin t' := by
      rw [hn, show 2 * (n : ℝ) * π - (t + a) = -(t + a) + n * (2 * π) by ring, sin_add_int_mul_two_pi, sin_neg, neg_neg]
    rw [hsin] at x1 x2
    obtain ⟨m, hm⟩ := sameAngle (f + b + π) f' (by
        rw [cos_add_pi]; exact mul_left_cancel₀ hs.ne' (by linarith)) (by
        rw [sin_add_pi]; exact mul_left_cancel₀ hs.ne' (by linarith))
    have ha : t + t' ≤ |a| := by
      rcases lt_or_ge 0 n with hn0 | hn0
      · have : (1 : ℝ) ≤ n := by exact_mod_cast hn0
        have h1 : π ≤ a := by nlinarith
        exact le_trans (by linarith) (le_abs_self a)
      · have : (n : ℝ) ≤ 0 := by exact_mod_cast hn0
        have h1 : t + t' ≤ -a := by nlinarith
        exact h1.trans (neg_le_abs a)
    have hb : π - dphiMin f f' ≤ |b| := by
      -- b + pi and the reported difference agree up to whole turns, so b differs from it by an odd number of half turns
      have e : b - r * dphiMin f f' = π * (2 * ((m : ℝ) - k) - 1) := by linarith
      have hodd : π ≤ |b - r * dphiMin f f'| := by
        rw [e, abs_mul, abs_of_pos hpi]
        have : (1 : ℝ) ≤ |2 * ((m : ℝ) - k) - 1| := by
          have hz : (1 : ℤ) ≤ |2 * (m - k) - 1| := by
            exact Int.one_le_abs (fun h => by omega)
          exact_mod_cast hz
        nlinarith
      have htri : |b - r * dphiMin f f'| ≤ |b| + dphiMin f f' := by
        refine (abs_sub _ _).trans ?_
        have : |r * dphiMin f f'| = dphiMin f f' := by
          rcases hr with rfl | rfl
          · rw [one_mul, abs_of_nonneg m0]
          · rw [neg_one_mul, abs_neg, abs_of_nonneg m0]
        rw [this]
      linarith
    have := sqle _ _ (by linarith) ha
    have := sqle _ _ (by linarith) hb
    exact hsel.2.trans (by linarith)

/-- Non-vacuity: nearly vertical tracks on opposite sides: the change through the vertical is reported. -/
example : ∃ tie, (dthetaDphi tie 0.1 0 0.1 3 = (0.1 + 0.1, π - 3)) := by
  refine ⟨true, ?_⟩
  have hpi := pi_gt_three
  have hpi2 := pi_lt_d2
  have hd : dphiMin 0 3 = 3 := by
    unfold dphiMin
    rw [min_eq_right]
    · norm_num
    · norm_num; constructor <;> linarith
  simp only [dthetaDphi, hd]
  have hlt : sqrt ((0.1 + 0.1) ^ 2 + (π - 3) ^ 2) < sqrt (|0.1 - 0.1| ^ 2 + 3 ^ 2) := by
    apply sqrt_lt_sqrt (by positivity)
    norm_num; nlinarith
  rw [if_neg (not_lt.mpr hlt.le), if_pos hlt]

end C30

namespace C31

/-- **C31.** A scatter is selected exactly when its location is in the half-open box of the passive volume. -/
theorem mask_spec (lw zr : ℝ × ℝ) (q : V3) :
    inVolume lw zr q = true ↔ (0 ≤ q.1 ∧ q.1 < lw.1) ∧ (0 ≤ q.2.1 ∧ q.2.1 < lw.2) ∧ (zr.1 ≤ q.2.2 ∧ q.2.2 < zr.2) := by
  simp only [inVolume, Bool.and_eq_true, decide_eq_true_eq, ge_iff_le]
  tauto

example : inVolume (1, 1) (2, 3) (0, 0.5, 2) = true ∧ inVolume (1, 1) (2, 3) (0, 0.5, 3) = false := by
  constructor
  · rw [mask_spec]; norm_num
  · rw [Bool.eq_false_iff, ne_eq, mask_spec]; norm_num

end C31

namespace C70

/-- **C70.** The inferred entry point is where the incoming line crosses the top of the passive volume, and the exit point where the outgoing line
crosses its bottom (tracks not parallel to the layers). -/
theorem entry_exit (zr : ℝ × ℝ) (t : Track) (h : t.1.2.2 ≠ 0) :
    (∃ s, xyzIn zr t = some (t.point s) ∧ (t.point s).2.2 = zr.2) ∧ (∃ s, xyzOut zr t = some (t.point s) ∧ (t.point s).2.2 = zr.1) := by
  refine ⟨⟨(zr.2 - t.2.2.2) / t.1.2.2, ?_, ?_⟩, ⟨-((t.2.2.2 - zr.1) / t.1.2.2), ?_, ?_⟩⟩
  · simp [xyzIn, h, Track.point]
  · simp only [Track.point]; field_simp; ring
  · simp only [xyzOut, h, if_false, Track.point, Option.some.injEq]
    refine Prod.ext ?_ (Prod.ext ?_ ?_) <;> simp only <;> ring
  · simp only [Track.point]; field_simp; ring

/-- Horizontal tracks have no entry or exit point. -/
theorem horizontal_none (zr : ℝ × ℝ) (t : Track) (h : t.1.2.2 = 0) : xyzIn zr t = none ∧ xyzOut zr t = none := by
  simp [xyzIn, xyzOut, h]

example : ∃ t : Track, t.1.2.2 ≠ 0 := ⟨((1, 0, -1), (0, 0, 0)), by norm_num⟩

end C70

end

end Tomopt
