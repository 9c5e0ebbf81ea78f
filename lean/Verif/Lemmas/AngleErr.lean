import Verif.Model.RoundedAngle

import Mathlib.Analysis.SpecialFunctions.Trigonometric.Bounds
import Mathlib.Analysis.Real.Pi.Bounds

/- Rounding errors of the cosine between two tracks. -/
namespace Tomopt

noncomputable section

open Real Scatter

namespace C131

theorem dot_err (u : ℝ) (hu : 0 ≤ u) (fl : ℝ → ℝ) (hr : ∀ x, |fl x - x| ≤ u * |x|) (p q : V3) :
    |dotFl fl p q - vdot p q| ≤ (u * (1 + u) ^ 2 + u * (1 + u) + u) * (|p.1 * q.1| + |p.2.1 * q.2.1| + |p.2.2 * q.2.2|) := by
  have up : ∀ x, |fl x| ≤ (1 + u) * |x| := fun x => by
    have := abs_sub_abs_le_abs_sub (fl x) x
    have := hr x
    linarith
  simp only [dotFl, vdot]
  generalize p.1 * q.1 = x, p.2.1 * q.2.1 = y, p.2.2 * q.2.2 = z
  have hx := hr x
  have hy := hr y
  have hz := hr z
  have hb := hr (fl x + fl y)
  have hc := hr (fl (fl x + fl y) + fl z)
  have b1 : |fl x + fl y| ≤ (1 + u) * (|x| + |y|) := by
    have := abs_add_le (fl x) (fl y); have := up x; have := up y; linarith
  have b2 : |fl (fl x + fl y)| ≤ (1 + u) * ((1 + u) * (|x| + |y|)) :=
    le_trans (up _) (mul_le_mul_of_nonneg_left b1 (by linarith))
  have b3 : |fl (fl x + fl y) + fl z| ≤ (1 + u) * ((1 + u) * (|x| + |y|)) + (1 + u) * |z| := by
    have := abs_add_le (fl (fl x + fl y)) (fl z); have := up z; linarith
  have e1 := mul_le_mul_of_nonneg_left b1 hu
  have e3 := mul_le_mul_of_nonneg_left b3 hu
  have split : fl (fl (fl x + fl y) + fl z) - (x + y + z) =
      (fl (fl (fl x + fl y) + fl z) - (fl (fl x + fl y) + fl z)) + ((fl (fl x + fl y) - (fl x + fl y)) + ((fl x - x) + (fl y - y) + (fl z - z))) := by ring
  have t := abs_add_le (fl (fl (fl x + fl y) + fl z) - (fl (fl x + fl y) + fl z)) ((fl (fl x + fl y) - (fl x + fl y)) + ((fl x - x) + (fl y - y) + (fl z - z)))
  have t2 := abs_add_le (fl (fl x + fl y) - (fl x + fl y)) ((fl x - x) + (fl y - y) + (fl z - z))
  have t3 := abs_add_le ((fl x - x) + (fl y - y)) (fl z - z)
  have t4 := abs_add_le (fl x - x) (fl y - y)
  rw [split]
  have n1 : 0 ≤ u * (1 + u) * u * |z| := by positivity
  have n2 : 0 ≤ u * (1 + u) * |z| := by positivity
  nlinarith

theorem vdot_self_nonneg (p : V3) : 0 ≤ vdot p p :=
  add_nonneg (add_nonneg (mul_self_nonneg _) (mul_self_nonneg _)) (mul_self_nonneg _)

theorem cauchy (p q : V3) : |p.1 * q.1| + |p.2.1 * q.2.1| + |p.2.2 * q.2.2| ≤ vnorm p * vnorm q := by
  have hp : 0 ≤ vdot p p := vdot_self_nonneg p
  have hq : 0 ≤ vdot q q := vdot_self_nonneg q
  rw [vnorm, vnorm, ← sqrt_mul hp]
  apply le_sqrt_of_sq_le
  simp only [vdot, abs_mul, ← abs_mul_abs_self p.1, ← abs_mul_abs_self p.2.1, ← abs_mul_abs_self p.2.2, ← abs_mul_abs_self q.1, ← abs_mul_abs_self q.2.1, ← abs_mul_abs_self q.2.2]
  generalize |p.1| = a, |p.2.1| = b, |p.2.2| = c, |q.1| = d, |q.2.1| = e, |q.2.2| = f
  nlinarith [sq_nonneg (a * e - b * d), sq_nonneg (a * f - c * d), sq_nonneg (b * f - c * e)]

/-- the rounded length of a vector -/
theorem norm_err (u : ℝ) (hu : 0 ≤ u) (hs : u ≤ 1 / 1024) (fl : ℝ → ℝ) (hr : ∀ x, |fl x - x| ≤ u * |x|) (p : V3) :
    (1 - 2.61 * u) * vnorm p ≤ normFl fl p ∧ normFl fl p ≤ (1 + 2.61 * u) * vnorm p := by
  have h0 : 0 ≤ vdot p p := vdot_self_nonneg p
  have h := dot_err u hu fl hr p p
  have e : |p.1 * p.1| + |p.2.1 * p.2.1| + |p.2.2 * p.2.2| = vdot p p := by simp only [vdot, abs_mul_self]
  rw [e] at h
  have k : u * (1 + u) ^ 2 + u * (1 + u) + u ≤ 3.01 * u := by nlinarith [mul_nonneg hu hu, mul_nonneg hu (mul_nonneg hu hu), mul_nonneg hu (sub_nonneg.mpr hs), mul_nonneg (mul_nonneg hu hu) (sub_nonneg.mpr hs)]
  have h' := abs_le.mp (le_trans h (mul_le_mul_of_nonneg_right k h0))
  have n0 : 0 ≤ vnorm p := sqrt_nonneg _
  have n2 : vnorm p ^ 2 = vdot p p := sq_sqrt h0
  have lo : (1 - 1.6 * u) * vnorm p ≤ sqrt (dotFl fl p p) := by
    apply le_sqrt_of_sq_le
    rw [mul_pow, n2]
    have : (1 - 1.6 * u) ^ 2 ≤ 1 - 3.01 * u := by nlinarith
    nlinarith [mul_le_mul_of_nonneg_right this h0]
  have hi : sqrt (dotFl fl p p) ≤ (1 + 1.6 * u) * vnorm p := by
    rw [sqrt_le_left (by positivity), mul_pow, n2]
    have : 1 + 3.01 * u ≤ (1 + 1.6 * u) ^ 2 := by nlinarith
    nlinarith [mul_le_mul_of_nonneg_right this h0]
  have r := hr (sqrt (dotFl fl p p))
  rw [abs_of_nonneg (sqrt_nonneg _)] at r
  have r' := abs_le.mp r
  have a1 := mul_le_mul_of_nonneg_left hi (by linarith : (0 : ℝ) ≤ 1 + u)
  have a2 := mul_le_mul_of_nonneg_left lo (by linarith : (0 : ℝ) ≤ 1 - u)
  have b1 : (1 + u) * (1 + 1.6 * u) ≤ 1 + 2.61 * u := by nlinarith
  have b2 : 1 - 2.61 * u ≤ (1 - u) * (1 - 1.6 * u) := by nlinarith
  have c1 := mul_le_mul_of_nonneg_right b1 n0
  have c2 := mul_le_mul_of_nonneg_right b2 n0
  simp only [normFl]
  constructor <;> nlinarith

/-- the rounded product of two lengths -/
theorem norms_err (u : ℝ) (hu : 0 ≤ u) (hs : u ≤ 1 / 1024) (fl : ℝ → ℝ) (hr : ∀ x, |fl x - x| ≤ u * |x|) (p q : V3) :
    |fl (normFl fl p * normFl fl q) - vnorm p * vnorm q| ≤ 6.25 * u * (vnorm p * vnorm q) := by
  obtain ⟨a1, a2⟩ := norm_err u hu hs fl hr p
  obtain ⟨b1, b2⟩ := norm_err u hu hs fl hr q
  have np : 0 ≤ vnorm p := sqrt_nonneg _
  have nq : 0 ≤ vnorm q := sqrt_nonneg _
  have t0 : 0 ≤ 1 - 2.61 * u := by linarith
  have fp : 0 ≤ normFl fl p := le_trans (mul_nonneg t0 np) a1
  have fq : 0 ≤ normFl fl q := le_trans (mul_nonneg t0 nq) b1
  have lo := mul_le_mul a1 b1 (mul_nonneg t0 nq) fp
  have hi := mul_le_mul a2 b2 fq (by positivity)
  have n : 0 ≤ vnorm p * vnorm q := mul_nonneg np nq
  generalize hN : vnorm p * vnorm q = N at n ⊢
  generalize hM : normFl fl p * normFl fl q = M at lo hi ⊢
  have hM0 : 0 ≤ M := hM ▸ mul_nonneg fp fq
  rw [show (1 - 2.61 * u) * vnorm p * ((1 - 2.61 * u) * vnorm q) = (1 - 2.61 * u) ^ 2 * (vnorm p * vnorm q) by ring, hN] at lo
  rw [show (1 + 2.61 * u) * vnorm p * ((1 + 2.61 * u) * vnorm q) = (1 + 2.61 * u) ^ 2 * (vnorm p * vnorm q) by ring, hN] at hi
  have r := hr M
  rw [abs_of_nonneg hM0] at r
  have r' := abs_le.mp r
  have a1 := mul_le_mul_of_nonneg_left hi (by linarith : (0 : ℝ) ≤ 1 + u)
  have a2 := mul_le_mul_of_nonneg_left lo (by linarith : (0 : ℝ) ≤ 1 - u)
  have uu : u * u ≤ u * (1 / 1024) := mul_le_mul_of_nonneg_left hs hu
  have uuu : u * (u * u) ≤ u * (1 / 1024) := mul_le_mul_of_nonneg_left (by nlinarith) hu
  have b1 : (1 + u) * (1 + 2.61 * u) ^ 2 ≤ 1 + 6.25 * u := by nlinarith [mul_nonneg hu hu]
  have b2 : 1 - 6.25 * u ≤ (1 - u) * (1 - 2.61 * u) ^ 2 := by nlinarith [mul_nonneg hu hu]
  have c1 := mul_le_mul_of_nonneg_right b1 n
  have c2 := mul_le_mul_of_nonneg_right b2 n
  rw [abs_le]
  constructor <;> nlinarith

/-- the argument of `arccos` is the cosine up to twelve units of rounding -/
theorem cos_err (u : ℝ) (hu : 0 ≤ u) (hs : u ≤ 1 / 1024) (fl : ℝ → ℝ) (hr : ∀ x, |fl x - x| ≤ u * |x|) (p q : V3) (hN : 0 < vnorm p * vnorm q) :
    0 < fl (normFl fl p * normFl fl q) ∧ |cosFl fl p q - vdot p q / (vnorm p * vnorm q)| ≤ 12 * u := by
  have nn := norms_err u hu hs fl hr p q
  have hd := dot_err u hu fl hr p q
  have k : u * (1 + u) ^ 2 + u * (1 + u) + u ≤ 3.01 * u := by nlinarith [mul_nonneg hu hu, mul_nonneg hu (mul_nonneg hu hu), mul_nonneg hu (sub_nonneg.mpr hs), mul_nonneg (mul_nonneg hu hu) (sub_nonneg.mpr hs)]
  have cs := cauchy p q
  have dN : |vdot p q| ≤ vnorm p * vnorm q := by
    refine le_trans ?_ cs
    simp only [vdot]
    exact le_trans (abs_add_le _ _) (add_le_add (abs_add_le _ _) le_rfl)
  have hd' : |dotFl fl p q - vdot p q| ≤ 3.01 * u * (vnorm p * vnorm q) :=
    le_trans hd (mul_le_mul k cs (by positivity) (by positivity))
  simp only [cosFl]
  generalize vnorm p * vnorm q = N at *
  generalize fl (normFl fl p * normFl fl q) = M at *
  generalize dotFl fl p q = D at *
  generalize vdot p q = d at *
  have nn' := abs_le.mp nn
  have hM : (1 - 6.25 * u) * N ≤ M := by nlinarith
  have hM0 : 0 < M := lt_of_lt_of_le (mul_pos (by linarith) hN) hM
  refine ⟨hM0, ?_⟩
  have c1 : |d / N| ≤ 1 := by rw [abs_div, abs_of_pos hN, div_le_one hN]; exact dN
  have q1 : |D / M - d / N| ≤ 9.4 * u := by
    have e : D / M - d / N = ((D - d) + d / N * (N - M)) / M := by field_simp; ring
    rw [e, abs_div, abs_of_pos hM0, div_le_iff₀ hM0]
    have t := abs_add_le (D - d) (d / N * (N - M))
    have t2 : |d / N * (N - M)| ≤ 6.25 * u * N := by
      rw [abs_mul, abs_sub_comm]
      exact le_trans (mul_le_mul_of_nonneg_right c1 (abs_nonneg _)) (by linarith)
    have t3 : 9.26 * u * N ≤ 9.4 * u * M := by
      have := mul_le_mul_of_nonneg_left hM (by positivity : 0 ≤ 9.4 * u)
      have : 9.26 * u * N ≤ 9.4 * u * ((1 - 6.25 * u) * N) := by
        have : 0 ≤ u * N * (0.14 - 58.75 * u) := by
          have : 0 ≤ 0.14 - 58.75 * u := by linarith
          positivity
        nlinarith
      linarith
    linarith
  have r := hr (D / M)
  have q2 : |D / M| ≤ 1 + 9.4 * u := by
    have := abs_sub_abs_le_abs_sub (D / M) (d / N); linarith
  have q3 := mul_le_mul_of_nonneg_left q2 hu
  have t := abs_add_le (fl (D / M) - D / M) (D / M - d / N)
  rw [show fl (D / M) - D / M + (D / M - d / N) = fl (D / M) - d / N by ring] at t
  have uu : u * u ≤ u * (1 / 1024) := mul_le_mul_of_nonneg_left hs hu
  nlinarith

/-- squares of angles are known as well as their cosines -/
theorem sq_of_cos (a b : ℝ) (h0 : 0 ≤ a) (hab : a ≤ b) (hb : a + b ≤ π) : b ^ 2 - a ^ 2 ≤ 5 * (cos a - cos b) := by
  have hc := cos_sub_cos a b
  have s1 := mul_le_sin (x := (a + b) / 2) (by linarith) (by linarith)
  have s2 := mul_le_sin (x := (b - a) / 2) (by linarith) (by linarith)
  have e : sin ((a - b) / 2) = - sin ((b - a) / 2) := by rw [← sin_neg]; congr 1; ring
  rw [e] at hc
  have p0 := pi_pos
  have m := mul_le_mul s1 s2 (mul_nonneg (by positivity) (by linarith)) (le_trans (mul_nonneg (by positivity) (by linarith)) s1)
  have p2 : π ^ 2 ≤ 10 := by have := pi_lt_d2; nlinarith
  have m2 : 2 / π * ((a + b) / 2) * (2 / π * ((b - a) / 2)) = (b ^ 2 - a ^ 2) / π ^ 2 := by field_simp; ring
  rw [m2, div_le_iff₀ (by positivity)] at m
  have hs : 0 ≤ sin ((a + b) / 2) * sin ((b - a) / 2) :=
    mul_nonneg (le_trans (mul_nonneg (by positivity) (by linarith)) s1) (le_trans (mul_nonneg (by positivity) (by linarith)) s2)
  nlinarith [mul_le_mul_of_nonneg_left p2 hs]

end C131

end

end Tomopt
