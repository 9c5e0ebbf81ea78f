import Verif.Props.C62_68
import Verif.Model.Scatter
import Mathlib.Probability.Distributions.Gaussian.Real
import Mathlib.Analysis.SpecialFunctions.Trigonometric.ArctanDeriv
import Mathlib.MeasureTheory.Function.SpecialFunctions.Basic

/- The angle by which a simulated muon is turned, as a function of the random numbers drawn for it. -/
namespace Tomopt

noncomputable section

open MeasureTheory ProbabilityTheory Real

namespace C132

/-- length of the direction after the scattering, of unit length before -/
def slope (t : ℝ) (z : ℝ × ℝ) : ℝ := sqrt (1 + tan (pdgDtheta z.1 t) ^ 2 + tan (pdgDtheta z.2 t) ^ 2)

/-- angle between the direction before and after, the latter being reversed where it points upwards -/
def turned (th t : ℝ) (z : ℝ × ℝ) : ℝ := if sin th * tan (pdgDtheta z.2 t) < cos th then arccos (1 / slope t z) else arccos (-1 / slope t z)

theorem measurable_tan : Measurable Real.tan := by
  have : Real.tan = fun x => sin x / cos x := funext tan_eq_sin_div_cos
  rw [this]
  exact measurable_sin.div measurable_cos

theorem turned_meas (th t : ℝ) : Measurable (turned th t) := by
  have d1 : Measurable fun z : ℝ × ℝ => tan (pdgDtheta z.1 t) := measurable_tan.comp ((measurable_fst.mul_const t).min measurable_const)
  have d2 : Measurable fun z : ℝ × ℝ => tan (pdgDtheta z.2 t) := measurable_tan.comp ((measurable_snd.mul_const t).min measurable_const)
  have s : Measurable (slope t) := ((measurable_const.add (d1.pow_const 2)).add (d2.pow_const 2)).sqrt
  exact Measurable.ite (measurableSet_lt (d2.const_mul _) measurable_const) (measurable_arccos.comp (s.const_div 1)) (measurable_arccos.comp (s.const_div (-1)))

theorem axis_z (th ph : ℝ) : (axis0 th ph).2.2 = 0 ∧ (axis1 th ph).2.2 = -sin th := by
  by_cases h : th = 0
  · simp [axis0, axis1, h]
  · simp [axis0, axis1, h]

theorem angle_of (th ph a0 a1 c : ℝ) (v : ℝ × ℝ × ℝ) (hc : c ≠ 0) (hv : v = scale3 c (comb3 (dir th ph) (-tan a0) (axis0 th ph) (-tan a1) (axis1 th ph))) :
    Scatter.thetaMsc (dir th ph) v = some (arccos (c / |c| / sqrt (1 + tan a0 ^ 2 + tan a1 ^ 2))) := by
  obtain ⟨f1, f2, f3, f4, f5, f6⟩ := frame_orthonormal th ph
  have h1 : Scatter.vdot (dir th ph) (dir th ph) = 1 := f1
  have h2 : Scatter.vdot (dir th ph) v = c := by
    rw [hv]
    simp only [Scatter.vdot, dot3, scale3, comb3] at *
    linear_combination c * f1 - c * tan a0 * f4 - c * tan a1 * f5
  have h3 : Scatter.vdot v v = c ^ 2 * (1 + tan a0 ^ 2 + tan a1 ^ 2) := by
    rw [hv]
    simp only [Scatter.vdot, dot3, scale3, comb3] at *
    linear_combination c ^ 2 * f1 + c ^ 2 * tan a0 ^ 2 * f2 + c ^ 2 * tan a1 ^ 2 * f3 - 2 * c ^ 2 * tan a0 * f4 - 2 * c ^ 2 * tan a1 * f5 + 2 * c ^ 2 * tan a0 * tan a1 * f6
  have h4 : Scatter.vnorm v = |c| * sqrt (1 + tan a0 ^ 2 + tan a1 ^ 2) := by
    rw [Scatter.vnorm, h3, sqrt_mul (sq_nonneg c), sqrt_sq_eq_abs]
  have h5 : Scatter.vnorm (dir th ph) = 1 := by rw [Scatter.vnorm, h1, sqrt_one]
  have p : 0 < sqrt (1 + tan a0 ^ 2 + tan a1 ^ 2) := sqrt_pos.mpr (by positivity)
  have q : 0 < |c| := abs_pos.mpr hc
  rw [Scatter.thetaMsc, h4, h5, h2, one_mul, if_neg (mul_pos q p).ne', div_div]

/-- **The angle by which a simulated muon is turned**, for a muon that is kept. -/
theorem turned_angle (x0 mom step : ℝ) (d : Draw) (m m' : Muon) (hm : Downward m) (s : Scat)
    (hs : s = pdgScatter x0 m.th m.ph (thetaXFromThetaPhi m.th m.ph) (thetaYFromThetaPhi m.th m.ph) mom step d)
    (hk : RawMuon.toMuon? (PassiveLayer.scatterXYRowO m.toRaw s.dtx s.dty) = some m') :
    Scatter.thetaMsc (dir m.th m.ph) (dir m'.th m'.ph) = some (turned m.th (pdgTheta0 x0 mom step) (d.z2x, d.z2y)) := by
  generalize ha0 : pdgDtheta d.z2x (pdgTheta0 x0 mom step) = a0
  generalize ha1 : pdgDtheta d.z2y (pdgTheta0 x0 mom step) = a1
  generalize hw : comb3 (dir m.th m.ph) (-tan a0) (axis0 m.th m.ph) (-tan a1) (axis1 m.th m.ph) = w
  obtain ⟨z0, z1⟩ := axis_z m.th m.ph
  have hz : w.2.2 = sin m.th * tan a1 - cos m.th := by
    rw [← hw]; simp only [comb3, z0, z1, dir]; ring
  have hcos : 0 < cos m.th := cos_pos_of_mem_Ioo ⟨by have := hm.1; have := pi_pos; linarith, hm.2.1⟩
  have hne : w.2.2 ≠ 0 := by
    intro h0
    have hnot : ¬ m.th ≥ π / 2 := not_le.mpr hm.2.1
    have hdo := dOut_eq m.th m.ph a0 a1 hcos
    rw [hw] at hdo
    simp only [h0, zero_div] at hdo
    have e1 : s.dtx = (arctanDiv (-(w.1 / cos m.th)) 0).map (· - txOf m.th m.ph) := by
      rw [hs]
      simp only [pdgScatter, thetaXFromThetaPhi, thetaYFromThetaPhi, hnot, if_false, ha0, ha1]
      have := hdo
      simp only [txOf, tyOf] at this
      rw [this]
      simp only [txOf]
    have e2 : ∀ u, s.dtx = some u → |arctan (tan m.th * cos m.ph) + u| = π / 2 := by
      intro u hu
      rw [e1] at hu
      have pp := pi_pos
      simp only [arctanDiv, ne_eq, not_true_eq_false, if_false] at hu
      split at hu
      · simp only [Option.map_some, Option.some.injEq, txOf] at hu
        rw [← hu, add_sub_cancel, abs_of_pos (by positivity)]
      · split at hu
        · simp only [Option.map_some, Option.some.injEq, txOf] at hu
          rw [← hu, add_sub_cancel, abs_of_neg (by linarith)]; ring
        · simp at hu
    rcases h1 : s.dtx with _ | u
    · rw [h1] at hk
      simp [PassiveLayer.scatterXYRowO, RawMuon.toMuon?] at hk
    · rcases h2 : s.dty with _ | v
      · rw [h1, h2] at hk
        simp [PassiveLayer.scatterXYRowO, RawMuon.toMuon?] at hk
      · rw [h1, h2] at hk
        simp only [PassiveLayer.scatterXYRowO] at hk
        obtain ⟨-, hrow⟩ := C05.scatter_xy_row m hm u v
        obtain ⟨-, hdown, hx, -⟩ := hrow m' hk
        have hnot' : ¬ m'.th ≥ π / 2 := not_le.mpr hdown.2.1
        simp only [thetaXFromThetaPhi, hnot', if_false, Option.some.injEq] at hx
        have k := e2 u h1
        rw [← hx] at k
        have := abs_lt.mpr ⟨neg_pi_div_two_lt_arctan (tan m'.th * cos m'.ph), arctan_lt_pi_div_two (tan m'.th * cos m'.ph)⟩
        linarith
  obtain ⟨-, -, c, hdir, hneg, hpos⟩ := C65.deflected_direction x0 mom step d m m' hm s hs a0 a1 ha0.symm ha1.symm w hw.symm hne hk
  rcases lt_or_gt_of_ne hne with h | h
  · have c0 := hneg h
    rw [angle_of m.th m.ph a0 a1 c (dir m'.th m'.ph) c0.ne' (by rw [hdir, hw]), abs_of_pos c0, div_self c0.ne', turned, slope]
    simp only [ha0, ha1]
    rw [if_pos (by linarith)]
  · have c0 := hpos h
    rw [angle_of m.th m.ph a0 a1 c (dir m'.th m'.ph) c0.ne (by rw [hdir, hw]), abs_of_neg c0, div_neg, div_self c0.ne, turned, slope]
    simp only [ha0, ha1]
    rw [if_neg (by linarith)]

theorem tan_le (a : ℝ) (h : |a| ≤ 1) : |tan a| ≤ 2 * |a| := by
  have hp := pi_gt_three
  have hc : 1 / 2 ≤ cos a := by
    rw [← cos_abs, ← cos_pi_div_three]
    exact cos_le_cos_of_nonneg_of_le_pi (abs_nonneg a) (by linarith) (by linarith)
  rw [tan_eq_sin_div_cos, abs_div, abs_of_pos (by linarith : 0 < cos a), div_le_iff₀ (by linarith)]
  have := abs_sin_le_abs (x := a)
  nlinarith [abs_nonneg a]

theorem turned_small (th t r : ℝ) (hth : 0 ≤ th ∧ th < π / 2) (hr : 0 < r) (h1 : r ≤ cos th) (z : ℝ × ℝ) (hx : 4 * |z.1 * t| ≤ r) (hy : 4 * |z.2 * t| ≤ r) : turned th t z ≤ r := by
  have hp := pi_gt_three
  have r1 : r ≤ 1 := h1.trans (cos_le_one th)
  have e : ∀ y, 4 * |y * t| ≤ r → |tan (pdgDtheta y t)| ≤ r / 2 := by
    intro y hy
    have : pdgDtheta y t = y * t := by
      rw [pdgDtheta, min_eq_left]
      have := le_abs_self (y * t)
      have : (1:ℝ) ≤ π / 2.2 := by rw [le_div_iff₀ (by norm_num)]; linarith
      linarith
    rw [this]
    have := tan_le (y * t) (by linarith)
    linarith
  have ex := e _ hx
  have ey := e _ hy
  have hs : 0 ≤ sin th := sin_nonneg_of_nonneg_of_le_pi hth.1 (by linarith)
  have := sin_le_one th
  have := le_abs_self (tan (pdgDtheta z.2 t))
  rw [turned, if_pos (by nlinarith [abs_nonneg (tan (pdgDtheta z.2 t))])]
  have sl : slope t z ≤ sqrt (r ^ 2 + 1) := sqrt_le_sqrt (by
    have a := sq_le_sq' (by linarith [abs_nonneg (tan (pdgDtheta z.1 t))]) ex
    have b := sq_le_sq' (by linarith [abs_nonneg (tan (pdgDtheta z.2 t))]) ey
    rw [sq_abs] at a b
    nlinarith)
  have s0 : 0 < slope t z := sqrt_pos.mpr (by positivity)
  calc arccos (1 / slope t z) ≤ arccos (cos r) := arccos_le_arccos ((cos_le_one_div_sqrt_sq_add_one (by linarith) (by linarith)).trans (one_div_le_one_div_of_le s0 sl))
    _ = r := arccos_cos hr.le (by linarith)

/-- a standard normal number is within `ρ ≤ 1` of zero with a probability of at least `2 ρ` times the density at one -/
theorem normal_small (ρ : ℝ) (h0 : 0 ≤ ρ) (h1 : ρ ≤ 1) : 2 * ρ * gaussianPDFReal 0 1 1 ≤ (gaussianReal 0 1).real (Set.Icc (-ρ) ρ) := by
  have e : (gaussianReal 0 1).real (Set.Icc (-ρ) ρ) = ∫ x in Set.Icc (-ρ) ρ, gaussianPDFReal 0 1 x := by
    rw [measureReal_def, gaussianReal_apply_eq_integral _ one_ne_zero, ENNReal.toReal_ofReal (setIntegral_nonneg measurableSet_Icc fun x _ => gaussianPDFReal_nonneg 0 1 x)]
  have c : ∫ _ in Set.Icc (-ρ) ρ, gaussianPDFReal 0 1 1 = 2 * ρ * gaussianPDFReal 0 1 1 := by
    rw [setIntegral_const, measureReal_def, Real.volume_Icc, ENNReal.toReal_ofReal (by linarith), smul_eq_mul]; ring
  rw [e, ← c]
  refine setIntegral_mono_on (integrableOn_const (by simp)) (integrable_gaussianPDFReal 0 1).integrableOn measurableSet_Icc fun x hx => ?_
  simp only [gaussianPDFReal]
  refine mul_le_mul_of_nonneg_left (exp_le_exp.mpr ?_) (by positivity)
  have : x ^ 2 ≤ 1 := by have := hx.1; have := hx.2; nlinarith
  simp only [sub_zero, NNReal.coe_one]
  linarith

variable {Ω : Type} [MeasurableSpace Ω] {P : Measure Ω}

/-- **The chance that a simulated muon is turned by less than `r` is of order `r²`.** -/
theorem turned_prob [IsProbabilityMeasure P] (th t : ℝ) (hth : 0 ≤ th ∧ th < π / 2) (ht : t ≠ 0) (z : Ω → ℝ × ℝ) (hz : AEMeasurable z P) (hl : P.map z = (gaussianReal 0 1).prod (gaussianReal 0 1)) :
    ∃ c ε : ℝ, 0 < c ∧ 0 < ε ∧ ∀ r, 0 < r → r ≤ ε → c * r ^ 2 ≤ P.real {ω | turned th t (z ω) ≤ r} := by
  have hcos : 0 < cos th := cos_pos_of_mem_Ioo ⟨by have := pi_pos; linarith, hth.2⟩
  have t0 : 0 < |t| := abs_pos.mpr ht
  have g0 : 0 < gaussianPDFReal 0 1 1 := gaussianPDFReal_pos 0 1 1 one_ne_zero
  refine ⟨(gaussianPDFReal 0 1 1 / (2 * |t|)) ^ 2, min (cos th) (4 * |t|), by positivity, lt_min hcos (by positivity), fun r hr hle => ?_⟩
  have ρ0 : 0 ≤ r / (4 * |t|) := by positivity
  have ρ1 : r / (4 * |t|) ≤ 1 := by rw [div_le_one (by positivity)]; exact hle.trans (min_le_right _ _)
  have sub : z ⁻¹' (Set.Icc (-(r / (4 * |t|))) (r / (4 * |t|)) ×ˢ Set.Icc (-(r / (4 * |t|))) (r / (4 * |t|))) ⊆ {ω | turned th t (z ω) ≤ r} := by
    intro ω hω
    have k : ∀ y, y ∈ Set.Icc (-(r / (4 * |t|))) (r / (4 * |t|)) → 4 * |y * t| ≤ r := by
      intro y hy
      have h := abs_le.mpr ⟨hy.1, hy.2⟩
      rw [le_div_iff₀ (by positivity)] at h
      rw [abs_mul]; linarith
    exact turned_small th t r hth hr (hle.trans (min_le_left _ _)) (z ω) (k _ hω.1) (k _ hω.2)
  refine le_trans ?_ (measureReal_mono sub)
  have e : P.real (z ⁻¹' (Set.Icc (-(r / (4 * |t|))) (r / (4 * |t|)) ×ˢ Set.Icc (-(r / (4 * |t|))) (r / (4 * |t|)))) =
      (gaussianReal 0 1).real (Set.Icc (-(r / (4 * |t|))) (r / (4 * |t|))) * (gaussianReal 0 1).real (Set.Icc (-(r / (4 * |t|))) (r / (4 * |t|))) := by
    rw [← measureReal_prod_prod, ← hl, measureReal_def, measureReal_def, Measure.map_apply_of_aemeasurable hz (measurableSet_Icc.prod measurableSet_Icc)]
  rw [e]
  have n := normal_small _ ρ0 ρ1
  calc (gaussianPDFReal 0 1 1 / (2 * |t|)) ^ 2 * r ^ 2 = (2 * (r / (4 * |t|)) * gaussianPDFReal 0 1 1) * (2 * (r / (4 * |t|)) * gaussianPDFReal 0 1 1) := by field_simp; norm_num
    _ ≤ _ := mul_le_mul n n (by positivity) measureReal_nonneg

/-- a muon whose new direction is neither horizontal nor vertical is kept -/
theorem is_kept (x0 mom step : ℝ) (d : Draw) (m : Muon) (hm : Downward m) (s : Scat)
    (hs : s = pdgScatter x0 m.th m.ph (thetaXFromThetaPhi m.th m.ph) (thetaYFromThetaPhi m.th m.ph) mom step d)
    (a0 a1 : ℝ) (ha0 : a0 = pdgDtheta d.z2x (pdgTheta0 x0 mom step)) (ha1 : a1 = pdgDtheta d.z2y (pdgTheta0 x0 mom step))
    (w : ℝ × ℝ × ℝ) (hw : w = comb3 (dir m.th m.ph) (-tan a0) (axis0 m.th m.ph) (-tan a1) (axis1 m.th m.ph)) (hne : w.2.2 ≠ 0) (hv : w.1 ≠ 0 ∨ w.2.1 ≠ 0) :
    ∃ m', RawMuon.toMuon? (PassiveLayer.scatterXYRowO m.toRaw s.dtx s.dty) = some m' := by
  have hcos : 0 < cos m.th := cos_pos_of_mem_Ioo ⟨by have := hm.1; have := pi_pos; linarith, hm.2.1⟩
  have hnot : ¬ m.th ≥ π / 2 := not_le.mpr hm.2.1
  have hdo := dOut_eq m.th m.ph a0 a1 hcos
  rw [← hw] at hdo
  simp only at hdo
  have hd3 : w.2.2 / cos m.th ≠ 0 := div_ne_zero hne hcos.ne'
  have e1 : s.dtx = some (arctan (-(w.1 / cos m.th) / (w.2.2 / cos m.th)) - txOf m.th m.ph) := by
    rw [hs]
    simp only [pdgScatter, thetaXFromThetaPhi, thetaYFromThetaPhi, hnot, if_false, ← ha0, ← ha1]
    have := hdo
    simp only [txOf, tyOf] at this
    rw [this]
    simp only [arctanDiv, ne_eq, hd3, not_false_eq_true, if_true, Option.map_some, txOf]
  have e2 : s.dty = some (arctan (-(w.2.1 / cos m.th) / (w.2.2 / cos m.th)) - tyOf m.th m.ph) := by
    rw [hs]
    simp only [pdgScatter, thetaXFromThetaPhi, thetaYFromThetaPhi, hnot, if_false, ← ha0, ← ha1]
    have := hdo
    simp only [txOf, tyOf] at this
    rw [this]
    simp only [arctanDiv, ne_eq, hd3, not_false_eq_true, if_true, Option.map_some, tyOf]
  rw [e1, e2]
  simp only [PassiveLayer.scatterXYRowO]
  have k := (C05.scatter_xy_row m hm (arctan (-(w.1 / cos m.th) / (w.2.2 / cos m.th)) - txOf m.th m.ph)
    (arctan (-(w.2.1 / cos m.th) / (w.2.2 / cos m.th)) - tyOf m.th m.ph)).1.mpr (by
      simp only [txOf, tyOf, add_sub_cancel]
      refine ⟨abs_lt.mpr ⟨neg_pi_div_two_lt_arctan _, arctan_lt_pi_div_two _⟩, abs_lt.mpr ⟨neg_pi_div_two_lt_arctan _, arctan_lt_pi_div_two _⟩, ?_⟩
      rcases hv with h | h
      · exact Or.inl (by rw [ne_eq, arctan_eq_zero_iff]; exact div_ne_zero (neg_ne_zero.mpr (div_ne_zero h hcos.ne')) hd3)
      · exact Or.inr (by rw [ne_eq, arctan_eq_zero_iff]; exact div_ne_zero (neg_ne_zero.mpr (div_ne_zero h hcos.ne')) hd3))
  generalize Batch.scatterXYRow m.toRaw _ _ = r at k
  unfold Batch.keepRow at k
  unfold RawMuon.toMuon?
  split at k
  · exact ⟨_, rfl⟩
  · simp at k

theorem tan_countable (v : ℝ) : {x : ℝ | tan x = v}.Countable := by
  have h1 : (Set.range fun n : ℤ => (n : ℝ) * π + arctan v).Countable := Set.countable_range _
  have h2 : (Set.range fun n : ℤ => (2 * (n : ℝ) + 1) * π / 2).Countable := Set.countable_range _
  refine (h1.union h2).mono fun x hx => ?_
  by_cases hc : cos x = 0
  · obtain ⟨k, hk⟩ := cos_eq_zero_iff.mp hc
    exact Or.inr ⟨k, hk.symm⟩
  · left
    have e : sin (x - arctan v) = 0 := by
      have h3 : sin x = v * cos x := by rw [← show tan x = v from hx, tan_mul_cos hc]
      have h4 : sin (arctan v) = v * cos (arctan v) := by rw [← tan_mul_cos (cos_arctan_pos v).ne', tan_arctan]
      rw [sin_sub, h3, h4]; ring
    obtain ⟨n, hn⟩ := sin_eq_zero_iff.mp e
    exact ⟨n, by linarith⟩

/-- the tangent of the drawn angle has a given value with probability zero, except where the angle is clamped -/
theorem draws_null (t v : ℝ) (ht : t ≠ 0) (hv : tan (π / 2.2) ≠ v) : (gaussianReal 0 1) {z | tan (pdgDtheta z t) = v} = 0 := by
  have := nullSingletonClass_gaussianReal (μ := 0) (v := 1) one_ne_zero
  refine Set.Countable.measure_zero ?_ _
  refine ((tan_countable v).image fun x => x / t).mono fun z hz => ?_
  simp only [Set.mem_setOf_eq, pdgDtheta] at hz
  rcases min_choice (z * t) (π / 2.2) with h | h
  · rw [h] at hz
    exact ⟨z * t, hz, by field_simp⟩
  · rw [h] at hz
    exact absurd hz hv

end C132

end

end Tomopt
