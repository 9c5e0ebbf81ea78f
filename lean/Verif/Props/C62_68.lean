import Verif.Lemmas.Pdg
import Mathlib.Analysis.Real.Pi.Bounds
import Verif.Props.C10_12

/- C62, C63, C65-C68: the multiple-scattering model. -/
namespace Tomopt

noncomputable section
open Real

variable {α : Type}

/-- The transverse axes and the direction are orthonormal (sanity check of the specification). -/
theorem frame_orthonormal (th ph : ℝ) :
    dot3 (dir th ph) (dir th ph) = 1 ∧ dot3 (axis0 th ph) (axis0 th ph) = 1 ∧ dot3 (axis1 th ph) (axis1 th ph) = 1 ∧
    dot3 (dir th ph) (axis0 th ph) = 0 ∧ dot3 (dir th ph) (axis1 th ph) = 0 ∧ dot3 (axis0 th ph) (axis1 th ph) = 0 := by
  have h1 := sin_sq_add_cos_sq th
  have h2 := sin_sq_add_cos_sq ph
  by_cases h0 : th = 0
  · subst h0; simp [dot3, dir, axis0, axis1]
  · simp only [dot3, dir, axis0, axis1, h0, if_false]
    refine ⟨?_, ?_, ?_, ?_, ?_, ?_⟩
    · linear_combination (sin th ^ 2) * h2 + h1
    · linear_combination h2
    · linear_combination (cos th ^ 2) * h2 + h1
    · ring
    · linear_combination -(sin th * cos th) * h2
    · ring

namespace C63

/-- **C63.** The displacement is `d0 axis0 + d1 axis1` for the displacements `d0`, `d1` drawn in the muon frame: orthogonal to the flight
direction and of length `sqrt(d0² + d1²)`. -/
theorem displacement_transverse (x0 th ph : ℝ) (tx ty : Option ℝ) (mom step : ℝ) (d : Draw) :
    let s := pdgScatter x0 th ph tx ty mom step d
    let d0 := pdgDxy step (pdgTheta0 x0 mom step) d.z1x d.z2x
    let d1 := pdgDxy step (pdgTheta0 x0 mom step) d.z1y d.z2y
    (s.dx, s.dy, s.dz) = comb3 (0, 0, 0) d0 (axis0 th ph) d1 (axis1 th ph) ∧
    dot3 (s.dx, s.dy, s.dz) (dir th ph) = 0 ∧
    sqrt (dot3 (s.dx, s.dy, s.dz) (s.dx, s.dy, s.dz)) = sqrt (d0 ^ 2 + d1 ^ 2) := by
  intro s d0 d1
  obtain ⟨f1, f2, f3, f4, f5, f6⟩ := frame_orthonormal th ph
  have key : (s.dx, s.dy, s.dz) = comb3 (0, 0, 0) d0 (axis0 th ph) d1 (axis1 th ph) := by
    simp only [s, pdgScatter, pdgDxVol, pdgDyVol, pdgDzVol, comb3, axis0, axis1]
    by_cases h0 : th = 0
    · simp [h0, d0, d1]
    · simp only [h0, if_false, ne_eq, not_false_eq_true, if_true, cos_neg, sin_neg, Prod.mk.injEq]
      refine ⟨?_, ?_, ?_⟩ <;> simp only [d0, d1] <;> ring
  refine ⟨key, ?_, ?_⟩
  · rw [key]
    simp only [dot3, comb3] at *
    linear_combination d0 * f4 + d1 * f5
  · rw [key]
    congr 1
    simp only [dot3, comb3] at *
    linear_combination d0 ^ 2 * f2 + d1 ^ 2 * f3 + 2 * d0 * d1 * f6

end C63

namespace C65

/-- **C65.** A downward muon that is scattered with in-frame angles `a0`, `a1` and kept leaves along
`w = dir - tan a0 axis0 - tan a1 axis1` when that vector points down, with a positive factor. -/
theorem deflected_direction (x0 mom step : ℝ) (d : Draw) (m m' : Muon) (hm : Downward m)
    (s : Scat) (hs : s = pdgScatter x0 m.th m.ph (thetaXFromThetaPhi m.th m.ph) (thetaYFromThetaPhi m.th m.ph) mom step d)
    (a0 a1 : ℝ) (ha0 : a0 = pdgDtheta d.z2x (pdgTheta0 x0 mom step)) (ha1 : a1 = pdgDtheta d.z2y (pdgTheta0 x0 mom step))
    (w : ℝ × ℝ × ℝ) (hw : w = comb3 (dir m.th m.ph) (-tan a0) (axis0 m.th m.ph) (-tan a1) (axis1 m.th m.ph)) (hne : w.2.2 ≠ 0)
    (hk : RawMuon.toMuon? (PassiveLayer.scatterXYRowO m.toRaw s.dtx s.dty) = some m') :
    SamePlace m m' ∧ Downward m' ∧ ∃ c : ℝ, dir m'.th m'.ph = scale3 c w ∧ (w.2.2 < 0 → 0 < c) ∧ (0 < w.2.2 → c < 0) := by
  have hcos : 0 < cos m.th := cos_pos_of_mem_Ioo ⟨by have := hm.1; have := pi_pos; linarith, hm.2.1⟩
  have hnot : ¬ m.th ≥ π / 2 := not_le.mpr hm.2.1
  have hdo := dOut_eq m.th m.ph a0 a1 hcos
  rw [← hw] at hdo
  simp only at hdo
  have hd3 : w.2.2 / cos m.th ≠ 0 := div_ne_zero hne hcos.ne'
  have e1 : s.dtx = some (arctan (-(w.1 / cos m.th) / (w.2.2 / cos m.th)) - txOf m.th m.ph) := by
    rw [hs]
    simp only [pdgScatter, thetaXFromThetaPhi, thetaYFromThetaPhi, hnot, if_false, ← ha0, ← ha1]
    have := hdo
    simp only [txOf, tyOf] at this
    rw [this]
    simp only [arctanDiv, ne_eq, hd3, not_false_eq_true, if_true, Option.map_some, txOf]
  have e2 : s.dty = some (arctan (-(w.2.1 / cos m.th) / (w.2.2 / cos m.th)) - tyOf m.th m.ph) := by
    rw [hs]
    simp only [pdgScatter, thetaXFromThetaPhi, thetaYFromThetaPhi, hnot, if_false, ← ha0, ← ha1]
    have := hdo
    simp only [txOf, tyOf] at this
    rw [this]
    simp only [arctanDiv, ne_eq, hd3, not_false_eq_true, if_true, Option.map_some, tyOf]
  rw [e1, e2] at hk
  simp only [PassiveLayer.scatterXYRowO] at hk
  obtain ⟨-, hrow⟩ := C05.scatter_xy_row m hm (arctan (-(w.1 / cos m.th) / (w.2.2 / cos m.th)) - txOf m.th m.ph)
    (arctan (-(w.2.1 / cos m.th) / (w.2.2 / cos m.th)) - tyOf m.th m.ph)
  obtain ⟨hsame, hdown, hx, hy⟩ := hrow m' hk
  refine ⟨hsame, hdown, ?_⟩
  have hcos' : 0 < cos m'.th := cos_pos_of_mem_Ioo ⟨by have := hdown.1; have := pi_pos; linarith, hdown.2.1⟩
  have hnot' : ¬ m'.th ≥ π / 2 := not_le.mpr hdown.2.1
  simp only [thetaXFromThetaPhi, thetaYFromThetaPhi, hnot', if_false, txOf, tyOf, Option.some.injEq, add_sub_cancel] at hx hy
  have hx' : tan m'.th * cos m'.ph = -(w.1 / cos m.th) / (w.2.2 / cos m.th) := arctan_injective hx
  have hy' : tan m'.th * sin m'.ph = -(w.2.1 / cos m.th) / (w.2.2 / cos m.th) := arctan_injective hy
  have ht : tan m'.th = sin m'.th / cos m'.th := tan_eq_sin_div_cos _
  rw [ht] at hx' hy'
  refine ⟨-(cos m'.th / w.2.2), ?_, ?_, ?_⟩
  · simp only [dir, scale3, Prod.mk.injEq]
    refine ⟨?_, ?_, ?_⟩
    · field_simp at hx' ⊢; linarith
    · field_simp at hy' ⊢; linarith
    · field_simp
  · intro h
    have := div_neg_of_pos_of_neg hcos' h
    linarith
  · intro h
    have := div_pos hcos' h
    linarith

end C65

namespace C62

/-- **C62, refuted for every muon.** With the independent component zero (`z1 = 0`) and in-frame angles within a quarter turn, the displacement
and the change of direction always point to opposite sides: their scalar product is negative (zero only for no deflection). -/
theorem displacement_opposite_violated (x0 th ph mom step : ℝ) (tx ty : Option ℝ) (hst : 0 < step) (z2x z2y : ℝ)
    (hx : |z2x * pdgTheta0 x0 mom step| < π / 2) (hy : |z2y * pdgTheta0 x0 mom step| < π / 2)
    (hne : z2x * pdgTheta0 x0 mom step ≠ 0 ∨ z2y * pdgTheta0 x0 mom step ≠ 0) :
    let s := pdgScatter x0 th ph tx ty mom step ⟨0, 0, z2x, z2y⟩
    let a0 := pdgDtheta z2x (pdgTheta0 x0 mom step)
    let a1 := pdgDtheta z2y (pdgTheta0 x0 mom step)
    dot3 (s.dx, s.dy, s.dz) (comb3 (0, 0, 0) (-tan a0) (axis0 th ph) (-tan a1) (axis1 th ph)) < 0 := by
  intro s a0 a1
  obtain ⟨f1, f2, f3, f4, f5, f6⟩ := frame_orthonormal th ph
  obtain ⟨key, -, -⟩ := C63.displacement_transverse x0 th ph tx ty mom step ⟨0, 0, z2x, z2y⟩
  simp only at key
  change (s.dx, s.dy, s.dz) = _ at key
  rw [key]
  set t0 := pdgTheta0 x0 mom step with ht0
  have hpi := pi_pos
  have sgn : ∀ z : ℝ, |z * t0| < π / 2 → 0 ≤ (z * t0) * tan (pdgDtheta z t0) ∧ (z * t0 ≠ 0 → 0 < (z * t0) * tan (pdgDtheta z t0)) := by
    intro z hz
    rw [abs_lt] at hz
    have hlt : π / 2.2 < π / 2 := by
      apply div_lt_div_of_pos_left hpi (by norm_num) (by norm_num)
    have hpos2 : 0 < π / 2.2 := by positivity
    rcases lt_trichotomy (z * t0) 0 with h | h | h
    · have e : pdgDtheta z t0 = z * t0 := by unfold pdgDtheta; exact min_eq_left (by linarith)
      have : tan (pdgDtheta z t0) < 0 := by rw [e]; exact tan_neg_of_neg_of_pi_div_two_lt h hz.1
      have := mul_pos_of_neg_of_neg h this
      exact ⟨this.le, fun _ => this⟩
    · have e : pdgDtheta z t0 = 0 := by unfold pdgDtheta; rw [h]; exact min_eq_left hpos2.le
      rw [e, h]; simp
    · have hp : 0 < pdgDtheta z t0 := lt_min h hpos2
      have hq : pdgDtheta z t0 < π / 2 := lt_of_le_of_lt (min_le_right _ _) hlt
      have := mul_pos h (tan_pos_of_pos_of_lt_pi_div_two hp hq)
      exact ⟨this.le, fun _ => this⟩
  obtain ⟨x1, x2⟩ := sgn z2x hx
  obtain ⟨y1, y2⟩ := sgn z2y hy
  have hval : dot3 (comb3 (0, 0, 0) (pdgDxy step t0 0 z2x) (axis0 th ph) (pdgDxy step t0 0 z2y) (axis1 th ph))
      (comb3 (0, 0, 0) (-tan a0) (axis0 th ph) (-tan a1) (axis1 th ph)) =
      -(step / 2) * ((z2x * t0) * tan a0 + (z2y * t0) * tan a1) := by
    simp only [dot3, comb3, pdgDxy] at *
    linear_combination (-(step * t0 * (0 / sqrt 12 + z2x / 2)) * tan a0) * f2 +
      (-(step * t0 * (0 / sqrt 12 + z2y / 2)) * tan a1) * f3 +
      (-(step * t0 * (0 / sqrt 12 + z2x / 2)) * tan a1 - (step * t0 * (0 / sqrt 12 + z2y / 2)) * tan a0) * f6
  rw [hval]
  have hpos : 0 < (z2x * t0) * tan a0 + (z2y * t0) * tan a1 := by
    rcases hne with h | h
    · have := x2 h; linarith
    · have := y2 h; linarith
  have : 0 < step / 2 := by linarith
  nlinarith

/-- Non-vacuity: `theta0 = 1` (momentum 0.0136, step equal to X0), a deflection of one. -/
theorem theta0_unit : pdgTheta0 0.01 0.0136 0.01 = 1 := by
  unfold pdgTheta0 scatterCoefA scatterCoefB
  norm_num

example : |(1 : ℝ) * pdgTheta0 0.01 0.0136 0.01| < π / 2 ∧ (1 : ℝ) * pdgTheta0 0.01 0.0136 0.01 ≠ 0 := by
  rw [theta0_unit]
  have := two_le_pi
  have h3 : (1 : ℝ) < π / 2 ∨ π = 2 := by
    rcases eq_or_lt_of_le this with h | h
    · right; exact h.symm
    · left; linarith
  have h4 := Real.pi_gt_three
  norm_num
  linarith

end C62

namespace C66

/-- **C66, refuted.** A muon scattered past the horizontal (`w` points up) is not removed: if it is kept at all, it continues in exactly the
opposite direction `-w/|w|`, downwards. -/
theorem past_horizontal_reversed_violated (x0 mom step : ℝ) (d : Draw) (m m' : Muon) (hm : Downward m)
    (s : Scat) (hs : s = pdgScatter x0 m.th m.ph (thetaXFromThetaPhi m.th m.ph) (thetaYFromThetaPhi m.th m.ph) mom step d)
    (w : ℝ × ℝ × ℝ)
    (hw : w = comb3 (dir m.th m.ph) (-tan (pdgDtheta d.z2x (pdgTheta0 x0 mom step))) (axis0 m.th m.ph)
      (-tan (pdgDtheta d.z2y (pdgTheta0 x0 mom step))) (axis1 m.th m.ph)) (hup : 0 < w.2.2)
    (hk : RawMuon.toMuon? (PassiveLayer.scatterXYRowO m.toRaw s.dtx s.dty) = some m') :
    ∃ c : ℝ, 0 < c ∧ dir m'.th m'.ph = scale3 (-c) w ∧ (dir m'.th m'.ph).2.2 < 0 := by
  obtain ⟨-, hd, c, hc, -, hneg⟩ := C65.deflected_direction x0 mom step d m m' hm s hs _ _ rfl rfl w hw hup.ne' hk
  have := hneg hup
  refine ⟨-c, by linarith, by simpa using hc, ?_⟩
  rw [hc]
  exact mul_neg_of_neg_of_pos this hup

/-- Non-vacuity: a muon at 45 degrees scattered by 1.2 rad in the vertical plane is past the horizontal and kept. -/
theorem past_horizontal_kept : ∃ (d : Draw) (m m' : Muon) (s : Scat), Downward m ∧
    s = pdgScatter 0.01 m.th m.ph (thetaXFromThetaPhi m.th m.ph) (thetaYFromThetaPhi m.th m.ph) 0.0136 0.01 d ∧
    0 < (comb3 (dir m.th m.ph) (-tan (pdgDtheta d.z2x (pdgTheta0 0.01 0.0136 0.01))) (axis0 m.th m.ph)
      (-tan (pdgDtheta d.z2y (pdgTheta0 0.01 0.0136 0.01))) (axis1 m.th m.ph)).2.2 ∧
    RawMuon.toMuon? (PassiveLayer.scatterXYRowO m.toRaw s.dtx s.dty) = some m' := by
  have hpi := pi_pos
  have h3 := Real.pi_gt_three
  have h4 := Real.pi_lt_d2
  have hm : Downward (⟨0, 0, 0, 0, 1, π / 4, 0⟩ : Muon) := ⟨by positivity, by linarith, le_refl _, by linarith⟩
  have hne : (π / 4 : ℝ) ≠ 0 := by positivity
  have hcos : 0 < cos (π / 4) := by rw [cos_pi_div_four]; positivity
  have hsin : sin (π / 4) = cos (π / 4) := by rw [sin_pi_div_four, cos_pi_div_four]
  have ha : pdgDtheta 1.2 (pdgTheta0 0.01 0.0136 0.01) = 1.2 := by
    rw [C62.theta0_unit]; unfold pdgDtheta; rw [mul_one]
    apply min_eq_left
    rw [le_div_iff₀ (by norm_num)]; linarith
  have hb : pdgDtheta 0 (pdgTheta0 0.01 0.0136 0.01) = 0 := by
    rw [C62.theta0_unit]; unfold pdgDtheta; rw [mul_one]
    apply min_eq_left; positivity
  have htan : 1 < tan 1.2 := by
    rw [← tan_pi_div_four]
    apply tan_lt_tan_of_lt_of_lt_pi_div_two <;> linarith
  set w := comb3 (dir (π / 4) 0) (-tan (pdgDtheta 0 (pdgTheta0 0.01 0.0136 0.01))) (axis0 (π / 4) 0)
      (-tan (pdgDtheta 1.2 (pdgTheta0 0.01 0.0136 0.01))) (axis1 (π / 4) 0) with hw
  have hw3 : 0 < w.2.2 := by
    simp only [hw, ha, hb, comb3, dir, axis0, axis1, hne, if_false, tan_zero, cos_zero, sin_zero, hsin]
    nlinarith
  have hw1 : 0 < w.1 := by
    simp only [hw, ha, hb, comb3, dir, axis0, axis1, hne, if_false, tan_zero, cos_zero, sin_zero, hsin]
    nlinarith
  have hdo := dOut_eq (π / 4) 0 (pdgDtheta 0 (pdgTheta0 0.01 0.0136 0.01)) (pdgDtheta 1.2 (pdgTheta0 0.01 0.0136 0.01)) hcos
  rw [← hw] at hdo
  simp only [txOf, tyOf] at hdo
  have hd3 : w.2.2 / cos (π / 4) ≠ 0 := div_ne_zero hw3.ne' hcos.ne'
  have hnot : ¬ (π / 4 : ℝ) ≥ π / 2 := by linarith
  have hkeep := (C05.scatter_xy_row ⟨0, 0, 0, 0, 1, π / 4, 0⟩ hm
    (arctan (-(w.1 / cos (π / 4)) / (w.2.2 / cos (π / 4))) - arctan (tan (π / 4) * cos 0))
    (arctan (-(w.2.1 / cos (π / 4)) / (w.2.2 / cos (π / 4))) - arctan (tan (π / 4) * sin 0))).1.mpr (by
      simp only [add_sub_cancel]
      refine ⟨abs_lt.mpr ⟨by linarith [neg_pi_div_two_lt_arctan (-(w.1 / cos (π / 4)) / (w.2.2 / cos (π / 4)))], arctan_lt_pi_div_two _⟩,
        abs_lt.mpr ⟨by linarith [neg_pi_div_two_lt_arctan (-(w.2.1 / cos (π / 4)) / (w.2.2 / cos (π / 4)))], arctan_lt_pi_div_two _⟩,
        Or.inl ?_⟩
      rw [Ne, arctan_eq_zero_iff]
      exact div_ne_zero (neg_ne_zero.mpr (div_ne_zero hw1.ne' hcos.ne')) hd3)
  obtain ⟨m', hm'⟩ := keepRow_toMuon hkeep
  refine ⟨⟨0, 0, 0, 1.2⟩, ⟨0, 0, 0, 0, 1, π / 4, 0⟩, m', _, hm, rfl, hw3, ?_⟩
  simp only [pdgScatter, thetaXFromThetaPhi, thetaYFromThetaPhi, hnot, if_false]
  rw [hdo]
  simp only [arctanDiv, ne_eq, hd3, not_false_eq_true, if_true, Option.map_some, PassiveLayer.scatterXYRowO]
  exact hm'

end C66

namespace C67

/-- **C67, positive side.** In-frame angles are below a quarter turn. -/
theorem angle_below_partial (z t : ℝ) : pdgDtheta z t < π / 2 := by
  have hpi := pi_pos
  have : π / 2.2 < π / 2 := div_lt_div_of_pos_left hpi (by norm_num) (by norm_num)
  exact lt_of_le_of_lt (min_le_right _ _) this

/-- **C67, refuted on the negative side**: there is no lower limit, any negative angle is passed to `tan`. -/
theorem angle_above_violated (a : ℝ) (ha : a < 0) : pdgDtheta a 1 = a := by
  have hpi := pi_pos
  have : 0 < π / 2.2 := by positivity
  unfold pdgDtheta; rw [mul_one]; exact min_eq_left (by linarith)

/-- in particular below `-pi/2`, where `tan` has the wrong sign -/
theorem wrong_sign_violated : ∃ z t : ℝ, pdgDtheta z t < -(π / 2) ∧ 0 < tan (pdgDtheta z t) := by
  have hpi := pi_pos
  refine ⟨-(3 * π / 4), 1, ?_, ?_⟩
  · rw [angle_above_violated _ (by linarith)]; linarith
  · rw [angle_above_violated _ (by linarith)]
    have : tan (-(3 * π / 4)) = tan (π / 4) := by
      rw [← tan_add_pi (-(3 * π / 4))]; congr 1; ring
    rw [this, tan_pi_div_four]; norm_num

end C67

namespace C68

/-- A layer 100 steps thick made of a material whose X0 equals the step, one voxel of 1 by 1. -/
def thickLayer : PassiveLayer := ⟨(1, 1), 1, 1, 0.01, "pdg", some [[0.01]]⟩

theorem thick_shape : WellShaped thickLayer 1 1 [[0.01]] :=
  ⟨by norm_num [thickLayer], by norm_num [thickLayer], by norm_num [thickLayer], rfl, rfl, by simp⟩

/-- **C68, refuted.** A muon displaced above the top face in the first step is not tracked any more: the traversal of the layer of 100 steps
returns after a single pass, with the muon transported to the bottom without any further scattering. -/
theorem early_exit_violated : ∃ (rng : Nat → Nat → Draw) (b b' : Batch α),
    thickLayer.size = 100 * thickLayer.stepSz ∧ thickLayer.forward rng 1 b = .ok (some b') ∧ b.muons.length = 1 ∧ b'.muons.length = 1 := by
  have hpi := pi_pos
  have hs12 : sqrt 12 ≠ 0 := by positivity
  let m : Muon := ⟨0, 0.5, 0.5, 1, 0.0136, π / 4, 0⟩
  have hm : Downward m := ⟨by positivity, by simp only [m]; linarith, le_refl _, by simp only [m]; linarith⟩
  let d : Draw := ⟨0, -(2 * sqrt 12), 0, 0⟩
  let b : Batch α := ⟨[m], [], [], []⟩
  have hcos : 0 < cos (π / 4) := by rw [cos_pi_div_four]; positivity
  have hcos1 : cos (π / 4) ≤ 1 := cos_le_one _
  have hsin : sin (π / 4) = cos (π / 4) := by rw [sin_pi_div_four, cos_pi_div_four]
  have hnot : ¬ (π / 4 : ℝ) ≥ π / 2 := by linarith
  have hne : (π / 4 : ℝ) ≠ 0 := by positivity
  have hover : Over thickLayer m := by simp only [Over, thickLayer, m]; norm_num
  have hfoot : thickLayer.footprint m = true := (PassiveLayer.footprint_iff _ _).mpr hover
  have hstep : thickLayer.scatterStep m = 0.01 := by
    unfold PassiveLayer.scatterStep
    rw [if_neg]
    · rfl
    · simp only [thickLayer, m]; rw [not_lt, le_div_iff₀ hcos]; linarith
  have hlook : thickLayer.lookupX0 [[0.01]] m = .ok 0.01 := by
    have h0 : ⌊(0.5 : ℝ)⌋ = 0 := by norm_num
    simp [PassiveLayer.lookupX0, PassiveLayer.abs2idx, thickLayer, m, getIdx, h0]
  have hscat : thickLayer.scatterOf [[0.01]] (fun _ => d) m = .ok (pdgScatter 0.01 (π / 4) 0
      (thetaXFromThetaPhi (π / 4) 0) (thetaYFromThetaPhi (π / 4) 0) 0.0136 0.01 d) := by
    simp only [PassiveLayer.scatterOf, hlook, hstep, m]
  have hval : thickLayer.scatVal [[0.01]] (fun _ => d) m = pdgScatter 0.01 (π / 4) 0
      (thetaXFromThetaPhi (π / 4) 0) (thetaYFromThetaPhi (π / 4) 0) 0.0136 0.01 d := by
    simp only [PassiveLayer.scatVal, hscat]
  set s := pdgScatter 0.01 (π / 4) 0 (thetaXFromThetaPhi (π / 4) 0) (thetaYFromThetaPhi (π / 4) 0) 0.0136 0.01 d with hsdef
  have hdz : s.dz = 0.02 * cos (π / 4) := by
    simp only [hsdef, pdgScatter, pdgDzVol, pdgDxy, hne, ne_eq, not_false_eq_true, if_true, C62.theta0_unit, d, sin_neg, hsin]
    field_simp
    norm_num
  have hb0 : pdgDtheta 0 (pdgTheta0 0.01 0.0136 0.01) = 0 := by
    rw [C62.theta0_unit]; unfold pdgDtheta; rw [mul_one]; apply min_eq_left; positivity
  have hdo := dOut_eq (π / 4) 0 0 0 hcos
  simp only [txOf, tyOf, comb3, dir, axis0, axis1, hne, if_false, tan_zero, cos_zero, sin_zero, hsin] at hdo
  have hdtx : s.dtx = some 0 ∧ s.dty = some 0 := by
    simp only [hsdef, pdgScatter, thetaXFromThetaPhi, thetaYFromThetaPhi, hnot, if_false, d, hb0]
    rw [cos_zero, sin_zero, hdo]
    have e1 : tan (π / 4) = 1 := tan_pi_div_four
    have e2 : (-cos (π / 4) + -0 * 0 + -0 * -cos (π / 4)) / cos (π / 4) = -1 := by field_simp; ring
    constructor
    · rw [e2]; simp [arctanDiv, e1]
    · rw [e2]; simp [arctanDiv]
  -- the outcome of the only pass
  have hpass := PassiveLayer.pass_rows_ok thickLayer [[0.01]] rfl (by simp [PassiveLayer.checkModel, thickLayer]) (fun _ => d) b (fun _ => true)
    (by intro m' hm' _ _
        have : m' = m := by simpa [b] using hm'
        subst this; exact ⟨_, hscat⟩)
  set mm := thickLayer.rowPos true true s m with hmm
  have hmz : mm.z = 1 + 0.01 * cos (π / 4) := by
    simp only [hmm, PassiveLayer.rowPos, if_true, Bool.and_true, Batch.propDRow, shiftXYZ, hdz, decide_eq_true_eq]
    rw [if_neg]
    · simp only [m, thickLayer]; ring
    · simp only [m, thickLayer]; rw [not_lt]; nlinarith
  have hmang : mm.th = π / 4 ∧ mm.ph = 0 := by
    simp only [hmm, PassiveLayer.rowPos, if_true]
    split <;> exact ⟨rfl, rfl⟩
  have hmmd : Downward mm := ⟨by rw [hmang.1]; positivity, by rw [hmang.1]; linarith, by rw [hmang.2], by rw [hmang.2]; linarith⟩
  have hkeep : Batch.keepRow (Batch.scatterXYRow mm.toRaw 0 0) = true := by
    apply (C05.scatter_xy_row mm hmmd 0 0).1.mpr
    rw [hmang.1, hmang.2]
    simp only [add_zero, cos_zero, sin_zero, mul_one, mul_zero, arctan_zero, tan_pi_div_four, abs_zero]
    refine ⟨?_, by positivity, Or.inl ?_⟩
    · rw [abs_lt]; exact ⟨by linarith [neg_pi_div_two_lt_arctan 1], arctan_lt_pi_div_two 1⟩
    · rw [Ne, arctan_eq_zero_iff]; norm_num
  obtain ⟨m2, hm2⟩ := keepRow_toMuon hkeep
  have hz2 : m2.z = mm.z := ((C05.scatter_xy_row mm hmmd 0 0).2 m2 hm2).1.2.2.2.1
  have hrow : thickLayer.rowPass (thickLayer.footprint m && true) true (thickLayer.scatVal [[0.01]] (fun _ => d) m) m =
      Batch.scatterXYRow mm.toRaw 0 0 := by
    simp only [hfoot, Bool.and_true, hval, PassiveLayer.rowPass, if_true, hdtx.1, hdtx.2, PassiveLayer.scatterXYRowO, hmm]
  have hout : b.removeUpwards (b.muons.map fun m => thickLayer.rowPass (thickLayer.footprint m && true) true
      (thickLayer.scatVal [[0.01]] (fun _ => d) m) m) = ⟨[m2], [], [], []⟩ := by
    simp only [b, List.map_cons, List.map_nil, hrow, Batch.removeUpwards, hkeep]
    simp [countTrue, hm2]
  rw [hout] at hpass
  refine ⟨fun _ _ => d, b, _, by norm_num [thickLayer], PassiveLayer.forward_returns_of thickLayer _ 1 b (b2 := ⟨[m2], [], [], []⟩) ?_, rfl, rfl⟩
  have hfirst : (b.muons.map fun m => Batch.propDzRow m (m.z - thickLayer.z)) = b.muons := by
    simp only [b, List.map_cons, List.map_nil, m, thickLayer, sub_self, C06.propDz_zero]
  rw [hfirst]
  unfold PassiveLayer.loop
  rw [if_pos (by simp [b])]
  simp only
  have hmask : List.replicate b.muons.length true = b.muons.map fun _ => true := by simp [b]
  rw [hmask]
  have hbb : ({ b with muons := b.muons } : Batch α) = b := rfl
  rw [hpass]
  simp only [bind, Except.bind, List.map_cons, List.map_nil]
  unfold PassiveLayer.loop
  rw [if_neg]
  simp only [List.any_cons, List.any_nil, Bool.or_false, id, PassiveLayer.inside, Bool.and_eq_true, decide_eq_true_eq, not_and, not_le]
  intro _
  rw [hz2, hmz]
  simp only [thickLayer]
  nlinarith

end C68

end

end Tomopt
