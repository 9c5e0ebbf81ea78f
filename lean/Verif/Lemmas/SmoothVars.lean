import Verif.Lemmas.Smooth
import Verif.Model.Uncert
import Mathlib.Analysis.Calculus.ContDiff.Operations
import Mathlib.Analysis.Calculus.Deriv.Pi
import Mathlib.Analysis.SpecialFunctions.Sqrt

/- Helper lemmas: the variables of a muon are twice continuously differentiable functions of its hits; their propagated uncertainties are differentiable. -/
namespace Tomopt

noncomputable section
open Real Filter Topology Scatter Uncert

namespace C121

variable {X : Type} [NormedAddCommGroup X] [NormedSpace ℝ X] {n : Nat}

/-- twice continuously differentiable -/
abbrev CD (f : X → ℝ) (q : X) : Prop := ContDiffAt ℝ 2 f q

/-- all numbers of a track are twice continuously differentiable -/
structure TrackCD (T : X → Track) (q : X) : Prop where
  dx : CD (fun t => (T t).1.1) q
  dy : CD (fun t => (T t).1.2.1) q
  dz : CD (fun t => (T t).1.2.2) q
  x : CD (fun t => (T t).2.1) q
  y : CD (fun t => (T t).2.2.1) q
  z : CD (fun t => (T t).2.2.2) q

theorem fitted_cd (x z u : Fin n → X → ℝ) (h : X → ℝ) (q : X) (hx : ∀ k, CD (x k) q) (hz : ∀ k, CD (z k) q)
    (hu : ∀ k, CD (u k) q) (hh : CD h q) (hpos : ∀ k, 0 < u k q) (i j : Fin n) (hij : z i q ≠ z j q) :
    CD (fun t => C111.fitted (x · t) (z · t) (u · t) (h t)) q := by
  obtain ⟨p0, p2, pd⟩ := C106.det_points (z · q) (u · q) hpos i j hij
  have hu2 : ∀ k, u k q ^ 2 ≠ 0 := fun k => pow_ne_zero _ (hpos k).ne'
  have d0 : CD (fun t => C106.S0 (u · t)) q := by
    unfold C106.S0
    exact ContDiffAt.sum fun k _ => contDiffAt_const.div ((hu k).pow 2) (hu2 k)
  have d1 : CD (fun t => C106.S1 (z · t) (u · t)) q := by
    unfold C106.S1
    exact ContDiffAt.sum fun k _ => (hz k).div ((hu k).pow 2) (hu2 k)
  have d2 : CD (fun t => C106.S2 (z · t) (u · t)) q := by
    unfold C106.S2
    exact ContDiffAt.sum fun k _ => ((hz k).pow 2).div ((hu k).pow 2) (hu2 k)
  have dd : CD (fun t => C106.Det (z · t) (u · t)) q := (d0.mul d2).sub (d1.pow 2)
  unfold C111.fitted C106.share
  refine ContDiffAt.sum fun k _ => ContDiffAt.mul (ContDiffAt.div (ContDiffAt.add ?_ ?_) ((hu k).pow 2) (hu2 k)) (hx k)
  · exact (d2.sub (hh.mul d1)).div dd pd.ne'
  · exact (((hh.mul d0).sub d1).div dd pd.ne').mul (hz k)

theorem dot_cd (p r : X → V3) (q : X) (p1 : CD (fun t => (p t).1) q) (p2 : CD (fun t => (p t).2.1) q) (p3 : CD (fun t => (p t).2.2) q)
    (q1 : CD (fun t => (r t).1) q) (q2 : CD (fun t => (r t).2.1) q) (q3 : CD (fun t => (r t).2.2) q) : CD (fun t => vdot (p t) (r t)) q := by
  unfold vdot
  exact ((p1.mul q1).add (p2.mul q2)).add (p3.mul q3)

theorem norm_cd (p : X → V3) (q : X) (p1 : CD (fun t => (p t).1) q) (p2 : CD (fun t => (p t).2.1) q) (p3 : CD (fun t => (p t).2.2) q)
    (h : vnorm (p q) ≠ 0) : CD (fun t => vnorm (p t)) q := by
  unfold vnorm at h ⊢
  refine (dot_cd p p q p1 p2 p3 p1 p2 p3).sqrt fun h0 => h (by rw [h0, sqrt_zero])

/-- closest point and scattering angle of two tracks that are not parallel -/
theorem scatters_cd (Tin Tout : X → Track) (q : X) (ha : TrackCD Tin q) (hb : TrackCD Tout q) (hnp : ¬ Parallel (Tin q).1 (Tout q).1) :
    (∃ c : X → ℝ × ℝ × ℝ, (∀ᶠ t in 𝓝 q, trackCoefs (Tin t) (Tout t) = some (c t)) ∧
      CD (fun t => (poca (Tin t) (Tout t) (c t)).1) q ∧ CD (fun t => (poca (Tin t) (Tout t) (c t)).2.1) q ∧
      CD (fun t => (poca (Tin t) (Tout t) (c t)).2.2) q) ∧
    ∃ th : X → ℝ, (∀ᶠ t in 𝓝 q, thetaMsc (Tin t).1 (Tout t).1 = some (th t)) ∧ CD th q ∧ 0 < th q := by
  obtain ⟨a1, a2, a3, a4, a5, a6⟩ := ha
  obtain ⟨b1, b2, b3, b4, b5, b6⟩ := hb
  have hcr : len3 (vcross (Tin q).1 (Tout q).1) ≠ 0 := by
    rw [Ne, len3_zero, cross_zero_parallel]
    exact hnp
  constructor
  · have w1 : CD (fun t => (vcross (Tin t).1 (Tout t).1).1) q := (a2.mul b3).sub (a3.mul b2)
    have w2 : CD (fun t => (vcross (Tin t).1 (Tout t).1).2.1) q := (a3.mul b1).sub (a1.mul b3)
    have w3 : CD (fun t => (vcross (Tin t).1 (Tout t).1).2.2) q := (a1.mul b2).sub (a2.mul b1)
    have det_cd : ∀ p m r : X → V3, CD (fun t => (p t).1) q → CD (fun t => (p t).2.1) q → CD (fun t => (p t).2.2) q →
        CD (fun t => (m t).1) q → CD (fun t => (m t).2.1) q → CD (fun t => (m t).2.2) q →
        CD (fun t => (r t).1) q → CD (fun t => (r t).2.1) q → CD (fun t => (r t).2.2) q →
        CD (fun t => det3 (p t) (m t) (r t)) q := by
      intro p m r p1 p2 p3 q1 q2 q3 r1 r2 r3
      exact dot_cd p (fun t => vcross (m t) (r t)) q p1 p2 p3 ((q2.mul r3).sub (q3.mul r2)) ((q3.mul r1).sub (q1.mul r3)) ((q1.mul r2).sub (q2.mul r1))
    let nv : X → V3 := fun t => (-(Tout t).1.1, -(Tout t).1.2.1, -(Tout t).1.2.2)
    let rhs : X → V3 := fun t => ((Tout t).2.1 - (Tin t).2.1, (Tout t).2.2.1 - (Tin t).2.2.1, (Tout t).2.2.2 - (Tin t).2.2.2)
    let w : X → V3 := fun t => vcross (Tin t).1 (Tout t).1
    have dd := det_cd (fun t => (Tin t).1) nv w a1 a2 a3 b1.neg b2.neg b3.neg w1 w2 w3
    have d1 := det_cd rhs nv w (b4.sub a4) (b5.sub a5) (b6.sub a6) b1.neg b2.neg b3.neg w1 w2 w3
    have d3 := det_cd (fun t => (Tin t).1) nv rhs a1 a2 a3 b1.neg b2.neg b3.neg (b4.sub a4) (b5.sub a5) (b6.sub a6)
    have h0 : det3 (Tin q).1 (nv q) (w q) ≠ 0 := by
      have : det3 (Tin q).1 (nv q) (w q) = -len3 (vcross (Tin q).1 (Tout q).1) ^ 2 := by
        rw [← vdot_self]; simp only [det3, vdot, vcross, nv, w]; ring
      rw [this]
      exact neg_ne_zero.mpr (pow_ne_zero _ hcr)
    have c1 := d1.fun_div dd h0
    have c3 := d3.fun_div dd h0
    refine ⟨fun t => (det3 (rhs t) (nv t) (w t) / det3 (Tin t).1 (nv t) (w t), det3 (Tin t).1 (rhs t) (w t) / det3 (Tin t).1 (nv t) (w t), det3 (Tin t).1 (nv t) (rhs t) / det3 (Tin t).1 (nv t) (w t)),
      ?_, ?_, ?_, ?_⟩
    · filter_upwards [dd.continuousAt.eventually_ne h0] with t ht
      unfold trackCoefs
      exact if_neg ht
    · exact (a4.add (c1.mul a1)).add ((c3.mul w1).div_const 2)
    · exact (a5.add (c1.mul a2)).add ((c3.mul w2).div_const 2)
    · exact (a6.add (c1.mul a3)).add ((c3.mul w3).div_const 2)
  · have dv := dot_cd (fun t => (Tin t).1) (fun t => (Tout t).1) q a1 a2 a3 b1 b2 b3
    have hl := lagrange (Tin q).1 (Tout q).1
    have hpos : 0 < len3 (vcross (Tin q).1 (Tout q).1) ^ 2 := lt_of_le_of_ne (sq_nonneg _) (pow_ne_zero _ hcr).symm
    have n1 : vnorm (Tin q).1 ≠ 0 := by
      rw [vnorm_eq]
      intro h
      rw [h] at hl
      nlinarith [sq_nonneg (vdot (Tin q).1 (Tout q).1)]
    have n2 : vnorm (Tout q).1 ≠ 0 := by
      rw [vnorm_eq]
      intro h
      rw [h] at hl
      nlinarith [sq_nonneg (vdot (Tin q).1 (Tout q).1)]
    have e1 := norm_cd (fun t => (Tin t).1) q a1 a2 a3 n1
    have e2 := norm_cd (fun t => (Tout t).1) q b1 b2 b3 n2
    have hn := mul_ne_zero n1 n2
    have dq := dv.fun_div (e1.mul e2) hn
    have hlt : (vdot (Tin q).1 (Tout q).1 / (vnorm (Tin q).1 * vnorm (Tout q).1)) ^ 2 < 1 := by
      rw [div_pow, div_lt_one (by positivity), vnorm_eq, vnorm_eq, mul_pow]
      linarith
    have hne : vdot (Tin q).1 (Tout q).1 / (vnorm (Tin q).1 * vnorm (Tout q).1) ≠ -1 ∧ vdot (Tin q).1 (Tout q).1 / (vnorm (Tin q).1 * vnorm (Tout q).1) ≠ 1 := by
      constructor <;> intro h <;> rw [h] at hlt <;> norm_num at hlt
    refine ⟨fun t => arccos (vdot (Tin t).1 (Tout t).1 / (vnorm (Tin t).1 * vnorm (Tout t).1)), ?_, ?_, ?_⟩
    · filter_upwards [(e1.mul e2).continuousAt.eventually_ne hn] with t ht
      unfold thetaMsc
      exact if_neg ht
    · exact ContDiffAt.comp (g := arccos) q (contDiffAt_arccos hne.1 hne.2) dq
    · rw [arccos_pos]
      exact (abs_lt.mp ((sq_lt_one_iff_abs_lt_one _).mp hlt)).2

/-- polar angle of a track that is not vertical and points down -/
theorem theta_cd (T : X → Track) (q : X) (hT : TrackCD T q) (h : (T q).1.1 ≠ 0 ∨ (T q).1.2.1 ≠ 0) (hd : (T q).1.2.2 < 0) :
    ∃ th : X → ℝ, (∀ᶠ t in 𝓝 q, thetaOf (T t).1 = some (th t)) ∧ CD th q ∧ 0 < th q ∧ th q < π / 2 := by
  obtain ⟨a1, a2, a3, -, -, -⟩ := hT
  have hxy : 0 < (T q).1.1 ^ 2 + (T q).1.2.1 ^ 2 := by
    rcases h with h | h
    · have := pow_pos (abs_pos.mpr h) 2
      rw [sq_abs] at this
      nlinarith [sq_nonneg (T q).1.2.1]
    · have := pow_pos (abs_pos.mpr h) 2
      rw [sq_abs] at this
      nlinarith [sq_nonneg (T q).1.1]
  have hv : vnorm (T q).1 ^ 2 = (T q).1.1 ^ 2 + (T q).1.2.1 ^ 2 + (T q).1.2.2 ^ 2 := by
    unfold vnorm
    rw [sq_sqrt (by unfold vdot; nlinarith [sq_nonneg (T q).1.1, sq_nonneg (T q).1.2.1, sq_nonneg (T q).1.2.2])]
    unfold vdot
    ring
  have hn0 : 0 ≤ vnorm (T q).1 := sqrt_nonneg _
  have hn : vnorm (T q).1 ≠ 0 := by
    intro h0
    rw [h0] at hv
    nlinarith [sq_nonneg (T q).1.2.2]
  have hnp : 0 < vnorm (T q).1 := lt_of_le_of_ne hn0 hn.symm
  have e := norm_cd (fun t => (T t).1) q a1 a2 a3 hn
  have dq := a3.neg.fun_div e hn
  have hlt : (-(T q).1.2.2 / vnorm (T q).1) ^ 2 < 1 := by
    rw [div_pow, div_lt_one (by positivity), hv]
    nlinarith
  have hab := abs_lt.mp ((sq_lt_one_iff_abs_lt_one _).mp hlt)
  refine ⟨fun t => arccos (-(T t).1.2.2 / vnorm (T t).1), ?_, ?_, ?_, ?_⟩
  · filter_upwards [e.continuousAt.eventually_ne hn, dq.continuousAt.eventually_ne hab.2.ne] with t ht ht'
    unfold thetaOf
    rw [if_neg ht]
    simp only [if_pos ht']
  · exact ContDiffAt.comp (g := arccos) q (contDiffAt_arccos hab.1.ne' hab.2.ne) dq
  · rw [arccos_pos]
    exact hab.2
  · rw [arccos_lt_pi_div_two]
    exact div_pos (neg_pos.mpr hd) hnp

/-! ### Derivatives by the hits -/

variable {κ ρ : Type} [Fintype κ] [DecidableEq κ] [Fintype ρ]

/-- the partial derivatives by the hits are differentiable functions of a parameter on which hits and weights depend -/
theorem pd_diff (G : (κ → ℝ) × (ρ → ℝ) → ℝ) (x : ℝ → κ → ℝ) (p : ℝ → ρ → ℝ) (t0 : ℝ) (hx : ∀ k, DifferentiableAt ℝ (fun t => x t k) t0)
    (hp : ∀ k, DifferentiableAt ℝ (fun t => p t k) t0) (hG : CD G (x t0, p t0)) (k : κ) :
    DifferentiableAt ℝ (fun t => pd (fun h => G (h, p t)) (x t) k) t0 := by
  have dx : DifferentiableAt ℝ x t0 := differentiableAt_pi.mpr hx
  have dp : DifferentiableAt ℝ p t0 := differentiableAt_pi.mpr hp
  have dxp : DifferentiableAt ℝ (fun t => (x t, p t)) t0 := dx.prodMk dp
  have h1 : ∀ᶠ q in 𝓝 (x t0, p t0), DifferentiableAt ℝ G q := by
    have := hG.eventually (by simp)
    filter_upwards [this] with q hq
    exact hq.differentiableAt (by simp)
  have h2 := dxp.continuousAt.eventually h1
  have h3 : DifferentiableAt ℝ (fun t => fderiv ℝ G (x t, p t) (Pi.single k 1, 0)) t0 := by
    have a := (hG.fderiv_right (m := 1) (by norm_num)).differentiableAt (by simp)
    have b : DifferentiableAt ℝ (fun t => fderiv ℝ G (x t, p t)) t0 := a.comp t0 dxp
    exact b.clm_apply (differentiableAt_const _)
  refine h3.congr_of_eventuallyEq ?_
  filter_upwards [h2] with t ht
  unfold pd
  have hu : HasDerivAt (fun s : ℝ => ((Function.update (x t) k s, p t) : (κ → ℝ) × (ρ → ℝ))) (Pi.single k 1, 0) (x t k) :=
    (hasDerivAt_update (x t) k (x t k)).prodMk (hasDerivAt_const _ _)
  have hat : HasFDerivAt G (fderiv ℝ G (x t, p t)) (Function.update (x t) k (x t k), p t) := by
    rw [Function.update_eq_self]
    exact ht.hasFDerivAt
  exact (hat.comp_hasDerivAt (x t k) hu).deriv

end C121

end

end Tomopt
