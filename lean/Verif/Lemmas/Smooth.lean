import Verif.Lemmas.Unbiased
import Verif.Props.C27_31
import Verif.Props.C110
import Verif.Props.C106
import Mathlib.Analysis.SpecialFunctions.Sqrt
import Mathlib.Analysis.SpecialFunctions.Trigonometric.InverseDeriv
import Mathlib.Tactic.FunProp

/- Helper lemmas: what is reconstructed as a function of one parameter of the detector. -/
namespace Tomopt

noncomputable section
open Real Filter Topology Scatter

namespace C111

/-- all numbers of a track are differentiable -/
structure TrackDiff (T : ℝ → Track) (t0 : ℝ) : Prop where
  dx : DifferentiableAt ℝ (fun t => (T t).1.1) t0
  dy : DifferentiableAt ℝ (fun t => (T t).1.2.1) t0
  dz : DifferentiableAt ℝ (fun t => (T t).1.2.2) t0
  x : DifferentiableAt ℝ (fun t => (T t).2.1) t0
  y : DifferentiableAt ℝ (fun t => (T t).2.2.1) t0
  z : DifferentiableAt ℝ (fun t => (T t).2.2.2) t0

variable {n : Nat}

/-- where the fitted line passes height `h` -/
def fitted (x z u : Fin n → ℝ) (h : ℝ) : ℝ := ∑ k, C106.share z u h k * x k

theorem track_explicit (lw : ℝ × ℝ) (h2 : 2 ≤ n) (x y z u v : Fin n → ℝ) (hu : ∀ k, 0 < u k) (hv : ∀ k, 0 < v k) (hz : z ⟨0, by omega⟩ ≠ z ⟨1, by omega⟩) :
    trajectory lw (C26.rows (C106.measured x y z u v)) = .ok (some
      ((fitted x z u (z ⟨1, by omega⟩) - fitted x z u (z ⟨0, by omega⟩), fitted y z v (z ⟨1, by omega⟩) - fitted y z v (z ⟨0, by omega⟩), z ⟨1, by omega⟩ - z ⟨0, by omega⟩),
        (fitted x z u (z ⟨0, by omega⟩), fitted y z v (z ⟨0, by omega⟩), z ⟨0, by omega⟩))) := by
  obtain ⟨ax, bx, fx, sx⟩ := C106.fit_share x z u hu _ _ hz
  obtain ⟨ay, bY, fy, sy⟩ := C106.fit_share y z v hv _ _ hz
  have e1 := C26.axisPts_x lw (C106.measured x y z u v) (by
    intro m hm
    obtain ⟨k, rfl⟩ := List.mem_ofFn.mp hm
    exact hu k)
  have e2 := C26.axisPts_y lw (C106.measured x y z u v) (by
    intro m hm
    obtain ⟨k, rfl⟩ := List.mem_ofFn.mp hm
    exact hv k)
  have p1 : C26.xPts (C106.measured x y z u v) = C106.points x z u := by simp only [C26.xPts, C106.measured, C106.points, List.map_ofFn]; rfl
  have p2 : C26.yPts (C106.measured x y z u v) = C106.points y z v := by simp only [C26.yPts, C106.measured, C106.points, List.map_ofFn]; rfl
  rw [p1] at e1
  rw [p2] at e2
  have g : ∀ (i : Nat) (hi : i < n), (C26.rows (C106.measured x y z u v))[i]? = some ((.num (x ⟨i, hi⟩), .num (y ⟨i, hi⟩), .num (z ⟨i, hi⟩)), (.num (u ⟨i, hi⟩), .num (v ⟨i, hi⟩), .num 0)) := by
    intro i hi
    simp [C26.rows, C106.measured, hi]
  unfold trajectory
  rw [g 0 (by omega), g 1 (by omega)]
  simp only [e1, e2, fx, fy, hitCoord, calcXYZ, Option.bind_eq_bind, Option.bind_some, sx, sy, fitted]

theorem fitted_diff (x z u : Fin n → ℝ → ℝ) (h : ℝ → ℝ) (t0 : ℝ) (hx : ∀ k, DifferentiableAt ℝ (x k) t0) (hz : ∀ k, DifferentiableAt ℝ (z k) t0)
    (hu : ∀ k, DifferentiableAt ℝ (u k) t0) (hh : DifferentiableAt ℝ h t0) (hpos : ∀ k, 0 < u k t0) (i j : Fin n) (hij : z i t0 ≠ z j t0) :
    DifferentiableAt ℝ (fun t => fitted (x · t) (z · t) (u · t) (h t)) t0 := by
  obtain ⟨p0, p2, pd⟩ := C106.det_points (z · t0) (u · t0) hpos i j hij
  have hu2 : ∀ k, u k t0 ^ 2 ≠ 0 := fun k => pow_ne_zero _ (hpos k).ne'
  have d0 : DifferentiableAt ℝ (fun t => C106.S0 (u · t)) t0 := by
    unfold C106.S0
    exact DifferentiableAt.fun_sum fun k _ => (differentiableAt_const _).div ((hu k).pow 2) (hu2 k)
  have d1 : DifferentiableAt ℝ (fun t => C106.S1 (z · t) (u · t)) t0 := by
    unfold C106.S1
    exact DifferentiableAt.fun_sum fun k _ => (hz k).div ((hu k).pow 2) (hu2 k)
  have d2 : DifferentiableAt ℝ (fun t => C106.S2 (z · t) (u · t)) t0 := by
    unfold C106.S2
    exact DifferentiableAt.fun_sum fun k _ => ((hz k).pow 2).div ((hu k).pow 2) (hu2 k)
  have dd : DifferentiableAt ℝ (fun t => C106.Det (z · t) (u · t)) t0 := (d0.mul d2).sub (d1.pow 2)
  unfold fitted C106.share
  refine DifferentiableAt.fun_sum fun k _ => DifferentiableAt.mul (DifferentiableAt.div (DifferentiableAt.add ?_ ?_) ((hu k).pow 2) (hu2 k)) (hx k)
  · exact (d2.sub (hh.mul d1)).div dd pd.ne'
  · exact (((hh.mul d0).sub d1).div dd pd.ne').mul (hz k)

/-- the response along an axis of a panel whose centre and size change -/
theorem ratio_diff (k : PanelKind) (hk : Panel.KindOk k) (c s x : ℝ → ℝ) (t0 : ℝ) (hc : DifferentiableAt ℝ c t0) (hs : DifferentiableAt ℝ s t0) (hx : DifferentiableAt ℝ x t0) (h0 : 0 < s t0)
    (hne : k = .gauss ∨ x t0 ≠ c t0) : DifferentiableAt ℝ (fun t => Panel.ratio k (c t) (s t) (x t)) t0 := by
  cases k with
  | gauss =>
    simp only [Panel.ratio, Panel.gaussRatio_eq]
    exact ((((hx.fun_sub hc).fun_pow 2).fun_neg).fun_div (((hs.div_const 4).fun_pow 2).const_mul 2) (show 2 * (s t0 / 4) ^ 2 ≠ 0 by positivity)).exp
  | sigmoid w =>
    have hw : 0 < w := hk
    have h' : x t0 - c t0 ≠ 0 := sub_ne_zero.mpr (hne.resolve_left (by simp))
    have hsg : ∀ y, DifferentiableAt ℝ Panel.sigm y := fun y => by
      obtain ⟨d, _, h⟩ := C110.sigm_deriv y
      exact h.differentiableAt
    have ha : DifferentiableAt ℝ (fun t => |x t - c t|) t0 := (hx.fun_sub hc).abs h'
    have h1 : DifferentiableAt ℝ (fun t => (1 - |x t - c t| / (s t / 2)) / w) t0 := ((ha.div (hs.div_const 2) (by positivity)).const_sub 1).div_const w
    have h2 : DifferentiableAt ℝ (fun t => Panel.sigm ((1 - |x t - c t| / (s t / 2)) / w) / Panel.sigm (1 / w)) t0 := ((hsg _).comp t0 h1).div_const _
    refine h2.congr_of_eventuallyEq ?_
    filter_upwards [hs.continuousAt.eventually (lt_mem_nhds h0)] with t ht
    simp only [Panel.ratio, Panel.sigRatio_eq _ _ _ _ ht]

/-- the vector functions used by the scattering variables -/
theorem dot_diff (p q : ℝ → V3) (t0 : ℝ) (p1 : DifferentiableAt ℝ (fun t => (p t).1) t0) (p2 : DifferentiableAt ℝ (fun t => (p t).2.1) t0) (p3 : DifferentiableAt ℝ (fun t => (p t).2.2) t0)
    (q1 : DifferentiableAt ℝ (fun t => (q t).1) t0) (q2 : DifferentiableAt ℝ (fun t => (q t).2.1) t0) (q3 : DifferentiableAt ℝ (fun t => (q t).2.2) t0) :
    DifferentiableAt ℝ (fun t => vdot (p t) (q t)) t0 := by
  unfold vdot
  exact ((p1.mul q1).add (p2.mul q2)).add (p3.mul q3)

theorem norm_diff (p : ℝ → V3) (t0 : ℝ) (p1 : DifferentiableAt ℝ (fun t => (p t).1) t0) (p2 : DifferentiableAt ℝ (fun t => (p t).2.1) t0) (p3 : DifferentiableAt ℝ (fun t => (p t).2.2) t0)
    (h : vnorm (p t0) ≠ 0) : DifferentiableAt ℝ (fun t => vnorm (p t)) t0 := by
  unfold vnorm at h ⊢
  refine (dot_diff p p t0 p1 p2 p3 p1 p2 p3).sqrt fun h0 => h (by rw [h0, sqrt_zero])

/-- polar angle of a direction -/
theorem phi_pos (x y : ℝ) (hy : 0 < y) : phiOf x y = π / 2 - arctan (x / y) := by
  unfold phiOf
  rcases lt_trichotomy x 0 with h | h | h
  · have e : arctan (y / x) = -(π / 2) - arctan (x / y) := by
      have := arctan_inv_of_neg (div_neg_of_neg_of_pos h hy)
      rwa [inv_div] at this
    simp [h, h.ne, not_lt.mpr h.le, not_lt.mpr hy.le, e]
    ring
  · simp [h, hy, not_lt.mpr hy.le]
  · have e : arctan (y / x) = π / 2 - arctan (x / y) := by
      have := arctan_inv_of_pos (div_pos h hy)
      rwa [inv_div] at this
    simp [h, h.ne', not_lt.mpr h.le, not_lt.mpr hy.le, e]

theorem phi_neg (x y : ℝ) (hy : y < 0) : phiOf x y = 3 * π / 2 - arctan (x / y) := by
  unfold phiOf
  rcases lt_trichotomy x 0 with h | h | h
  · have e : arctan (y / x) = π / 2 - arctan (x / y) := by
      have := arctan_inv_of_pos (div_pos_of_neg_of_neg h hy)
      rwa [inv_div] at this
    simp [h, h.ne, not_lt.mpr h.le, e]
    ring
  · simp [h, hy]
  · have e : arctan (y / x) = -(π / 2) - arctan (x / y) := by
      have := arctan_inv_of_neg (div_neg_of_pos_of_neg h hy)
      rwa [inv_div] at this
    simp [h, h.ne', not_lt.mpr h.le, hy, e]
    ring

theorem phi_left (x y : ℝ) (hx : x < 0) : phiOf x y = arctan (y / x) + π := by
  unfold phiOf
  simp [hx, hx.ne, not_lt.mpr hx.le]

theorem phi_diff (x y : ℝ → ℝ) (t0 : ℝ) (hx : DifferentiableAt ℝ x t0) (hy : DifferentiableAt ℝ y t0) (h : y t0 ≠ 0 ∨ x t0 < 0) : DifferentiableAt ℝ (fun t => phiOf (x t) (y t)) t0 := by
  rcases lt_trichotomy (y t0) 0 with hy0 | hy0 | hy0
  · have d : DifferentiableAt ℝ (fun t => 3 * π / 2 - arctan (x t / y t)) t0 := ((hx.div hy hy0.ne).arctan).const_sub _
    refine d.congr_of_eventuallyEq ?_
    filter_upwards [hy.continuousAt.eventually (gt_mem_nhds hy0)] with t ht
    exact phi_neg _ _ ht
  · have hx0 : x t0 < 0 := h.resolve_left fun g => g hy0
    have d : DifferentiableAt ℝ (fun t => arctan (y t / x t) + π) t0 := ((hy.div hx hx0.ne).arctan).add_const _
    refine d.congr_of_eventuallyEq ?_
    filter_upwards [hx.continuousAt.eventually (gt_mem_nhds hx0)] with t ht
    exact phi_left _ _ ht
  · have d : DifferentiableAt ℝ (fun t => π / 2 - arctan (x t / y t)) t0 := ((hx.div hy hy0.ne').arctan).const_sub _
    refine d.congr_of_eventuallyEq ?_
    filter_upwards [hy.continuousAt.eventually (lt_mem_nhds hy0)] with t ht
    exact phi_pos _ _ ht

end C111

end

end Tomopt
