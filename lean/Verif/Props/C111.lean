import Verif.Lemmas.Smooth
import Verif.Props.C109

/- C111: what is reconstructed in training is differentiable in the parameters of the detector. -/
namespace Tomopt

noncomputable section
open Real Filter Topology Scatter

namespace C111

/-- A panel that depends on a number `t`, in training: position, height, span and share of the budget are differentiable functions at `t0`, the rest stays; at `t0` the panel is valid. -/
structure Moving (P : ℝ → Panel) (t0 : ℝ) : Prop where
  same : ∀ t, (P t).kind = (P t0).kind ∧ (P t).res = (P t0).res ∧ (P t).eff = (P t0).eff ∧ (P t).training = true
  valid : C23.Valid (P t0)
  x : DifferentiableAt ℝ (fun t => (P t).xy.1) t0
  y : DifferentiableAt ℝ (fun t => (P t).xy.2) t0
  z : DifferentiableAt ℝ (fun t => (P t).z) t0
  long : DifferentiableAt ℝ (fun t => (P t).span.1) t0
  wide : DifferentiableAt ℝ (fun t => (P t).span.2) t0
  share : DifferentiableAt ℝ (fun t => (P t).budgetScale) t0

/-- The panel's answers for the muon are above their lower limits, and for a sigmoid panel the muon does not cross on one of its middle lines. -/
structure Clear (p : Panel) (m : Muon) : Prop where
  answers : ∃ r e, p.getResolution (crossing m p.z) none = .ok r ∧ p.getEfficiency (crossing m p.z) none = .ok e ∧ 1e-10 < r.1 ∧ 1e-10 < r.2 ∧ 1e-10 < e
  off : p.kind = .gauss ∨ (crossing m p.z).1 ≠ p.xy.1 ∧ (crossing m p.z).2 ≠ p.xy.2

/-- **C111: hits.** What a panel tells the fit about a muon, for fixed noise: recorded position, uncertainty over efficiency, are differentiable in the parameters of the panel. -/
theorem hits (P : ℝ → Panel) (t0 : ℝ) (hP : Moving P t0) (m : Muon) (hc : Clear (P t0) m) (N : ℝ × ℝ) :
    ∃ x y u v : ℝ → ℝ, DifferentiableAt ℝ x t0 ∧ DifferentiableAt ℝ y t0 ∧ DifferentiableAt ℝ u t0 ∧ DifferentiableAt ℝ v t0 ∧ 0 < u t0 ∧ 0 < v t0 ∧
      ∀ᶠ t in 𝓝 t0, C109.told (P t) N m = ((.num (x t), .num (y t), .num (P t).z), (.num (u t), .num (v t), .num 0)) := by
  obtain ⟨r, e, hr, he, h1, h2, h3⟩ := hc.answers
  have hm0 := (hP.same t0).2.2.2
  obtain ⟨a1, a2⟩ := C110.answer (P t0) hP.valid.spanX hP.valid.spanY (Or.inl hm0) (crossing m (P t0).z)
  rw [hr] at a1
  rw [he] at a2
  simp only [Except.ok.injEq] at a1 a2
  subst a1
  subst a2
  have dsx : DifferentiableAt ℝ (fun t => (P t).scaledSpan.1) t0 := hP.long.mul hP.share
  have dsy : DifferentiableAt ℝ (fun t => (P t).scaledSpan.2) t0 := hP.wide.mul hP.share
  have dqx : DifferentiableAt ℝ (fun t => (crossing m (P t).z).1) t0 := by
    unfold crossing
    exact (((hP.z.const_sub _).mul_const _).mul_const _).const_add _
  have dqy : DifferentiableAt ℝ (fun t => (crossing m (P t).z).2) t0 := by
    unfold crossing
    exact (((hP.z.const_sub _).mul_const _).mul_const _).const_add _
  have da : DifferentiableAt ℝ (fun t => Panel.ratio (P t0).kind (P t).xy.1 (P t).scaledSpan.1 (crossing m (P t).z).1) t0 :=
    ratio_diff _ hP.valid.kind _ _ _ t0 hP.x dsx dqx hP.valid.spanX (hc.off.imp id And.left)
  have db : DifferentiableAt ℝ (fun t => Panel.ratio (P t0).kind (P t).xy.2 (P t).scaledSpan.2 (crossing m (P t).z).2) t0 :=
    ratio_diff _ hP.valid.kind _ _ _ t0 hP.y dsy dqy hP.valid.spanY (hc.off.imp id And.right)
  have drx := (C110.res_deriv (P t0).res _ t0 _ da.hasDerivAt h1).differentiableAt
  have dry := (C110.res_deriv (P t0).res _ t0 _ db.hasDerivAt h2).differentiableAt
  have de := (C110.eff_deriv (P t0).kind (P t0).eff _ _ t0 _ _ da.hasDerivAt db.hasDerivAt h3).differentiableAt
  have prx : 0 < max ((P t0).res * Panel.ratio (P t0).kind (P t0).xy.1 (P t0).scaledSpan.1 (crossing m (P t0).z).1) 1e-10 := lt_max_of_lt_right (by norm_num)
  have pry : 0 < max ((P t0).res * Panel.ratio (P t0).kind (P t0).xy.2 (P t0).scaledSpan.2 (crossing m (P t0).z).2) 1e-10 := lt_max_of_lt_right (by norm_num)
  have pe : 0 < C110.effVal (P t0).kind (P t0).eff (Panel.ratio (P t0).kind (P t0).xy.1 (P t0).scaledSpan.1 (crossing m (P t0).z).1) (Panel.ratio (P t0).kind (P t0).xy.2 (P t0).scaledSpan.2 (crossing m (P t0).z).2) :=
    lt_trans (by norm_num) h3
  refine ⟨_, _, _, _, dqx.fun_add ((differentiableAt_const N.1).fun_div drx prx.ne'), dqy.fun_add ((differentiableAt_const N.2).fun_div dry pry.ne'),
    (differentiableAt_const (1 : ℝ)).fun_div (drx.fun_mul de) (mul_pos prx pe).ne', (differentiableAt_const (1 : ℝ)).fun_div (dry.fun_mul de) (mul_pos pry pe).ne',
    div_pos one_pos (mul_pos prx pe), div_pos one_pos (mul_pos pry pe), ?_⟩
  filter_upwards [dsx.continuousAt.eventually (lt_mem_nhds hP.valid.spanX), dsy.continuousAt.eventually (lt_mem_nhds hP.valid.spanY), de.continuousAt.eventually (lt_mem_nhds pe)] with t tx ty te
  obtain ⟨k, hR, hE, hT⟩ := hP.same t
  have hc' : (P t).continuous = true := by simp [Panel.continuous, hT]
  have hres : ∀ i, (P t).resAt (crossing m (P t).z) i = (max ((P t0).res * Panel.ratio (P t0).kind (P t).xy.1 (P t).scaledSpan.1 (crossing m (P t).z).1) 1e-10,
      max ((P t0).res * Panel.ratio (P t0).kind (P t).xy.2 (P t).scaledSpan.2 (crossing m (P t).z).2) 1e-10) := fun i => by
    simp only [Panel.resAt, hc', if_true, k, hR]
  have heff : ∀ i, (P t).effAt (crossing m (P t).z) i = C110.effVal (P t0).kind (P t0).eff (Panel.ratio (P t0).kind (P t).xy.1 (P t).scaledSpan.1 (crossing m (P t).z).1)
      (Panel.ratio (P t0).kind (P t).xy.2 (P t).scaledSpan.2 (crossing m (P t).z).2) := fun i => by
    simp only [Panel.effAt, hc', if_true, k, hE]
    cases (P t0).kind <;> rfl
  have hx : max ((P t0).res * Panel.ratio (P t0).kind (P t).xy.1 (P t).scaledSpan.1 (crossing m (P t).z).1) 1e-10 ≠ 0 := (lt_max_of_lt_right (by norm_num)).ne'
  have hy : max ((P t0).res * Panel.ratio (P t0).kind (P t).xy.2 (P t).scaledSpan.2 (crossing m (P t).z).2) 1e-10 ≠ 0 := (lt_max_of_lt_right (by norm_num)).ne'
  simp only [C109.told, Panel.recoX, Panel.uncX, Panel.effX, scaleUnc, Panel.recoCoord, hres, heff, hT, Bool.not_true, Bool.false_and, Bool.false_eq_true, if_false, XF.quot, hx, hy, te.ne', ne_eq,
    not_false_eq_true, if_true, XF.addR, XF.div, Prod.mk.injEq, XF.num.injEq, and_true]
  refine ⟨⟨by ring, by ring⟩, ?_⟩
  refine ⟨?_, ?_, ?_⟩ <;> simp only [div_div, zero_div]

variable {n : Nat}

/-- **C111: tracks.** The track fitted to the hits of any number of panels, the first two at different heights, is differentiable in the parameters of all the panels. -/
theorem tracks (lw : ℝ × ℝ) (h2 : 2 ≤ n) (P : Fin n → ℝ → Panel) (t0 : ℝ) (hP : ∀ k, Moving (P k) t0) (m : Muon) (hc : ∀ k, Clear (P k t0) m) (N : Fin n → ℝ × ℝ)
    (hz : (P ⟨0, by omega⟩ t0).z ≠ (P ⟨1, by omega⟩ t0).z) :
    ∃ T : ℝ → Track, (∀ᶠ t in 𝓝 t0, trajectory lw (List.ofFn fun k => C109.told (P k t) (N k) m) = .ok (some (T t))) ∧ TrackDiff T t0 ∧ (T t0).1.2.2 ≠ 0 := by
  choose x y u v dx dy du dv pu pv he using fun k => hits (P k) t0 (hP k) m (hc k) (N k)
  refine ⟨fun t => ((fitted (x · t) (fun k => (P k t).z) (u · t) (P ⟨1, by omega⟩ t).z - fitted (x · t) (fun k => (P k t).z) (u · t) (P ⟨0, by omega⟩ t).z,
    fitted (y · t) (fun k => (P k t).z) (v · t) (P ⟨1, by omega⟩ t).z - fitted (y · t) (fun k => (P k t).z) (v · t) (P ⟨0, by omega⟩ t).z, (P ⟨1, by omega⟩ t).z - (P ⟨0, by omega⟩ t).z),
    (fitted (x · t) (fun k => (P k t).z) (u · t) (P ⟨0, by omega⟩ t).z, fitted (y · t) (fun k => (P k t).z) (v · t) (P ⟨0, by omega⟩ t).z, (P ⟨0, by omega⟩ t).z)), ?_, ?_, ?_⟩
  · have hz' := ((hP ⟨0, by omega⟩).z.continuousAt.sub (hP ⟨1, by omega⟩).z.continuousAt).eventually_ne (sub_ne_zero.mpr hz)
    filter_upwards [eventually_all.mpr he, eventually_all.mpr fun k => (du k).continuousAt.eventually (lt_mem_nhds (pu k)), eventually_all.mpr fun k => (dv k).continuousAt.eventually (lt_mem_nhds (pv k)), hz']
      with t ht tu tv tz
    have := track_explicit lw h2 (x · t) (y · t) (fun k => (P k t).z) (u · t) (v · t) tu tv (sub_ne_zero.mp tz)
    rw [← this]
    congr 1
    simp only [C26.rows, C106.measured, List.map_ofFn]
    congr 1
    funext k
    exact ht k
  · have fx : ∀ i, DifferentiableAt ℝ (fun t => fitted (x · t) (fun k => (P k t).z) (u · t) (P i t).z) t0 := fun i =>
      fitted_diff x (fun k t => (P k t).z) u (fun t => (P i t).z) t0 dx (fun k => (hP k).z) du (hP i).z pu _ _ hz
    have fy : ∀ i, DifferentiableAt ℝ (fun t => fitted (y · t) (fun k => (P k t).z) (v · t) (P i t).z) t0 := fun i =>
      fitted_diff y (fun k t => (P k t).z) v (fun t => (P i t).z) t0 dy (fun k => (hP k).z) dv (hP i).z pv _ _ hz
    exact ⟨(fx _).sub (fx _), (fy _).sub (fy _), (hP _).z.sub (hP _).z, fx _, fy _, (hP _).z⟩
  · exact sub_ne_zero.mpr hz.symm

/-- **C111: scatters.** Two tracks that are differentiable in a parameter and not parallel at `t0`: the matrix inverted for the closest points is regular nearby, and closest point, its miss distance and the
scattering angle are differentiable. -/
theorem scatters (Tin Tout : ℝ → Track) (t0 : ℝ) (ha : TrackDiff Tin t0) (hb : TrackDiff Tout t0) (hnp : ¬ Parallel (Tin t0).1 (Tout t0).1) :
    (∃ c : ℝ → ℝ × ℝ × ℝ, (∀ᶠ t in 𝓝 t0, trackCoefs (Tin t) (Tout t) = some (c t)) ∧
      DifferentiableAt ℝ (fun t => (poca (Tin t) (Tout t) (c t)).1) t0 ∧ DifferentiableAt ℝ (fun t => (poca (Tin t) (Tout t) (c t)).2.1) t0 ∧
      DifferentiableAt ℝ (fun t => (poca (Tin t) (Tout t) (c t)).2.2) t0 ∧
      DifferentiableAt ℝ (fun t => (dxy (Tin t) (Tout t) (c t)).1) t0 ∧ DifferentiableAt ℝ (fun t => (dxy (Tin t) (Tout t) (c t)).2) t0) ∧
    ∃ th : ℝ → ℝ, (∀ᶠ t in 𝓝 t0, thetaMsc (Tin t).1 (Tout t).1 = some (th t)) ∧ DifferentiableAt ℝ th t0 := by
  obtain ⟨a1, a2, a3, a4, a5, a6⟩ := ha
  obtain ⟨b1, b2, b3, b4, b5, b6⟩ := hb
  have hcr : len3 (vcross (Tin t0).1 (Tout t0).1) ≠ 0 := by
    rw [Ne, len3_zero, cross_zero_parallel]
    exact hnp
  constructor
  · have w1 : DifferentiableAt ℝ (fun t => (vcross (Tin t).1 (Tout t).1).1) t0 := (a2.mul b3).sub (a3.mul b2)
    have w2 : DifferentiableAt ℝ (fun t => (vcross (Tin t).1 (Tout t).1).2.1) t0 := (a3.mul b1).sub (a1.mul b3)
    have w3 : DifferentiableAt ℝ (fun t => (vcross (Tin t).1 (Tout t).1).2.2) t0 := (a1.mul b2).sub (a2.mul b1)
    have det_diff : ∀ p q r : ℝ → V3, DifferentiableAt ℝ (fun t => (p t).1) t0 → DifferentiableAt ℝ (fun t => (p t).2.1) t0 → DifferentiableAt ℝ (fun t => (p t).2.2) t0 →
        DifferentiableAt ℝ (fun t => (q t).1) t0 → DifferentiableAt ℝ (fun t => (q t).2.1) t0 → DifferentiableAt ℝ (fun t => (q t).2.2) t0 →
        DifferentiableAt ℝ (fun t => (r t).1) t0 → DifferentiableAt ℝ (fun t => (r t).2.1) t0 → DifferentiableAt ℝ (fun t => (r t).2.2) t0 →
        DifferentiableAt ℝ (fun t => det3 (p t) (q t) (r t)) t0 := by
      intro p q r p1 p2 p3 q1 q2 q3 r1 r2 r3
      exact dot_diff p (fun t => vcross (q t) (r t)) t0 p1 p2 p3 ((q2.mul r3).sub (q3.mul r2)) ((q3.mul r1).sub (q1.mul r3)) ((q1.mul r2).sub (q2.mul r1))
    let nv : ℝ → V3 := fun t => (-(Tout t).1.1, -(Tout t).1.2.1, -(Tout t).1.2.2)
    let rhs : ℝ → V3 := fun t => ((Tout t).2.1 - (Tin t).2.1, (Tout t).2.2.1 - (Tin t).2.2.1, (Tout t).2.2.2 - (Tin t).2.2.2)
    let w : ℝ → V3 := fun t => vcross (Tin t).1 (Tout t).1
    have dd := det_diff (fun t => (Tin t).1) nv w a1 a2 a3 b1.neg b2.neg b3.neg w1 w2 w3
    have d1 := det_diff rhs nv w (b4.sub a4) (b5.sub a5) (b6.sub a6) b1.neg b2.neg b3.neg w1 w2 w3
    have d3 := det_diff (fun t => (Tin t).1) nv rhs a1 a2 a3 b1.neg b2.neg b3.neg (b4.sub a4) (b5.sub a5) (b6.sub a6)
    have h0 : det3 (Tin t0).1 (nv t0) (w t0) ≠ 0 := by
      have : det3 (Tin t0).1 (nv t0) (w t0) = -len3 (vcross (Tin t0).1 (Tout t0).1) ^ 2 := by
        rw [← vdot_self]; simp only [det3, vdot, vcross, nv, w]; ring
      rw [this]
      exact neg_ne_zero.mpr (pow_ne_zero _ hcr)
    have c1 := d1.fun_div dd h0
    have c3 := d3.fun_div dd h0
    refine ⟨fun t => (det3 (rhs t) (nv t) (w t) / det3 (Tin t).1 (nv t) (w t), det3 (Tin t).1 (rhs t) (w t) / det3 (Tin t).1 (nv t) (w t), det3 (Tin t).1 (nv t) (rhs t) / det3 (Tin t).1 (nv t) (w t)),
      ?_, ?_, ?_, ?_, c3.mul w1, c3.mul w2⟩
    · filter_upwards [dd.continuousAt.eventually_ne h0] with t ht
      unfold trackCoefs
      exact if_neg ht
    · exact (a4.add (c1.mul a1)).add ((c3.mul w1).div_const 2)
    · exact (a5.add (c1.mul a2)).add ((c3.mul w2).div_const 2)
    · exact (a6.add (c1.mul a3)).add ((c3.mul w3).div_const 2)
  · have dv := dot_diff (fun t => (Tin t).1) (fun t => (Tout t).1) t0 a1 a2 a3 b1 b2 b3
    have hl := lagrange (Tin t0).1 (Tout t0).1
    have hpos : 0 < len3 (vcross (Tin t0).1 (Tout t0).1) ^ 2 := lt_of_le_of_ne (sq_nonneg _) (pow_ne_zero _ hcr).symm
    have n1 : vnorm (Tin t0).1 ≠ 0 := by
      rw [vnorm_eq]
      intro h
      rw [h] at hl
      nlinarith [sq_nonneg (vdot (Tin t0).1 (Tout t0).1)]
    have n2 : vnorm (Tout t0).1 ≠ 0 := by
      rw [vnorm_eq]
      intro h
      rw [h] at hl
      nlinarith [sq_nonneg (vdot (Tin t0).1 (Tout t0).1)]
    have e1 := norm_diff (fun t => (Tin t).1) t0 a1 a2 a3 n1
    have e2 := norm_diff (fun t => (Tout t).1) t0 b1 b2 b3 n2
    have hn := mul_ne_zero n1 n2
    have dq := dv.fun_div (e1.fun_mul e2) hn
    have hlt : (vdot (Tin t0).1 (Tout t0).1 / (vnorm (Tin t0).1 * vnorm (Tout t0).1)) ^ 2 < 1 := by
      rw [div_pow, div_lt_one (by positivity), vnorm_eq, vnorm_eq, mul_pow]
      linarith
    have hne : vdot (Tin t0).1 (Tout t0).1 / (vnorm (Tin t0).1 * vnorm (Tout t0).1) ≠ -1 ∧ vdot (Tin t0).1 (Tout t0).1 / (vnorm (Tin t0).1 * vnorm (Tout t0).1) ≠ 1 := by
      constructor <;> intro h <;> rw [h] at hlt <;> norm_num at hlt
    refine ⟨fun t => arccos (vdot (Tin t).1 (Tout t).1 / (vnorm (Tin t).1 * vnorm (Tout t).1)), ?_, ?_⟩
    · filter_upwards [(e1.fun_mul e2).continuousAt.eventually_ne hn] with t ht
      unfold thetaMsc
      exact if_neg ht
    · exact DifferentiableAt.comp (g := arccos) t0 (differentiableAt_arccos.mpr hne) dq

/-- **C111: angles and crossings.** For a differentiable track that is not vertical at `t0` its polar angle is differentiable, and its azimuth too if the direction is not along positive x. For a track that
is not horizontal the points where it enters and leaves the volume are differentiable. -/
theorem angles (T : ℝ → Track) (t0 : ℝ) (hT : TrackDiff T t0) (zr : ℝ × ℝ) :
    ((T t0).1.1 ≠ 0 ∨ (T t0).1.2.1 ≠ 0 → ∃ th : ℝ → ℝ, (∀ᶠ t in 𝓝 t0, thetaOf (T t).1 = some (th t)) ∧ DifferentiableAt ℝ th t0) ∧
    ((T t0).1.2.1 ≠ 0 ∨ (T t0).1.1 < 0 → DifferentiableAt ℝ (fun t => phiOf (T t).1.1 (T t).1.2.1) t0) ∧
    ((T t0).1.2.2 ≠ 0 → ∃ q q' : ℝ → V3, (∀ᶠ t in 𝓝 t0, xyzIn zr (T t) = some (q t) ∧ xyzOut zr (T t) = some (q' t)) ∧
      DifferentiableAt ℝ (fun t => (q t).1) t0 ∧ DifferentiableAt ℝ (fun t => (q t).2.1) t0 ∧ DifferentiableAt ℝ (fun t => (q t).2.2) t0 ∧
      DifferentiableAt ℝ (fun t => (q' t).1) t0 ∧ DifferentiableAt ℝ (fun t => (q' t).2.1) t0 ∧ DifferentiableAt ℝ (fun t => (q' t).2.2) t0) := by
  obtain ⟨a1, a2, a3, a4, a5, a6⟩ := hT
  refine ⟨fun h => ?_, fun h => phi_diff _ _ t0 a1 a2 h, fun h => ?_⟩
  · have hxy : 0 < (T t0).1.1 ^ 2 + (T t0).1.2.1 ^ 2 := by
      rcases h with h | h
      · have : 0 < (T t0).1.1 ^ 2 := by positivity
        nlinarith [sq_nonneg (T t0).1.2.1]
      · have : 0 < (T t0).1.2.1 ^ 2 := by positivity
        nlinarith [sq_nonneg (T t0).1.1]
    have hd : vdot (T t0).1 (T t0).1 = (T t0).1.1 ^ 2 + (T t0).1.2.1 ^ 2 + (T t0).1.2.2 ^ 2 := by unfold vdot; ring
    have hp : 0 < vdot (T t0).1 (T t0).1 := by rw [hd]; nlinarith [sq_nonneg (T t0).1.2.2]
    have hn : vnorm (T t0).1 ≠ 0 := (sqrt_pos.mpr hp).ne'
    have e1 := norm_diff (fun t => (T t).1) t0 a1 a2 a3 hn
    have dq := a3.fun_neg.fun_div e1 hn
    have hlt : (-(T t0).1.2.2 / vnorm (T t0).1) ^ 2 < 1 := by
      rw [div_pow, div_lt_one (by positivity), vnorm, sq_sqrt hp.le, hd]
      nlinarith
    have hne : -(T t0).1.2.2 / vnorm (T t0).1 ≠ -1 ∧ -(T t0).1.2.2 / vnorm (T t0).1 ≠ 1 := by
      constructor <;> intro h <;> rw [h] at hlt <;> norm_num at hlt
    refine ⟨fun t => arccos (-(T t).1.2.2 / vnorm (T t).1), ?_, DifferentiableAt.comp (g := arccos) t0 (differentiableAt_arccos.mpr hne) dq⟩
    filter_upwards [e1.continuousAt.eventually_ne hn, dq.continuousAt.eventually_ne hne.2] with t h1 h2
    unfold thetaOf
    rw [if_neg h1]
    simp only [if_pos h2]
  · have ri : DifferentiableAt ℝ (fun t => (zr.2 - (T t).2.2.2) / (T t).1.2.2) t0 := (a6.const_sub _).fun_div a3 h
    have ro : DifferentiableAt ℝ (fun t => ((T t).2.2.2 - zr.1) / (T t).1.2.2) t0 := (a6.sub_const _).fun_div a3 h
    refine ⟨fun t => ((T t).2.1 + (zr.2 - (T t).2.2.2) / (T t).1.2.2 * (T t).1.1, (T t).2.2.1 + (zr.2 - (T t).2.2.2) / (T t).1.2.2 * (T t).1.2.1, (T t).2.2.2 + (zr.2 - (T t).2.2.2) / (T t).1.2.2 * (T t).1.2.2),
      fun t => ((T t).2.1 - ((T t).2.2.2 - zr.1) / (T t).1.2.2 * (T t).1.1, (T t).2.2.1 - ((T t).2.2.2 - zr.1) / (T t).1.2.2 * (T t).1.2.1, (T t).2.2.2 - ((T t).2.2.2 - zr.1) / (T t).1.2.2 * (T t).1.2.2),
      ?_, a4.add (ri.mul a1), a5.add (ri.mul a2), a6.add (ri.mul a3), a4.sub (ro.mul a1), a5.sub (ro.mul a2), a6.sub (ro.mul a3)⟩
    filter_upwards [a3.continuousAt.eventually_ne h] with t ht
    unfold xyzIn xyzOut
    rw [if_neg ht, if_neg ht]
    exact ⟨rfl, rfl⟩

/-- **C111: the whole detector.** Panels above and below the volume, all depending on `t`, a muon as it arrives and as it leaves, and fixed noise: unless the tracks found at `t0` are parallel, closest point and
scattering angle of the fitted tracks are differentiable in `t`. -/
theorem detector {n' : Nat} (lw : ℝ × ℝ) (h2 : 2 ≤ n) (h2' : 2 ≤ n') (P : Fin n → ℝ → Panel) (P' : Fin n' → ℝ → Panel) (t0 : ℝ) (hP : ∀ k, Moving (P k) t0) (hP' : ∀ k, Moving (P' k) t0) (m m' : Muon)
    (hc : ∀ k, Clear (P k t0) m) (hc' : ∀ k, Clear (P' k t0) m') (N : Fin n → ℝ × ℝ) (N' : Fin n' → ℝ × ℝ) (hz : (P ⟨0, by omega⟩ t0).z ≠ (P ⟨1, by omega⟩ t0).z)
    (hz' : (P' ⟨0, by omega⟩ t0).z ≠ (P' ⟨1, by omega⟩ t0).z) :
    ∃ Tin Tout : ℝ → Track, (∀ᶠ t in 𝓝 t0, trajectory lw (List.ofFn fun k => C109.told (P k t) (N k) m) = .ok (some (Tin t)) ∧
        trajectory lw (List.ofFn fun k => C109.told (P' k t) (N' k) m') = .ok (some (Tout t))) ∧
      (¬ Parallel (Tin t0).1 (Tout t0).1 → ∃ (q : ℝ → V3) (th : ℝ → ℝ),
        (∀ᶠ t in 𝓝 t0, (∃ c, trackCoefs (Tin t) (Tout t) = some c ∧ poca (Tin t) (Tout t) c = q t) ∧ thetaMsc (Tin t).1 (Tout t).1 = some (th t)) ∧
        DifferentiableAt ℝ (fun t => (q t).1) t0 ∧ DifferentiableAt ℝ (fun t => (q t).2.1) t0 ∧ DifferentiableAt ℝ (fun t => (q t).2.2) t0 ∧ DifferentiableAt ℝ th t0) := by
  obtain ⟨Tin, e, d, -⟩ := tracks lw h2 P t0 hP m hc N hz
  obtain ⟨Tout, e', d', -⟩ := tracks lw h2' P' t0 hP' m' hc' N' hz'
  refine ⟨Tin, Tout, e.and e', fun hnp => ?_⟩
  obtain ⟨⟨c, hcf, x, y, z, -, -⟩, th, ht, dth⟩ := scatters Tin Tout t0 d d' hnp
  refine ⟨_, th, ?_, x, y, z, dth⟩
  filter_upwards [hcf, ht] with t h1 h2
  exact ⟨⟨c t, h1, rfl⟩, h2⟩

/-- **C111: where it stops.** Not everything is differentiable: the polar angle of a track is not where the track is vertical, and the azimuth is not even continuous where the track points along positive x. -/
theorem vertical_violated :
    (∃ T : ℝ → Track, TrackDiff T 0 ∧ (T 0).1 = (0, 0, -1) ∧ ∃ th : ℝ → ℝ, (∀ t, thetaOf (T t).1 = some (th t)) ∧ ¬ DifferentiableAt ℝ th 0) ∧
    ∃ T : ℝ → Track, TrackDiff T 0 ∧ (T 0).1 = (1, 0, -1) ∧ ¬ ContinuousAt (fun t => phiOf (T t).1.1 (T t).1.2.1) 0 := by
  constructor
  · refine ⟨fun t => ((t, 0, -1), (0, 0, 0)), ⟨differentiableAt_id, differentiableAt_const _, differentiableAt_const _, differentiableAt_const _, differentiableAt_const _, differentiableAt_const _⟩, rfl,
      fun t => |arctan t|, fun t => ?_, fun hd => ?_⟩
    · have hv : vnorm (t, 0, -1) = sqrt (1 + t ^ 2) := by
        unfold vnorm vdot
        congr 1
        ring
      have hp : 0 < 1 + t ^ 2 := by positivity
      unfold thetaOf
      simp only [hv]
      rw [if_neg (sqrt_pos.mpr hp).ne', Option.some_inj]
      have ha : |arctan t| = arctan |t| := by
        rcases le_total 0 t with h | h
        · rw [abs_of_nonneg h, abs_of_nonneg (arctan_nonneg.mpr h)]
        · rw [abs_of_nonpos h, arctan_neg, abs_of_nonpos (by rw [← neg_nonneg, ← arctan_neg]; exact arctan_nonneg.mpr (by linarith))]
      rw [ha, arctan_eq_arccos (abs_nonneg t), sq_abs, neg_neg, one_div]
      split
      · rfl
      · rename_i h
        rw [not_not.mp h, arccos_one]
    · refine not_differentiableAt_abs_zero ?_
      have h1 : DifferentiableAt ℝ (fun t => |arctan (tan t)|) 0 := by
        have : DifferentiableAt ℝ (fun s => |arctan s|) (tan 0) := by rw [tan_zero]; exact hd
        exact this.comp 0 (differentiableAt_tan.mpr (by simp))
      refine h1.congr_of_eventuallyEq ?_
      have hpi : (0 : ℝ) < π / 2 := by positivity
      filter_upwards [gt_mem_nhds hpi, lt_mem_nhds (show -(π / 2) < (0 : ℝ) by linarith)] with t u v
      rw [arctan_tan v u]
  · refine ⟨fun t => ((1, t, -1), (0, 0, 0)), ⟨differentiableAt_const _, differentiableAt_id, differentiableAt_const _, differentiableAt_const _, differentiableAt_const _, differentiableAt_const _⟩, rfl,
      fun hc => ?_⟩
    have h0 : phiOf 1 0 = 0 := by simp [phiOf]
    have hpi := pi_pos
    have : ∀ᶠ t in 𝓝 (0 : ℝ), phiOf 1 t < π := by
      have := hc.eventually (gt_mem_nhds (show phiOf 1 0 < π by rw [h0]; exact hpi))
      exact this
    have hlt : ∃ᶠ t in 𝓝 (0 : ℝ), t < 0 := frequently_lt_nhds 0
    obtain ⟨t, h1, h2⟩ := (hlt.and_eventually this).exists
    rw [phi_neg 1 t h1] at h2
    have : arctan (1 / t) < 0 := by
      rw [← neg_pos, ← arctan_neg]
      exact arctan_pos.mpr (by rw [neg_pos]; exact div_neg_of_pos_of_neg one_pos h1)
    linarith

/-- A panel that moves in x and down as `t` grows, and a muon a metre from its middle. -/
example : Moving (fun t => { C109.around 4 (2 - t) with xy := (t, 0) }) 0 ∧ Clear { C109.around 4 (2 - 0) with xy := (0, 0) } C109.beside := by
  have hv : C23.Valid { C109.around 4 (2 - 0) with xy := (0, 0) } := ⟨one_pos, one_pos, by simp [C109.around, Panel.scaledSpan], by simp [C109.around, Panel.scaledSpan], trivial⟩
  refine ⟨⟨fun t => ⟨rfl, rfl, rfl, rfl⟩, hv, differentiableAt_id, differentiableAt_const _, differentiableAt_id.const_sub _, differentiableAt_const _, differentiableAt_const _, differentiableAt_const _⟩, ?_, Or.inl rfl⟩
  have hq : crossing C109.beside (2 - 0) = (0, 1) := by simp [crossing, C109.beside]
  obtain ⟨a, b⟩ := C110.answer { C109.around 4 (2 - 0) with xy := (0, 0) } hv.spanX hv.spanY (Or.inl rfl) (0, 1)
  have hx : Panel.ratio .gauss 0 1 0 = 1 := Panel.ratio_centre _ _ _ one_pos
  have hy : Panel.ratio .gauss 0 4 1 = exp (-(1 / 2)) := by
    simp only [Panel.ratio, Panel.gaussRatio_eq]
    norm_num
  have he : 1 / 2 ≤ exp (-(1 / 2) : ℝ) := by
    have := add_one_le_exp (-(1 / 2) : ℝ)
    linarith
  simp only [C109.around, Panel.scaledSpan, mul_one, hx, hy, C110.effVal, one_mul] at a b
  refine ⟨(max 1 1e-10, max (exp (-(1 / 2))) 1e-10), exp (-(1 / 2)), by simpa only [C109.around, hq] using a, by simpa only [C109.around, hq] using b, lt_max_of_lt_left (by norm_num), lt_max_of_lt_left (by linarith), by linarith⟩

/-- Two tracks that change with `t` and are not parallel. -/
example : TrackDiff (fun t => ((t, 0, -1), (0, 0, 1))) 0 ∧ TrackDiff (fun t => ((1, t, -1), (0, 0, 0))) 0 ∧ ¬ Parallel (0, 0, -1) (1, 0, -1) := by
  refine ⟨⟨differentiableAt_id, differentiableAt_const _, differentiableAt_const _, differentiableAt_const _, differentiableAt_const _, differentiableAt_const _⟩,
    ⟨differentiableAt_const _, differentiableAt_id, differentiableAt_const _, differentiableAt_const _, differentiableAt_const _, differentiableAt_const _⟩, ?_⟩
  rintro ⟨a, b, hab, h⟩
  simp only [scale3, Prod.mk.injEq, mul_zero, mul_one] at h
  obtain ⟨h1, -, h3⟩ := h
  rcases hab with h | h
  · apply h; linarith
  · exact h h1.symm

end C111

end

end Tomopt
