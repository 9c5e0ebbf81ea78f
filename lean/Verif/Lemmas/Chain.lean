import Verif.Lemmas.SmoothVars
import Verif.Model.Chain

/- Helper lemmas: the variables of a muon as functions of its hits and their weights. -/
namespace Tomopt

noncomputable section
open Real Filter Topology Scatter Uncert Chain

namespace C121

variable {n n' m : Nat}

/-- the fitted track, spelled out -/
def trk (h2 : 2 ≤ m) (f : Fin m → Plane n n') (h : Coords n n') (w : Scaled n n') : Track :=
  ((C111.fitted (fun k => h (f k, 0)) (fun k => h (f k, 2)) (fun k => w (f k, 0)) (h (f ⟨1, by omega⟩, 2)) -
      C111.fitted (fun k => h (f k, 0)) (fun k => h (f k, 2)) (fun k => w (f k, 0)) (h (f ⟨0, by omega⟩, 2)),
    C111.fitted (fun k => h (f k, 1)) (fun k => h (f k, 2)) (fun k => w (f k, 1)) (h (f ⟨1, by omega⟩, 2)) -
      C111.fitted (fun k => h (f k, 1)) (fun k => h (f k, 2)) (fun k => w (f k, 1)) (h (f ⟨0, by omega⟩, 2)),
    h (f ⟨1, by omega⟩, 2) - h (f ⟨0, by omega⟩, 2)),
   (C111.fitted (fun k => h (f k, 0)) (fun k => h (f k, 2)) (fun k => w (f k, 0)) (h (f ⟨0, by omega⟩, 2)),
    C111.fitted (fun k => h (f k, 1)) (fun k => h (f k, 2)) (fun k => w (f k, 1)) (h (f ⟨0, by omega⟩, 2)), h (f ⟨0, by omega⟩, 2)))

theorem trk_eq (lw : ℝ × ℝ) (h2 : 2 ≤ m) (f : Fin m → Plane n n') (h : Coords n n') (w : Scaled n n') (hw : ∀ k c, 0 < w (f k, c))
    (hz : h (f ⟨0, by omega⟩, 2) ≠ h (f ⟨1, by omega⟩, 2)) : trajectory lw (rowsOf f h w) = .ok (some (trk h2 f h w)) := by
  have := C111.track_explicit lw h2 (fun k => h (f k, 0)) (fun k => h (f k, 1)) (fun k => h (f k, 2)) (fun k => w (f k, 0)) (fun k => w (f k, 1)) (fun k => hw k 0) (fun k => hw k 1) hz
  have e : rowsOf f h w = C26.rows (C106.measured (fun k => h (f k, 0)) (fun k => h (f k, 1)) (fun k => h (f k, 2)) (fun k => w (f k, 0)) (fun k => w (f k, 1))) := by
    simp only [rowsOf, C26.rows, C106.measured, List.map_ofFn]
    rfl
  rw [e, this]
  rfl

theorem trk_cd (h2 : 2 ≤ m) (f : Fin m → Plane n n') (q : Coords n n' × Scaled n n') (hw : ∀ k c, 0 < q.2 (f k, c))
    (hz : q.1 (f ⟨0, by omega⟩, 2) ≠ q.1 (f ⟨1, by omega⟩, 2)) : TrackCD (fun q => trk h2 f q.1 q.2) q := by
  have ch : ∀ k, CD (fun q : Coords n n' × Scaled n n' => q.1 k) q := fun k => by unfold CD; fun_prop
  have cw : ∀ k, CD (fun q : Coords n n' × Scaled n n' => q.2 k) q := fun k => by unfold CD; fun_prop
  have fx : ∀ (c : Fin 3) (c' : Fin 2) (i : Fin m), CD (fun q : Coords n n' × Scaled n n' => C111.fitted (fun k => q.1 (f k, c)) (fun k => q.1 (f k, 2)) (fun k => q.2 (f k, c')) (q.1 (f i, 2))) q :=
    fun c c' i => by
      have h1 : ∀ k, CD (fun q : Coords n n' × Scaled n n' => q.1 (f k, c)) q := fun k => ch (f k, c)
      have h2 : ∀ k, CD (fun q : Coords n n' × Scaled n n' => q.1 (f k, 2)) q := fun k => ch (f k, 2)
      have h3 : ∀ k, CD (fun q : Coords n n' × Scaled n n' => q.2 (f k, c')) q := fun k => cw (f k, c')
      have h4 : ∀ k, 0 < q.2 (f k, c') := fun k => hw k c'
      exact fitted_cd (X := Coords n n' × Scaled n n') (fun k q => q.1 (f k, c)) (fun k q => q.1 (f k, 2)) (fun k q => q.2 (f k, c')) (fun q => q.1 (f i, 2)) q h1 h2 h3 (h2 i) h4 ⟨0, by omega⟩ ⟨1, by omega⟩ hz
  unfold trk
  constructor <;> simp only
  · exact (fx 0 0 ⟨1, by omega⟩).sub (fx 0 0 ⟨0, by omega⟩)
  · exact (fx 1 1 ⟨1, by omega⟩).sub (fx 1 1 ⟨0, by omega⟩)
  · exact (ch (f ⟨1, by omega⟩, 2)).sub (ch (f ⟨0, by omega⟩, 2))
  · exact fx 0 0 ⟨0, by omega⟩
  · exact fx 1 1 ⟨0, by omega⟩
  · exact ch (f ⟨0, by omega⟩, 2)

/-- A muon the inferrer can use: weights positive, panels in order, tracks slanted and not parallel. -/
structure Fit (h2 : 2 ≤ n) (h2' : 2 ≤ n') (h : Coords n n') (w : Scaled n n') : Prop where
  pos : ∀ k, 0 < w k
  above : h (Sum.inl ⟨1, by omega⟩, 2) < h (Sum.inl ⟨0, by omega⟩, 2)
  below : h (Sum.inr ⟨1, by omega⟩, 2) < h (Sum.inr ⟨0, by omega⟩, 2)
  slantIn : (trk h2 Sum.inl h w).1.1 ≠ 0 ∨ (trk h2 Sum.inl h w).1.2.1 ≠ 0
  slantOut : (trk h2' Sum.inr h w).1.1 ≠ 0 ∨ (trk h2' Sum.inr h w).1.2.1 ≠ 0
  scatters : ¬ Parallel (trk h2 Sum.inl h w).1 (trk h2' Sum.inr h w).1

/-- the variables, spelled out -/
theorem vars_cd (lw : ℝ × ℝ) (h2 : 2 ≤ n) (h2' : 2 ≤ n') (q : Coords n n' × Scaled n n') (hq : Fit h2 h2' q.1 q.2) :
    (∀ v, CD (value lw v) q) ∧ 0 < value lw .scat q ∧ (0 < value lw .thIn q ∧ value lw .thIn q < π / 2) ∧ (0 < value lw .thOut q ∧ value lw .thOut q < π / 2) ∧
      ∀ᶠ r in 𝓝 q, (∃ g, vars lw r.1 r.2 = some g) ∧
        (∃ c, trackCoefs (trk h2 Sum.inl r.1 r.2) (trk h2' Sum.inr r.1 r.2) = some c ∧
          poca (trk h2 Sum.inl r.1 r.2) (trk h2' Sum.inr r.1 r.2) c = (value lw .pocaX r, value lw .pocaY r, value lw .pocaZ r)) ∧
        thetaMsc (trk h2 Sum.inl r.1 r.2).1 (trk h2' Sum.inr r.1 r.2).1 = some (value lw .scat r) ∧
        thetaOf (trk h2 Sum.inl r.1 r.2).1 = some (value lw .thIn r) ∧ thetaOf (trk h2' Sum.inr r.1 r.2).1 = some (value lw .thOut r) := by
  have tin := trk_cd h2 Sum.inl q (fun k c => hq.pos _) hq.above.ne'
  have tout := trk_cd h2' Sum.inr q (fun k c => hq.pos _) hq.below.ne'
  obtain ⟨⟨c, ec, x, y, z⟩, s, es, ds, ps⟩ := scatters_cd _ _ q tin tout hq.scatters
  obtain ⟨a, ea, da, pa⟩ := theta_cd _ q tin hq.slantIn (sub_neg.mpr hq.above)
  obtain ⟨b, eb, db, pb⟩ := theta_cd _ q tout hq.slantOut (sub_neg.mpr hq.below)
  have ev : ∀ᶠ r in 𝓝 q, trajectory lw (rowsOf Sum.inl r.1 r.2) = .ok (some (trk h2 Sum.inl r.1 r.2)) ∧ trajectory lw (rowsOf Sum.inr r.1 r.2) = .ok (some (trk h2' Sum.inr r.1 r.2)) := by
    have c1 : ∀ k, ContinuousAt (fun r : Coords n n' × Scaled n n' => r.2 k) q := fun k => by fun_prop
    have c2 : ∀ k k', ContinuousAt (fun r : Coords n n' × Scaled n n' => r.1 k - r.1 k') q := fun k k' => by fun_prop
    filter_upwards [eventually_all.mpr fun k => (c1 k).eventually (lt_mem_nhds (hq.pos k)),
      (c2 (Sum.inl ⟨1, by omega⟩, 2) (Sum.inl ⟨0, by omega⟩, 2)).eventually (gt_mem_nhds (sub_neg.mpr hq.above)),
      (c2 (Sum.inr ⟨1, by omega⟩, 2) (Sum.inr ⟨0, by omega⟩, 2)).eventually (gt_mem_nhds (sub_neg.mpr hq.below))] with r r1 r2 r3
    exact ⟨trk_eq lw h2 Sum.inl r.1 r.2 (fun k c => r1 _) (sub_neg.mp r2).ne', trk_eq lw h2' Sum.inr r.1 r.2 (fun k c => r1 _) (sub_neg.mp r3).ne'⟩
  have key : ∀ᶠ r in 𝓝 q, vars lw r.1 r.2 = some fun
      | .pocaX => (poca (trk h2 Sum.inl r.1 r.2) (trk h2' Sum.inr r.1 r.2) (c r)).1
      | .pocaY => (poca (trk h2 Sum.inl r.1 r.2) (trk h2' Sum.inr r.1 r.2) (c r)).2.1
      | .pocaZ => (poca (trk h2 Sum.inl r.1 r.2) (trk h2' Sum.inr r.1 r.2) (c r)).2.2
      | .scat => s r
      | .thIn => a r
      | .thOut => b r := by
    filter_upwards [ev, ec, es, ea, eb] with r r1 r2 r3 r4 r5
    simp only [vars, r1.1, r1.2, r2, r3, r4, r5]
    rfl
  have val : ∀ v, value lw v =ᶠ[𝓝 q] fun r => (match v with
      | .pocaX => (poca (trk h2 Sum.inl r.1 r.2) (trk h2' Sum.inr r.1 r.2) (c r)).1
      | .pocaY => (poca (trk h2 Sum.inl r.1 r.2) (trk h2' Sum.inr r.1 r.2) (c r)).2.1
      | .pocaZ => (poca (trk h2 Sum.inl r.1 r.2) (trk h2' Sum.inr r.1 r.2) (c r)).2.2
      | .scat => s r
      | .thIn => a r
      | .thOut => b r) := by
    intro v
    filter_upwards [key] with r hr
    rw [value, hr]
    rfl
  refine ⟨fun v => ?_, ?_, ?_, ?_, ?_⟩
  · refine ContDiffAt.congr_of_eventuallyEq ?_ (val v)
    cases v
    · exact x
    · exact y
    · exact z
    · exact ds
    · exact da
    · exact db
  · rw [(val .scat).eq_of_nhds]; exact ps
  · rw [(val .thIn).eq_of_nhds]; exact pa
  · rw [(val .thOut).eq_of_nhds]; exact pb
  · filter_upwards [key, ec, es, ea, eb, val .pocaX, val .pocaY, val .pocaZ, val .scat, val .thIn, val .thOut] with r hr r2 r3 r4 r5 v1 v2 v3 v4 v5 v6
    refine ⟨⟨_, hr⟩, ⟨c r, r2, ?_⟩, ?_, ?_, ?_⟩
    · rw [v1, v2, v3]
    · rw [r3, v4]
    · rw [r4, v5]
    · rw [r5, v6]

/-! ### The uncertainties are positive -/

/-- a function that changes along a direction has a partial derivative in one of the coordinates that change -/
theorem pd_path {κ : Type} [Fintype κ] [DecidableEq κ] (F : (κ → ℝ) → ℝ) (h d : κ → ℝ) (hF : DifferentiableAt ℝ F h) (g r : ℝ → ℝ) (r' : ℝ) (hg : DifferentiableAt ℝ g (F h))
    (hr : HasDerivAt r r' 0) (h0 : r' ≠ 0) (he : ∀ᶠ s in 𝓝 (0 : ℝ), g (F (h + s • d)) = r s) : ∃ k, d k ≠ 0 ∧ pd F h k ≠ 0 := by
  by_contra hne
  push Not at hne
  have hpd : ∀ k, pd F h k = fderiv ℝ F h (Pi.single k 1) := by
    intro k
    unfold pd
    have hat : HasFDerivAt F (fderiv ℝ F h) (Function.update h k (h k)) := by
      rw [Function.update_eq_self]
      exact hF.hasFDerivAt
    exact (hat.comp_hasDerivAt (h k) (hasDerivAt_update h k (h k))).deriv
  have hz : fderiv ℝ F h d = 0 := by
    have : d = ∑ k, d k • (Pi.single k 1 : κ → ℝ) := by
      funext j
      simp [Finset.sum_apply, Pi.single_apply]
    rw [this, map_sum]
    refine Finset.sum_eq_zero fun k _ => ?_
    rw [map_smul, ← hpd]
    by_cases hk : d k = 0
    · rw [hk, zero_smul]
    · rw [hne k hk, smul_zero]
  have hp : HasDerivAt (fun s : ℝ => h + s • d) d 0 := by
    simpa using ((hasDerivAt_id (0 : ℝ)).smul_const d).const_add h
  have hat : HasFDerivAt F (fderiv ℝ F h) (h + (0 : ℝ) • d) := by
    rw [zero_smul, add_zero]
    exact hF.hasFDerivAt
  have h1 := hat.comp_hasDerivAt 0 hp
  rw [hz] at h1
  have hg' : HasDerivAt g (deriv g (F h)) (F (h + (0 : ℝ) • d)) := by
    rw [zero_smul, add_zero]
    exact hg.hasDerivAt
  have h2 := hg'.comp (0 : ℝ) h1
  rw [mul_zero] at h2
  have h3 := (hr.congr_of_eventuallyEq he).unique h2
  exact h0 h3

theorem spread_pos (J σ : Plane n n' × Fin 3 → ℝ) (k : Plane n n' × Fin 3) (hJ : J k ≠ 0) (hσ : 0 < σ k) : 0 < spread J σ :=
  sqrt_pos.mpr (Finset.sum_pos' (fun _ _ => sq_nonneg _) ⟨k, Finset.mem_univ k, by positivity⟩)

/-- moving and tilting the hits of the panels `f` moves and tilts the track -/
theorem trk_path (h2 : 2 ≤ m) (f : Fin m → Plane n n') (h d : Coords n n') (w : Scaled n n') (hw : ∀ k c, 0 < w (f k, c))
    (hz : h (f ⟨0, by omega⟩, 2) ≠ h (f ⟨1, by omega⟩, 2)) (a a' b b' : ℝ) (hx : ∀ k, d (f k, 0) = a + b * (h (f k, 2) - h (f ⟨0, by omega⟩, 2)))
    (hy : ∀ k, d (f k, 1) = a' + b' * (h (f k, 2) - h (f ⟨0, by omega⟩, 2))) (hd : ∀ k, d (f k, 2) = 0) (s : ℝ) :
    trk h2 f (h + s • d) w =
      (((trk h2 f h w).1.1 + s * (b * (trk h2 f h w).1.2.2), (trk h2 f h w).1.2.1 + s * (b' * (trk h2 f h w).1.2.2), (trk h2 f h w).1.2.2),
        ((trk h2 f h w).2.1 + s * a, (trk h2 f h w).2.2.1 + s * a', (trk h2 f h w).2.2.2)) := by
  have fl : ∀ (c : Fin 3) (c' : Fin 2) (a b H : ℝ), (∀ k, d (f k, c) = a + b * (h (f k, 2) - h (f ⟨0, by omega⟩, 2))) →
      C111.fitted (fun k => h (f k, c) + s * d (f k, c)) (fun k => h (f k, 2)) (fun k => w (f k, c')) H =
        C111.fitted (fun k => h (f k, c)) (fun k => h (f k, 2)) (fun k => w (f k, c')) H + s * (a + b * (H - h (f ⟨0, by omega⟩, 2))) := by
    intro c c' a b H hc
    obtain ⟨s1, s2⟩ := C106.share_line (fun k => h (f k, 2)) (fun k => w (f k, c')) (fun k => hw k c') _ _ hz H
    unfold C111.fitted
    have : ∀ k, C106.share (fun k => h (f k, 2)) (fun k => w (f k, c')) H k * (h (f k, c) + s * d (f k, c)) =
        C106.share (fun k => h (f k, 2)) (fun k => w (f k, c')) H k * h (f k, c) +
        (s * (a - b * h (f ⟨0, by omega⟩, 2)) * C106.share (fun k => h (f k, 2)) (fun k => w (f k, c')) H k +
         s * b * (C106.share (fun k => h (f k, 2)) (fun k => w (f k, c')) H k * h (f k, 2))) := by
      intro k
      rw [hc k]
      ring
    simp only [this, Finset.sum_add_distrib, ← Finset.mul_sum, s1, s2]
    ring
  unfold trk
  simp only [Pi.add_apply, Pi.smul_apply, smul_eq_mul, hd, mul_zero, add_zero, fl 0 0 a b _ hx, fl 1 1 a' b' _ hy, Prod.mk.injEq]
  refine ⟨⟨?_, ?_, trivial⟩, ?_, ?_, trivial⟩ <;> ring

/-- the direction `u`, tilted -/
def tilted (u e : V3) (s : ℝ) : V3 := (u.1 + s * e.1, u.2.1 + s * e.2.1, u.2.2 + s * e.2.2)

theorem cos_deriv (u v e : V3) (hu : vnorm u ≠ 0) (hv : vnorm v ≠ 0) :
    HasDerivAt (fun s => vdot (tilted u e s) v / (vnorm (tilted u e s) * vnorm v)) ((vdot e v * vdot u u - vdot u v * vdot u e) / (vnorm u ^ 3 * vnorm v)) 0 := by
  have lin : ∀ a b : ℝ, HasDerivAt (fun s : ℝ => a + s * b) b 0 := fun a b => by simpa using ((hasDerivAt_id (0 : ℝ)).mul_const b).const_add a
  have hp : vdot u u ≠ 0 := fun h => hu (by rw [vnorm, h, sqrt_zero])
  have hsq : vnorm u ^ 2 = vdot u u := by
    rw [vnorm, sq_sqrt]
    unfold vdot
    nlinarith [sq_nonneg u.1, sq_nonneg u.2.1, sq_nonneg u.2.2]
  have t0 : tilted u e 0 = u := by simp [tilted]
  have d1 : HasDerivAt (fun s => vdot (tilted u e s) v) (vdot e v) 0 := by
    unfold vdot tilted
    exact (((lin _ _).mul_const _).add ((lin _ _).mul_const _)).add ((lin _ _).mul_const _)
  have d2 : HasDerivAt (fun s => vdot (tilted u e s) (tilted u e s)) (2 * vdot u e) 0 := by
    have := ((((lin u.1 e.1).mul (lin u.1 e.1)).add ((lin u.2.1 e.2.1).mul (lin u.2.1 e.2.1))).add ((lin u.2.2 e.2.2).mul (lin u.2.2 e.2.2)))
    refine this.congr_deriv ?_
    unfold vdot
    ring
  have d3 : HasDerivAt (fun s => vnorm (tilted u e s)) (2 * vdot u e / (2 * vnorm u)) 0 := by
    have := d2.sqrt (by rw [t0]; exact hp)
    rw [t0] at this
    exact this
  have := d1.fun_div (d3.mul_const (vnorm v)) (by rw [t0]; exact mul_ne_zero hu hv)
  refine this.congr_deriv ?_
  rw [t0, ← hsq]
  field_simp

/-- the horizontal part of the way the direction must be tilted to change its angle to `v` -/
def away (u v : V3) : V3 := (vdot u u * v.1 - vdot u v * u.1, vdot u u * v.2.1 - vdot u v * u.2.1, 0)

theorem away_pos (u v : V3) (hz : u.2.2 ≠ 0) (hnp : ¬ Parallel u v) : vdot (away u v) v * vdot u u - vdot u v * vdot u (away u v) ≠ 0 := by
  intro h
  have e : vdot (away u v) v * vdot u u - vdot u v * vdot u (away u v) = (vdot u u * v.1 - vdot u v * u.1) ^ 2 + (vdot u u * v.2.1 - vdot u v * u.2.1) ^ 2 := by
    simp only [away]
    generalize vdot u u = a
    generalize hb : vdot u v = b
    unfold vdot
    ring
  rw [e] at h
  have h1 : vdot u u * v.1 - vdot u v * u.1 = 0 := by nlinarith [sq_nonneg (vdot u u * v.1 - vdot u v * u.1), sq_nonneg (vdot u u * v.2.1 - vdot u v * u.2.1)]
  have h2 : vdot u u * v.2.1 - vdot u v * u.2.1 = 0 := by nlinarith [sq_nonneg (vdot u u * v.1 - vdot u v * u.1), sq_nonneg (vdot u u * v.2.1 - vdot u v * u.2.1)]
  have h3 : u.2.2 * (vdot u u * v.2.2 - vdot u v * u.2.2) = 0 := by
    have : u.1 * (vdot u u * v.1 - vdot u v * u.1) + u.2.1 * (vdot u u * v.2.1 - vdot u v * u.2.1) + u.2.2 * (vdot u u * v.2.2 - vdot u v * u.2.2) = 0 := by
      unfold vdot
      ring
    rw [h1, h2] at this
    linarith
  have h4 := (mul_eq_zero.mp h3).resolve_left hz
  have hu : vdot u u ≠ 0 := by
    have : 0 < u.2.2 ^ 2 := by positivity
    unfold vdot
    nlinarith [sq_nonneg u.1, sq_nonneg u.2.1]
  refine hnp ⟨vdot u v, vdot u u, Or.inr hu, ?_⟩
  simp only [scale3, Prod.mk.injEq]
  refine ⟨?_, ?_, ?_⟩ <;> linarith

theorem cos_angle (u v : V3) (hn : vnorm u * vnorm v ≠ 0) : cos (arccos (vdot u v / (vnorm u * vnorm v))) = vdot u v / (vnorm u * vnorm v) := by
  have hl := lagrange u v
  have h1 : 0 ≤ len3 (vcross u v) ^ 2 := sq_nonneg _
  have h2 : (vdot u v / (vnorm u * vnorm v)) ^ 2 ≤ 1 := by
    rw [div_pow, div_le_one (by positivity), vnorm_eq, vnorm_eq, mul_pow]
    linarith
  have h3 := abs_le.mp ((sq_le_one_iff_abs_le_one _).mp h2)
  exact cos_arccos h3.1 h3.2

/-- an angle between a fitted direction and a fixed one has a derivative by the hits -/
theorem angle_pd {κ : Type} [Fintype κ] [DecidableEq κ] (F : (κ → ℝ) → ℝ) (h d : κ → ℝ) (hF : DifferentiableAt ℝ F h) (u v : V3) (hz : u.2.2 ≠ 0) (hnp : ¬ Parallel u v)
    (he : ∀ᶠ s in 𝓝 (0 : ℝ), F (h + s • d) = arccos (vdot (tilted u (away u v) s) v / (vnorm (tilted u (away u v) s) * vnorm v))) : ∃ k, d k ≠ 0 ∧ pd F h k ≠ 0 := by
  have hc : vcross u v ≠ (0, 0, 0) := fun h => hnp ((cross_zero_parallel u v).mp h)
  have hu : vnorm u ≠ 0 := by
    rw [vnorm_eq, Ne, len3_zero]
    intro h
    exact hz (by rw [h])
  have hv : vnorm v ≠ 0 := by
    rw [vnorm_eq, Ne, len3_zero]
    intro h
    exact hc (by rw [h]; simp [vcross])
  have hd := cos_deriv u v (away u v) hu hv
  refine pd_path F h d hF cos _ _ differentiable_cos.differentiableAt hd (div_ne_zero (away_pos u v hz hnp) (mul_ne_zero (pow_ne_zero _ hu) hv)) ?_
  have hcont : ContinuousAt (fun s => vnorm (tilted u (away u v) s)) 0 := by
    unfold vnorm vdot tilted
    fun_prop
  filter_upwards [he, hcont.eventually_ne (by simpa [tilted] using hu)] with s hs hn
  rw [hs, cos_angle _ _ (mul_ne_zero hn hv)]

/-- the closest point as a function of the tracks -/
def closest (u v r0 r : V3) : V3 :=
  let w := vcross u v
  let nv : V3 := (-v.1, -v.2.1, -v.2.2)
  let D := det3 u nv w
  let c1 := det3 r nv w / D
  let c3 := det3 u nv r / D
  (r0.1 + c1 * u.1 + c3 * w.1 / 2, r0.2.1 + c1 * u.2.1 + c3 * w.2.1 / 2, r0.2.2 + c1 * u.2.2 + c3 * w.2.2 / 2)

theorem poca_closest (tin tout : Track) (c : ℝ × ℝ × ℝ) (h : trackCoefs tin tout = some c) :
    poca tin tout c = closest tin.1 tout.1 tin.2 (tout.2.1 - tin.2.1, tout.2.2.1 - tin.2.2.1, tout.2.2.2 - tin.2.2.2) := by
  unfold trackCoefs at h
  simp only at h
  split at h
  · simp at h
  · simp only [Option.some.injEq] at h
    subst h
    rfl

/-- how the height of the closest point answers to horizontal moves of the incoming track -/
def lift (u v : V3) : V3 :=
  let w := vcross u v
  let c := vcross v w
  (u.2.2 * c.1 + w.2.2 / 2 * w.1, u.2.2 * c.2.1 + w.2.2 / 2 * w.2.1, u.2.2 * c.2.2 + w.2.2 / 2 * w.2.2)

theorem lift_pos (u v : V3) (hu : u.2.2 ≠ 0) (hv : v.2.2 ≠ 0) (hnp : ¬ Parallel u v) : (lift u v).1 ^ 2 + (lift u v).2.1 ^ 2 ≠ 0 := by
  intro h
  have h1 : (lift u v).1 = 0 := by nlinarith [sq_nonneg (lift u v).1, sq_nonneg (lift u v).2.1]
  have h2 : (lift u v).2.1 = 0 := by nlinarith [sq_nonneg (lift u v).1, sq_nonneg (lift u v).2.1]
  have e1 : vdot (lift u v) v = 0 := by simp only [lift, vdot, vcross]; ring
  have h3 : (lift u v).2.2 = 0 := by
    unfold vdot at e1
    rw [h1, h2] at e1
    have : (lift u v).2.2 * v.2.2 = 0 := by linarith
    exact (mul_eq_zero.mp this).resolve_right hv
  have e2 : vdot (lift u v) (vcross u v) = (vcross u v).2.2 / 2 * vdot (vcross u v) (vcross u v) := by
    simp only [lift, vdot, vcross]; ring
  have hc : vcross u v ≠ (0, 0, 0) := fun h => hnp ((cross_zero_parallel u v).mp h)
  have hw : vdot (vcross u v) (vcross u v) ≠ 0 := by
    rw [vdot_self]
    exact pow_ne_zero _ (mt (len3_zero _).mp hc)
  have e3 : vdot (lift u v) (vcross u v) = 0 := by
    unfold vdot
    rw [h1, h2, h3]
    ring
  have hwz : (vcross u v).2.2 = 0 := by
    rw [e3] at e2
    rcases mul_eq_zero.mp e2.symm with h | h
    · linarith
    · exact absurd h hw
  have g : ∀ x : ℝ, u.2.2 * x = 0 → x = 0 := fun x hx => (mul_eq_zero.mp hx).resolve_left hu
  simp only [lift, hwz, zero_div, zero_mul, add_zero] at h1 h2 h3
  have hcc : vcross v (vcross u v) = (0, 0, 0) := Prod.ext (g _ h1) (Prod.ext (g _ h2) (g _ h3))
  have e4 : vdot u (vcross v (vcross u v)) = vdot (vcross u v) (vcross u v) := by
    simp only [vdot, vcross]; ring
  rw [hcc] at e4
  exact hw (by rw [← e4]; simp [vdot])

theorem det_ne (u v : V3) (hnp : ¬ Parallel u v) : det3 u (-v.1, -v.2.1, -v.2.2) (vcross u v) ≠ 0 := by
  have hc : vcross u v ≠ (0, 0, 0) := fun h => hnp ((cross_zero_parallel u v).mp h)
  have : det3 u (-v.1, -v.2.1, -v.2.2) (vcross u v) = -len3 (vcross u v) ^ 2 := by
    rw [← vdot_self]; simp only [det3, vdot, vcross]; ring
  rw [this]
  exact neg_ne_zero.mpr (pow_ne_zero _ (mt (len3_zero _).mp hc))

theorem closest_shift (u v r0 r g : V3) (s : ℝ) (hg : g.2.2 = 0) :
    (closest u v (r0.1 + s * g.1, r0.2.1 + s * g.2.1, r0.2.2) (r.1 - s * g.1, r.2.1 - s * g.2.1, r.2.2)).2.2 =
      (closest u v r0 r).2.2 + s * (vdot g (lift u v) / det3 u (-v.1, -v.2.1, -v.2.2) (vcross u v)) := by
  simp only [closest]
  generalize hD : det3 u (-v.1, -v.2.1, -v.2.2) (vcross u v) = D
  have e1 : det3 (r.1 - s * g.1, r.2.1 - s * g.2.1, r.2.2) (-v.1, -v.2.1, -v.2.2) (vcross u v) =
      det3 r (-v.1, -v.2.1, -v.2.2) (vcross u v) + s * vdot g (vcross v (vcross u v)) := by
    simp only [det3, vdot, vcross, hg]; ring
  have e2 : det3 u (-v.1, -v.2.1, -v.2.2) (r.1 - s * g.1, r.2.1 - s * g.2.1, r.2.2) =
      det3 u (-v.1, -v.2.1, -v.2.2) r + s * vdot g (vcross u v) := by
    simp only [det3, vdot, vcross, hg]; ring
  have e3 : vdot g (lift u v) = u.2.2 * vdot g (vcross v (vcross u v)) + (vcross u v).2.2 / 2 * vdot g (vcross u v) := by
    simp only [lift, vdot]; ring
  rw [e1, e2, e3]
  ring

/-- **The uncertainties of all variables are positive** if those of the hits are. -/
theorem uncs_pos (lw : ℝ × ℝ) (h2 : 2 ≤ n) (h2' : 2 ≤ n') (h : Coords n n') (w : Scaled n n') (hq : Fit h2 h2' h w) (σ : Coords n n') (hσ : ∀ k, k.2 ≠ 2 → 0 < σ k) (v : Var) :
    0 < spread (jac lw h w v) σ := by
  obtain ⟨cd, -, -, -, near⟩ := vars_cd lw h2 h2' (h, w) hq
  have dF : ∀ v, DifferentiableAt ℝ (fun y => value lw v (y, w)) h := fun v => by
    have a := (cd v).differentiableAt (by simp)
    exact DifferentiableAt.comp (f := fun y : Coords n n' => (y, w)) h a (differentiableAt_id.prodMk (differentiableAt_const w))
  have walk : ∀ d : Coords n n', Tendsto (fun s : ℝ => ((h + s • d, w) : Coords n n' × Scaled n n')) (𝓝 0) (𝓝 (h, w)) := fun d => by
    have c : ContinuousAt (fun s : ℝ => ((h + s • d, w) : Coords n n' × Scaled n n')) 0 := by fun_prop
    simpa [ContinuousAt] using c
  have along := fun d => (walk d).eventually near
  have fin : ∀ (d : Coords n n') (v : Var), (∀ k, d (k, 2) = 0) → (∃ k, d k ≠ 0 ∧ pd (fun y => value lw v (y, w)) h k ≠ 0) → 0 < spread (jac lw h w v) σ := by
    rintro d v hd ⟨⟨p, c⟩, h1, h2⟩
    refine spread_pos _ σ (p, c) h2 (hσ _ fun hc => ?_)
    simp only at hc
    subst hc
    exact h1 (hd p)
  have zin : (trk h2 Sum.inl h w).1.2.2 ≠ 0 := (sub_neg.mpr hq.above).ne
  have zout : (trk h2' Sum.inr h w).1.2.2 ≠ 0 := (sub_neg.mpr hq.below).ne
  have down1 : vnorm (0, 0, -1) = 1 := by simp [vnorm, vdot]
  have npin : ∀ u : V3, u.1 ≠ 0 ∨ u.2.1 ≠ 0 → ¬ Parallel u (0, 0, -1) := by
    intro u hu hp
    have := (cross_zero_parallel u (0, 0, -1)).mpr hp
    simp only [vcross, Prod.mk.injEq, mul_zero, sub_zero, zero_sub, mul_neg, mul_one, neg_neg] at this
    rcases hu with hu | hu
    · exact hu (by simpa using this.2.1)
    · exact hu (by simpa using this.1)
  have theta_of : ∀ (u : V3) (x : ℝ), thetaOf u = some x → x = arccos (vdot u (0, 0, -1) / (vnorm u * vnorm (0, 0, -1))) := by
    intro u x hx
    unfold thetaOf at hx
    split at hx
    · simp at hx
    · simp only [Option.some.injEq] at hx
      have : vdot u (0, 0, -1) / (vnorm u * vnorm (0, 0, -1)) = -u.2.2 / vnorm u := by
        rw [down1, mul_one]
        simp [vdot]
      rw [this, ← hx]
      split
      · rfl
      · rename_i h1
        rw [not_not.mp h1, arccos_one]
  have msc_of : ∀ (u v : V3) (x : ℝ), thetaMsc u v = some x → x = arccos (vdot u v / (vnorm u * vnorm v)) := by
    intro u v x hx
    unfold thetaMsc at hx
    split at hx
    · simp at hx
    · simpa using hx.symm
  -- tilting the incoming, the outgoing track by `e`
  let din : V3 → Coords n n' := fun e k => match k with
    | (Sum.inl i, c) => if c = 0 then e.1 / (trk h2 Sum.inl h w).1.2.2 * (h (Sum.inl i, 2) - h (Sum.inl ⟨0, by omega⟩, 2))
        else if c = 1 then e.2.1 / (trk h2 Sum.inl h w).1.2.2 * (h (Sum.inl i, 2) - h (Sum.inl ⟨0, by omega⟩, 2)) else 0
    | (Sum.inr _, _) => 0
  let dout : V3 → Coords n n' := fun e k => match k with
    | (Sum.inr i, c) => if c = 0 then e.1 / (trk h2' Sum.inr h w).1.2.2 * (h (Sum.inr i, 2) - h (Sum.inr ⟨0, by omega⟩, 2))
        else if c = 1 then e.2.1 / (trk h2' Sum.inr h w).1.2.2 * (h (Sum.inr i, 2) - h (Sum.inr ⟨0, by omega⟩, 2)) else 0
    | (Sum.inl _, _) => 0
  have pin : ∀ (e : V3), e.2.2 = 0 → ∀ s : ℝ, (trk h2 Sum.inl (h + s • din e) w).1 = tilted (trk h2 Sum.inl h w).1 e s ∧ trk h2' Sum.inr (h + s • din e) w = trk h2' Sum.inr h w := by
    intro e he s
    constructor
    · rw [trk_path h2 Sum.inl h (din e) w (fun k c => hq.pos _) hq.above.ne' 0 0 (e.1 / (trk h2 Sum.inl h w).1.2.2) (e.2.1 / (trk h2 Sum.inl h w).1.2.2)
        (fun k => by simp [din]) (fun k => by simp [din]) (fun k => by simp [din])]
      simp only [tilted, div_mul_cancel₀ _ zin, he, mul_zero, add_zero]
    · rw [trk_path h2' Sum.inr h (din e) w (fun k c => hq.pos _) hq.below.ne' 0 0 0 0 (fun k => by simp [din]) (fun k => by simp [din]) (fun k => by simp [din])]
      simp
  have pout : ∀ (e : V3), e.2.2 = 0 → ∀ s : ℝ, (trk h2' Sum.inr (h + s • dout e) w).1 = tilted (trk h2' Sum.inr h w).1 e s := by
    intro e he s
    rw [trk_path h2' Sum.inr h (dout e) w (fun k c => hq.pos _) hq.below.ne' 0 0 (e.1 / (trk h2' Sum.inr h w).1.2.2) (e.2.1 / (trk h2' Sum.inr h w).1.2.2)
      (fun k => by simp [dout]) (fun k => by simp [dout]) (fun k => by simp [dout])]
    simp only [tilted, div_mul_cancel₀ _ zout, he, mul_zero, add_zero]
  have zdin : ∀ e k, din e (k, 2) = 0 := fun e k => by cases k <;> simp [din]
  have zdout : ∀ e k, dout e (k, 2) = 0 := fun e k => by cases k <;> simp [dout]
  -- moving tracks
  let mv : V3 → V3 → Coords n n' := fun g g' k => match k with
    | (Sum.inl _, c) => if c = 0 then g.1 else if c = 1 then g.2.1 else 0
    | (Sum.inr _, c) => if c = 0 then g'.1 else if c = 1 then g'.2.1 else 0
  have pmv : ∀ g g' s, trk h2 Sum.inl (h + s • mv g g') w = ((trk h2 Sum.inl h w).1, ((trk h2 Sum.inl h w).2.1 + s * g.1, (trk h2 Sum.inl h w).2.2.1 + s * g.2.1, (trk h2 Sum.inl h w).2.2.2)) ∧
      trk h2' Sum.inr (h + s • mv g g') w = ((trk h2' Sum.inr h w).1, ((trk h2' Sum.inr h w).2.1 + s * g'.1, (trk h2' Sum.inr h w).2.2.1 + s * g'.2.1, (trk h2' Sum.inr h w).2.2.2)) := by
    intro g g' s
    constructor
    · rw [trk_path h2 Sum.inl h (mv g g') w (fun k c => hq.pos _) hq.above.ne' g.1 g.2.1 0 0 (fun k => by simp [mv]) (fun k => by simp [mv]) (fun k => by simp [mv])]
      simp
    · rw [trk_path h2' Sum.inr h (mv g g') w (fun k c => hq.pos _) hq.below.ne' g'.1 g'.2.1 0 0 (fun k => by simp [mv]) (fun k => by simp [mv]) (fun k => by simp [mv])]
      simp
  have zmv : ∀ g g' k, mv g g' (k, 2) = 0 := fun g g' k => by cases k <;> simp [mv]
  have lin : ∀ a b : ℝ, HasDerivAt (fun s : ℝ => a + s * b) b 0 := fun a b => by simpa using ((hasDerivAt_id (0 : ℝ)).mul_const b).const_add a
  cases v with
  | thIn =>
    refine fin (din (away (trk h2 Sum.inl h w).1 (0, 0, -1))) _ (zdin _) (angle_pd _ h _ (dF _) (trk h2 Sum.inl h w).1 (0, 0, -1) zin (npin _ hq.slantIn) ?_)
    filter_upwards [along (din (away (trk h2 Sum.inl h w).1 (0, 0, -1)))] with s hs
    rw [← (pin _ rfl s).1]
    exact theta_of _ _ hs.2.2.2.1
  | thOut =>
    refine fin (dout (away (trk h2' Sum.inr h w).1 (0, 0, -1))) _ (zdout _) (angle_pd _ h _ (dF _) (trk h2' Sum.inr h w).1 (0, 0, -1) zout (npin _ hq.slantOut) ?_)
    filter_upwards [along (dout (away (trk h2' Sum.inr h w).1 (0, 0, -1)))] with s hs
    rw [← pout _ rfl s]
    exact theta_of _ _ hs.2.2.2.2
  | scat =>
    refine fin (din (away (trk h2 Sum.inl h w).1 (trk h2' Sum.inr h w).1)) _ (zdin _) (angle_pd _ h _ (dF _) (trk h2 Sum.inl h w).1 (trk h2' Sum.inr h w).1 zin hq.scatters ?_)
    filter_upwards [along (din (away (trk h2 Sum.inl h w).1 (trk h2' Sum.inr h w).1))] with s hs
    rw [← (pin _ rfl s).1]
    have := msc_of _ _ _ hs.2.2.1
    simp only [(pin _ (show (away (trk h2 Sum.inl h w).1 (trk h2' Sum.inr h w).1).2.2 = 0 from rfl) s).2] at this
    exact this
  | pocaX =>
    refine fin (mv (1, 0, 0) (1, 0, 0)) _ (zmv _ _) (pd_path _ h _ (dF _) id _ 1 differentiableAt_id (lin (closest (trk h2 Sum.inl h w).1 (trk h2' Sum.inr h w).1 (trk h2 Sum.inl h w).2
      ((trk h2' Sum.inr h w).2.1 - (trk h2 Sum.inl h w).2.1, (trk h2' Sum.inr h w).2.2.1 - (trk h2 Sum.inl h w).2.2.1, (trk h2' Sum.inr h w).2.2.2 - (trk h2 Sum.inl h w).2.2.2)).1 1) one_ne_zero ?_)
    filter_upwards [along (mv (1, 0, 0) (1, 0, 0))] with s hs
    obtain ⟨c, hc, hp⟩ := hs.2.1
    rw [poca_closest _ _ _ hc] at hp
    have := congrArg (·.1) hp
    simp only [(pmv (1, 0, 0) (1, 0, 0) s).1, (pmv (1, 0, 0) (1, 0, 0) s).2] at this
    rw [id, ← this]
    simp only [closest, add_sub_add_right_eq_sub, mul_zero, add_zero]
    ring
  | pocaY =>
    refine fin (mv (0, 1, 0) (0, 1, 0)) _ (zmv _ _) (pd_path _ h _ (dF _) id _ 1 differentiableAt_id (lin (closest (trk h2 Sum.inl h w).1 (trk h2' Sum.inr h w).1 (trk h2 Sum.inl h w).2
      ((trk h2' Sum.inr h w).2.1 - (trk h2 Sum.inl h w).2.1, (trk h2' Sum.inr h w).2.2.1 - (trk h2 Sum.inl h w).2.2.1, (trk h2' Sum.inr h w).2.2.2 - (trk h2 Sum.inl h w).2.2.2)).2.1 1) one_ne_zero ?_)
    filter_upwards [along (mv (0, 1, 0) (0, 1, 0))] with s hs
    obtain ⟨c, hc, hp⟩ := hs.2.1
    rw [poca_closest _ _ _ hc] at hp
    have := congrArg (·.2.1) hp
    simp only [(pmv (0, 1, 0) (0, 1, 0) s).1, (pmv (0, 1, 0) (0, 1, 0) s).2] at this
    rw [id, ← this]
    simp only [closest, add_sub_add_right_eq_sub, mul_zero, add_zero]
    ring
  | pocaZ =>
    generalize hu : (trk h2 Sum.inl h w).1 = u at *
    generalize hv : (trk h2' Sum.inr h w).1 = v at *
    have hnp := hq.scatters
    rw [hu, hv] at hnp
    let g : V3 := ((lift u v).1, (lift u v).2.1, 0)
    have hB : vdot g (lift u v) / det3 u (-v.1, -v.2.1, -v.2.2) (vcross u v) ≠ 0 := by
      refine div_ne_zero ?_ (det_ne u v hnp)
      have := lift_pos u v zin zout hnp
      simp only [g, vdot]
      intro h0
      exact this (by linarith)
    refine fin (mv g (0, 0, 0)) _ (zmv _ _) (pd_path _ h _ (dF _) id _ _ differentiableAt_id (lin (closest u v (trk h2 Sum.inl h w).2
      ((trk h2' Sum.inr h w).2.1 - (trk h2 Sum.inl h w).2.1, (trk h2' Sum.inr h w).2.2.1 - (trk h2 Sum.inl h w).2.2.1, (trk h2' Sum.inr h w).2.2.2 - (trk h2 Sum.inl h w).2.2.2)).2.2 _) hB ?_)
    filter_upwards [along (mv g (0, 0, 0))] with s hs
    obtain ⟨c, hc, hp⟩ := hs.2.1
    rw [poca_closest _ _ _ hc] at hp
    have := congrArg (·.2.2) hp
    simp only [(pmv g (0, 0, 0) s).1, (pmv g (0, 0, 0) s).2] at this
    rw [id, ← this, ← closest_shift u v _ _ g s rfl]
    simp only [mul_zero, add_zero, sub_sub]

end C121

end

end Tomopt
