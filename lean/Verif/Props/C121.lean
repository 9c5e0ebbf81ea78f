import Verif.Lemmas.ChainCase

/- C121: the loss of a training batch is a differentiable function of the parameters of the detector. -/
namespace Tomopt

noncomputable section
open Real Filter Topology Scatter Uncert Chain

namespace C121

variable {n n' : Nat}

/-- **C121: variables.** Closest point, scattering angle and the angles of the tracks of a usable muon can be computed for all nearby hits and weights, and are twice continuously differentiable functions
of them. -/
theorem variables_smooth (lw : ℝ × ℝ) (h2 : 2 ≤ n) (h2' : 2 ≤ n') (h : Coords n n') (w : Scaled n n') (hw : ∀ k, 0 < w k) (hu : Usable lw h w) :
    (∀ᶠ q in 𝓝 (h, w), (vars lw q.1 q.2).isSome) ∧ ∀ v, ContDiffAt ℝ 2 (value lw v) (h, w) := by
  obtain ⟨a, -, -, -, b⟩ := vars_cd lw h2 h2' (h, w) (usable_fit lw h2 h2' h w hw hu)
  refine ⟨?_, a⟩
  filter_upwards [b] with q hq
  obtain ⟨g, hg⟩ := hq.1
  rw [hg]
  rfl

/-- **C121: uncertainties.** In every batch, if automatic differentiation gives the partial derivatives, the uncertainty computed for each of these variables of a usable muon is positive as soon as all hits
have positive uncertainties in x and y. -/
theorem uncertain (lw : ℝ × ℝ) (h2 : 2 ≤ n) (h2' : 2 ≤ n') (big : ℝ) {N : Nat} (h σ : Fin N → Coords n n') (w : Fin N → Scaled n n')
    (J : Fin N → Var → Fin N → Plane n n' × Fin 3 → XF) (i : Fin N) (hw : ∀ k, 0 < w i k) (hu : Usable lw (h i) (w i)) (hσ : ∀ p, 0 < σ i (p, 0) ∧ 0 < σ i (p, 1))
    (hJ : ∀ v j k, J i v j k = .num (pd (fun y : Fin N × (Plane n n' × Fin 3) → ℝ => value lw v (fun k => y (i, k), w i)) (fun p => h p.1 p.2) (j, k))) :
    ∃ u, outVarUnc big .hits J (fun i k => .num (σ i k)) = .ok u ∧ ∀ v, u i v = some (spread (jac lw (h i) (w i) v) (σ i)) ∧ 0 < spread (jac lw (h i) (w i) v) (σ i) := by
  obtain ⟨u, hu1, -⟩ := C95.propagation big (fun v y => value lw v (y, w i)) h σ J i .scat (hJ .scat)
  refine ⟨u, hu1, fun v => ⟨?_, ?_⟩⟩
  · obtain ⟨u', hu2, hv⟩ := C95.propagation big (fun v y => value lw v (y, w i)) h σ J i v (hJ v)
    rw [hu1] at hu2
    simp only [Except.ok.injEq] at hu2
    rw [hu2, hv]
    rfl
  · refine uncs_pos lw h2 h2' (h i) (w i) (usable_fit lw h2 h2' _ _ hw hu) (σ i) ?_ v
    rintro ⟨p, c⟩ hc
    fin_cases c
    · exact (hσ p).1
    · exact (hσ p).2
    · exact absurd rfl hc

/-- **C121: predictions.** Near `t0` the X0 predicted for a voxel is a number, and a differentiable function of `t`. -/
theorem prediction (lw : ℝ × ℝ) (Φ : ℝ → ℝ) (hΦ : Differentiable ℝ Φ) (hm : Monotone Φ) (big size : ℝ) (hs : 0 ≤ size) (D : Plane n n' → ℝ → Panel) (t0 : ℝ) (rs : List (Ray n n'))
    (hB : Batch lw D t0 rs) (low : ℝ × ℝ × ℝ) :
    ∃ f : ℝ → ℝ, (∀ᶠ t in 𝓝 t0, C98.predicted big size (rs.map fun r => seen lw Φ size low D r (jacs lw D r t) t) = .num (f t)) ∧ DifferentiableAt ℝ f t0 := by
  exact prediction_any lw Φ hΦ hm big size hs D t0 rs hB (fun r => jacs lw D r) (fun r hr => jacs_diff lw D t0 rs hB r hr) (fun _ => rfl) low

/-- **C121: cost.** What the panels cost, without a budget that fixes it, is differentiable. -/
theorem cost (D : Plane n n' → ℝ → Panel) (t0 : ℝ) (hM : ∀ p, C111.Moving (D p) t0) (hc : ∀ p t, (D p t).m2cost = (D p t0).m2cost) :
    DifferentiableAt ℝ (fun t => ∑ p, (D p t).getCost) t0 := by
  refine DifferentiableAt.fun_sum fun p _ => ?_
  simp only [Panel.getCost, hc p]
  exact (((hM p).long.mul (hM p).share).mul ((hM p).wide.mul (hM p).share)).const_mul _

/-- **C121: the loss.** Mean squared error over any voxels plus cost term, after the first evaluation has fixed the coefficient: near `t0` all predictions are numbers, the loss is a number, and it is a
differentiable function of `t` - with the plain penalty unless the cost at `t0` is exactly the target budget. -/
theorem loss (lw : ℝ × ℝ) (Φ : ℝ → ℝ) (hΦ : Differentiable ℝ Φ) (hm : Monotone Φ) (big size : ℝ) (hs : 0 ≤ size) (D : Plane n n' → ℝ → Panel) (t0 : ℝ) (rs : List (Ray n n'))
    (hB : Batch lw D t0 rs) (voxels : List (ℝ × ℝ × ℝ)) (hv : voxels ≠ []) (targ : List ℝ) (cost : ℝ → ℝ) (dc : DifferentiableAt ℝ cost t0) (steep : Bool) (b s k : ℝ) (hb : b ≠ 0)
    (hk : steep = true ∨ cost t0 ≠ b) :
    ∃ L : ℝ → ℝ, DifferentiableAt ℝ L t0 ∧ ∀ᶠ t in 𝓝 t0, ∃ (ps : List ℝ) (e c : ℝ),
      (voxels.map fun low => C98.predicted big size (rs.map fun r => seen lw Φ size low D r (jacs lw D r t) t)) = ps.map .num ∧
      Loss.mse ps targ = .num e ∧ (Loss.forward steep (some b) s ⟨some k⟩ e (cost t)).2 = (e, .num c) ∧ L t = e + c := by
  exact loss_any lw Φ hΦ hm big size hs D t0 rs hB (fun r => jacs lw D r) (fun r hr => jacs_diff lw D t0 rs hB r hr) (fun _ => rfl) voxels hv targ cost dc steep b s k hb hk

/-- **C121: where it stops.** With the plain penalty the loss has a kink where the cost equals the target budget. -/
theorem budget_violated (b s : ℝ) (hb : b ≠ 0) : ¬ DifferentiableAt ℝ (fun c => Loss.budgetNum false b s c) b := by
  intro h
  have hs : DifferentiableAt ℝ (fun c => 2 * Loss.sigmoid (s * (c - b) / b)) b := by
    have : DifferentiableAt ℝ (fun c : ℝ => s * (c - b) / b) b := by fun_prop
    exact (DifferentiableAt.comp (g := Loss.sigmoid) b (sigmoid_diff _) this).const_mul 2
  have h1 : DifferentiableAt ℝ (fun c : ℝ => max (c - b) 0 / b) b := by
    have := h.sub hs
    refine this.congr_of_eventuallyEq (Eventually.of_forall fun c => ?_)
    simp [Loss.budgetNum]
  have h2 : DifferentiableAt ℝ (fun c : ℝ => max (c - b) 0) b := by
    have := h1.mul_const b
    refine this.congr_of_eventuallyEq (Eventually.of_forall fun c => ?_)
    field_simp
  have h3 : DifferentiableAt ℝ (fun x : ℝ => max x 0) 0 := by
    have e : DifferentiableAt ℝ (fun x : ℝ => x + b) 0 := by fun_prop
    have h2' : DifferentiableAt ℝ (fun c : ℝ => max (c - b) 0) (0 + b) := by rwa [zero_add]
    have := DifferentiableAt.comp (f := fun x : ℝ => x + b) 0 h2' e
    simpa [Function.comp_def] using this
  have h4 : DifferentiableAt ℝ (fun x : ℝ => |x|) 0 := by
    have := (h3.const_mul 2).sub differentiableAt_id
    refine this.congr_of_eventuallyEq (Eventually.of_forall fun x => ?_)
    rcases le_total 0 x with h | h
    · simp [abs_of_nonneg h, max_eq_left h]; ring
    · simp [abs_of_nonpos h, max_eq_right h]
  exact not_differentiableAt_abs_zero h4

/-- Four panels, the highest of which moves up, and two muons; the probabilities of voxels are those of normal distributions. -/
example (lw : ℝ × ℝ) : Batch lw four 0 [shot 1, shot 4] ∧ Differentiable ℝ normalCdf ∧ Monotone normalCdf :=
  ⟨four_batch lw [1, 4] (by simp) (by norm_num), fun x => (normalCdf_deriv x).differentiableAt, normalCdf_mono⟩

/-- One of them is usable, and what the panels report of it has positive uncertainties in x and y. -/
example (lw : ℝ × ℝ) : Usable lw (hits four (shot 4) 0) (wgts four (shot 4) 0) ∧ (∀ k, 0 < wgts four (shot 4) 0 k) ∧ ∀ p, 0 < uncs four (shot 4) 0 (p, 0) ∧ 0 < uncs four (shot 4) 0 (p, 1) := by
  refine ⟨(four_batch lw [4] (by simp) (by norm_num)).usable (shot 4) (by simp), fun k => by rw [four_wgts]; exact one_pos, fun p => ?_⟩
  rw [four_uncs]
  exact ⟨by simp, by simp⟩

/-- The loss of this batch in the voxel at the origin, which is air, with a budget of 10 and the steep penalty, is differentiable in the height of the highest panel. -/
example (lw : ℝ × ℝ) (big : ℝ) : ∃ L : ℝ → ℝ, DifferentiableAt ℝ L 0 ∧ ∀ᶠ t in 𝓝 0, ∃ (ps : List ℝ) (e c : ℝ),
    ([((0 : ℝ), (0 : ℝ), (0 : ℝ))].map fun low => C98.predicted big 1 ([shot 1, shot 4].map fun r => seen lw normalCdf 1 low four r (jacs lw four r t) t)) = ps.map .num ∧
    Loss.mse ps [303.9] = .num e ∧ (Loss.forward true (some 10) 1 ⟨some 1⟩ e (∑ p, (four p t).getCost)).2 = (e, .num c) ∧ L t = e + c :=
  loss lw normalCdf (fun x => (normalCdf_deriv x).differentiableAt) normalCdf_mono big 1 zero_le_one four 0 [shot 1, shot 4] (four_batch lw [1, 4] (by simp) (by norm_num)) [(0, 0, 0)] (by simp) [303.9] _
    (cost four 0 (four_batch lw [1, 4] (by simp) (by norm_num)).moving fun _ _ => rfl) true 10 1 1 (by norm_num) (Or.inl rfl)

end C121

end

end Tomopt
