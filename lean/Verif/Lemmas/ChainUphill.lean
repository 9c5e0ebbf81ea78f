import Verif.Lemmas.ChainGrad

/- Helper lemmas: what the panels of `four` predict from muons that are all alike, and its derivative. -/
namespace Tomopt

noncomputable section
open Real Filter Topology Scatter Uncert Chain

namespace C121

variable {n n' : Nat}

theorem sum_replicate (k : Nat) (x : ℝ) : (List.replicate k x).sum = k * x := by simp

theorem wmean_replicate (w f : C98.Seen → ℝ) (k : Nat) (m : C98.Seen) (hw : 0 < w m) : C98.wmean w f (List.replicate (k + 1) m) = f m := by
  simp only [C98.wmean, List.map_replicate, sum_replicate]
  have : ((k + 1 : ℕ) : ℝ) ≠ 0 := by positivity
  field_simp

/-- muons that are all alike give the estimate of one of them -/
theorem predicted_replicate (big size : ℝ) (k : Nat) (m : C98.Seen) (g : C98.Good m) :
    C98.predicted big size (List.replicate (k + 1) m) = .num (C98.fromSquares size (m.row.scat ^ 2) (sqrt (m.row.thIn ^ 2)) (sqrt (m.row.thOut ^ 2)) (m.row.mom ^ 2)) := by
  rw [C98.estimate big size _ (by simp [List.replicate_succ]) (fun x hx => by rw [List.eq_of_mem_replicate hx]; exact g), wmean_replicate _ _ _ m (C98.weight_pos g.eff g.prob g.scat g.scatUnc),
    wmean_replicate _ _ _ m (C98.weight_pos g.eff g.prob g.thIn.1 g.thInUnc), wmean_replicate _ _ _ m (C98.weight_pos g.eff g.prob g.thOut.1 g.thOutUnc),
    wmean_replicate _ _ _ m (mul_pos g.eff g.prob)]

/-- the angles of a muon whose second hit is displaced by 1, when the highest panel is raised by `t` -/
theorem one_values (lw : ℝ × ℝ) (t : ℝ) (ht : -1 < t) :
    value lw .scat (hits four (shot 1) t, wgts four (shot 1) t) = π / 4 - arctan (1 / (2 + t)) ∧
    value lw .thIn (hits four (shot 1) t, wgts four (shot 1) t) = arctan (1 / (2 + t)) ∧ value lw .thOut (hits four (shot 1) t, wgts four (shot 1) t) = π / 4 := by
  have h2 : 1 < 2 + t := by linarith
  have hf := four_fit 1 t ht one_pos h2.ne
  obtain ⟨e1, e2⟩ := four_tracks 1 t ht
  obtain ⟨-, -, -, -, near⟩ := vars_cd lw le_rfl le_rfl (hits four (shot 1) t, fun _ => 1) hf
  obtain ⟨-, -, h1, h2', h3⟩ := near.self_of_nhds
  simp only [e1, e2] at h1 h2' h3
  rw [four_wgts]
  have hpi := pi_pos
  have a0 : 0 < arctan (1 / (2 + t)) := by
    have : arctan 0 < arctan (1 / (2 + t)) := arctan_strictMono (by positivity)
    simpa using this
  have a1 : arctan (1 / (2 + t)) < π / 4 := by
    have : arctan (1 / (2 + t)) < arctan 1 := arctan_strictMono (by rw [div_lt_one (by linarith)]; exact h2)
    simpa using this
  have q : sqrt (1 + (1 / (2 + t)) ^ 2) = sqrt (1 + (2 + t) ^ 2) / (2 + t) := by
    rw [show 1 + (1 / (2 + t)) ^ 2 = (1 + (2 + t) ^ 2) / (2 + t) ^ 2 by field_simp; ring, sqrt_div (by positivity), sqrt_sq (by linarith)]
  have p : 0 < sqrt (1 + (2 + t) ^ 2) := by positivity
  have c1 : cos (arctan (1 / (2 + t))) = (2 + t) / sqrt (1 + (2 + t) ^ 2) := by
    rw [cos_arctan, q]
    field_simp
  have s1 : sin (arctan (1 / (2 + t))) = 1 / sqrt (1 + (2 + t) ^ 2) := by
    rw [sin_arctan, q]
    field_simp
  have r2 : sqrt 2 ^ 2 = 2 := sq_sqrt (by norm_num)
  have r2' : 0 < sqrt (2 : ℝ) := by positivity
  refine ⟨?_, ?_, ?_⟩
  · unfold thetaMsc at h1
    split at h1
    · exact absurd h1 (by simp)
    · simp only [Option.some.injEq] at h1
      rw [← h1, ← arccos_cos (x := π / 4 - arctan (1 / (2 + t))) (by linarith) (by linarith), cos_sub, c1, s1, cos_pi_div_four, sin_pi_div_four]
      simp only [vdot, vnorm]
      congr 1
      rw [show (1 : ℝ) * 1 + 0 * 0 + -(2 + t) * -(2 + t) = 1 + (2 + t) ^ 2 by ring, show (1 : ℝ) * 1 + 0 * 0 + -1 * -1 = 2 by norm_num]
      field_simp
      rw [r2]
      ring
  · rw [thetaOf_eq _ _ h2', ← arccos_cos (x := arctan (1 / (2 + t))) (by linarith) (by linarith), c1]
    simp only [vdot, vnorm]
    congr 2
    · ring
    · congr 1
      ring
  · rw [thetaOf_eq _ _ h3, ← arccos_cos (x := π / 4) (by linarith) (by linarith), cos_pi_div_four]
    simp only [vdot, vnorm]
    congr 1
    rw [show (1 : ℝ) * 1 + 0 * 0 + -1 * -1 = 2 by norm_num]
    field_simp
    exact r2.symm

/-- The estimate from muons like this one falls as the highest panel rises. -/
theorem one_falls (lw : ℝ × ℝ) (Φ : ℝ → ℝ) (hΦ : Differentiable ℝ Φ) (hm : Monotone Φ) (big size : ℝ) (hsize : 0 < size) (low : ℝ × ℝ × ℝ) (k : Nat) (J : ℝ → Var → Plane 2 2 × Fin 3 → ℝ)
    (hJ : ∀ v i, DifferentiableAt ℝ (fun t => J t v i) 0) (h0 : J 0 = jacs lw four (shot 1) 0) :
    ∃ d < 0, ∃ h : ℝ → ℝ, HasDerivAt h d 0 ∧ 0 < h 0 ∧ h = (fun t => C98.fromSquares size ((π / 4 - arctan (1 / (2 + t))) ^ 2) (sqrt (arctan (1 / (2 + t)) ^ 2)) (sqrt ((π / 4) ^ 2)) (1 ^ 2)) ∧
      ∀ᶠ t in 𝓝 0, C98.predicted big size (List.replicate (k + 1) (seen lw Φ size low four (shot 1) (J t) t)) = .num (h t) := by
  have hB := four_batch lw [1] (by simp) (by norm_num)
  have m : shot 1 ∈ [(1 : ℝ)].map shot := by simp
  have ob := observed lw Φ hΦ hm size hsize.le low four 0 _ hB (shot 1) m J hJ h0
  have hpi := pi_pos
  have a0 : 0 < arctan (1 / 2 : ℝ) := by
    have : arctan 0 < arctan (1 / 2 : ℝ) := arctan_strictMono (by norm_num)
    simpa using this
  have a1 : arctan (1 / 2 : ℝ) < π / 4 := by
    have : arctan (1 / 2 : ℝ) < arctan 1 := arctan_strictMono (by norm_num)
    simpa using this
  have dφ : HasDerivAt (fun t : ℝ => arctan (1 / (2 + t))) (-(1 / 5)) 0 := by
    have a : HasDerivAt (fun t : ℝ => 2 + t) 1 0 := by simpa using (hasDerivAt_id (0 : ℝ)).const_add 2
    refine (((hasDerivAt_const (0 : ℝ) (1 : ℝ)).fun_div a (by norm_num)).arctan).congr_deriv ?_
    norm_num
  generalize hφ : (fun t : ℝ => arctan (1 / (2 + t))) = φ at dφ
  have φ0 : φ 0 = arctan (1 / 2) := by rw [← hφ]; norm_num
  have cO : 0 < cos (π / 4) := by rw [cos_pi_div_four]; positivity
  have cI : 0 < cos (φ 0) := by rw [φ0]; exact cos_arctan_pos _
  have sI : 0 < sin (φ 0) := by rw [φ0]; exact sin_pos_of_pos_of_lt_pi a0 (by linarith)
  have hA : 0 < scatterCoefA := by unfold scatterCoefA; norm_num
  have sc : 0 < π / 4 - φ 0 := by rw [φ0]; linarith
  have dd : HasDerivAt (fun t => (1 : ℝ) ^ 2 * ((π / 4 - φ t) ^ 2 / 2) * ((cos (φ t) + cos (π / 4)) / 2))
      (1 / 10 * ((π / 4 - φ 0) * (cos (φ 0) + cos (π / 4)) + (π / 4 - φ 0) ^ 2 / 2 * sin (φ 0))) 0 := by
    have e := ((((dφ.const_sub (π / 4)).fun_pow 2).div_const 2).const_mul ((1 : ℝ) ^ 2)).fun_mul ((dφ.cos.add_const (cos (π / 4))).div_const 2)
    refine e.congr_deriv ?_
    norm_num
    ring
  have e : HasDerivAt (fun t => scatterCoefA ^ 2 * size / ((1 : ℝ) ^ 2 * ((π / 4 - φ t) ^ 2 / 2) * ((cos (φ t) + cos (π / 4)) / 2))) _ 0 :=
    (hasDerivAt_const (0 : ℝ) (scatterCoefA ^ 2 * size)).fun_div dd (by positivity)
  have near : ∀ᶠ t in 𝓝 (0 : ℝ), 0 < φ t := dφ.continuousAt.eventually (lt_mem_nhds (by rw [φ0]; exact a0))
  have eq : (fun t => C98.fromSquares size ((π / 4 - φ t) ^ 2) (sqrt (φ t ^ 2)) (sqrt ((π / 4) ^ 2)) (1 ^ 2)) =ᶠ[𝓝 0]
      fun t => scatterCoefA ^ 2 * size / ((1 : ℝ) ^ 2 * ((π / 4 - φ t) ^ 2 / 2) * ((cos (φ t) + cos (π / 4)) / 2)) := by
    filter_upwards [near] with t ht
    rw [C98.fromSquares, sqrt_sq ht.le, sqrt_sq (by positivity)]
  refine ⟨_, ?_, _, e.congr_of_eventuallyEq eq, ?_, ?_, ?_⟩
  · rw [zero_mul, zero_sub]
    exact div_neg_of_neg_of_pos (neg_neg_of_pos (by positivity)) (by positivity)
  · have := eq.self_of_nhds
    simp only at this
    rw [this]
    positivity
  · rw [← hφ]
  · filter_upwards [good_near _ 0 ob.1 ob.2, lt_mem_nhds (show (-1 : ℝ) < 0 by norm_num)] with t g ht
    rw [predicted_replicate big size k _ g]
    obtain ⟨b1, b2, b3, b4⟩ := seen_row lw Φ size low four (shot 1) (J t) t
    obtain ⟨v1, v2, v3⟩ := one_values lw t ht
    rw [b1, b2, b3, b4, v1, v2, v3, ← hφ]
    rfl

end C121

end

end Tomopt
