import Verif.Lemmas.ChainFrozen

/- C122: the gradient which training follows is not that of the loss: automatic differentiation takes the derivatives that enter the uncertainties, and the places where muons cross
the panels, as constants. -/
namespace Tomopt

noncomputable section
open Real Filter Topology Scatter Uncert Chain

namespace C122
open C121

variable {n n' : Nat}

/-- What the inferrer predicts for a voxel, as the function of the parameter of the detector which automatic differentiation at `t0` sees: what it computes from the places where the muons
crossed the panels and with Jacobians, both recorded with or without a graph. -/
def tracked (lw : ℝ × ℝ) (Φ : ℝ → ℝ) (big size : ℝ) (D : Plane n n' → ℝ → Panel) (rs : List (Ray n n')) (low : ℝ × ℝ × ℝ) (t0 t : ℝ) : XF :=
  C98.predicted big size (rs.map fun r => seen lw Φ size low D (r.frozen D t0) (graphed asksGraph (jacs lw D (r.frozen D t0)) t0 t) t)

/-- What the inferrer predicts for the voxel when the parameter of the detector is `t`. -/
def actual (lw : ℝ × ℝ) (Φ : ℝ → ℝ) (big size : ℝ) (D : Plane n n' → ℝ → Panel) (rs : List (Ray n n')) (low : ℝ × ℝ × ℝ) (t : ℝ) : XF :=
  C98.predicted big size (rs.map fun r => seen lw Φ size low D r (jacs lw D r t) t)

/-- **C122: there is a gradient.** What automatic differentiation sees is the loss at `t0`, and a differentiable function of `t`: the gradient is a number. -/
theorem gradient (lw : ℝ × ℝ) (Φ : ℝ → ℝ) (hΦ : Differentiable ℝ Φ) (hm : Monotone Φ) (big size : ℝ) (hs : 0 ≤ size) (D : Plane n n' → ℝ → Panel) (t0 : ℝ) (rs : List (Ray n n'))
    (hB : C121.Batch lw D t0 rs) (voxels : List (ℝ × ℝ × ℝ)) (hv : voxels ≠ []) (targ : List ℝ) (cost : ℝ → ℝ) (dc : DifferentiableAt ℝ cost t0) (steep : Bool) (b s k : ℝ) (hb : b ≠ 0)
    (hk : steep = true ∨ cost t0 ≠ b) :
    (∀ low, tracked lw Φ big size D rs low t0 t0 = actual lw Φ big size D rs low t0) ∧
    ∃ G : ℝ → ℝ, DifferentiableAt ℝ G t0 ∧ ∀ᶠ t in 𝓝 t0, ∃ (ps : List ℝ) (e c : ℝ), voxels.map (fun low => tracked lw Φ big size D rs low t0 t) = ps.map .num ∧
      Loss.mse ps targ = .num e ∧ (Loss.forward steep (some b) s ⟨some k⟩ e (cost t)).2 = (e, .num c) ∧ G t = e + c := by
  refine ⟨fun low => ?_, ?_⟩
  · unfold tracked actual
    refine congrArg _ (List.map_congr_left fun r _ => ?_)
    rw [frozen_seen lw Φ size low D t0 t0 r (fun _ => rfl)]
    simp only [graphed, ite_self, frozen_jacs lw D t0 t0 r (fun _ => rfl)]
  · have := loss_any lw Φ hΦ hm big size hs D t0 _ (frozen_batch lw D t0 rs hB) (fun r => graphed asksGraph (jacs lw D r) t0) (fun _ _ _ _ => differentiableAt_const _) (fun _ => rfl) voxels hv targ
      cost dc steep b s k hb hk
    simpa only [tracked, List.map_map, Function.comp_def] using this

/-- **C122: muons all alike.** For a batch of muons that all fly and are recorded in the same way the uncertainties cancel; if they cross every panel at the same place wherever it is moved - the heights are not
parameters, or the muons fly straight down - the gradient is right. -/
theorem alike (lw : ℝ × ℝ) (Φ : ℝ → ℝ) (hΦ : Differentiable ℝ Φ) (hm : Monotone Φ) (big size : ℝ) (hs : 0 ≤ size) (D : Plane n n' → ℝ → Panel) (t0 : ℝ) (rs : List (Ray n n')) (hB : C121.Batch lw D t0 rs)
    (same : ∀ r ∈ rs, ∀ r' ∈ rs, r = r') (hc : ∀ r ∈ rs, ∀ p t, crossing (r.muon p) (D p t).z = crossing (r.muon p) (D p t0).z) (low : ℝ × ℝ × ℝ) :
    ∀ᶠ t in 𝓝 t0, tracked lw Φ big size D rs low t0 t = actual lw Φ big size D rs low t := by
  obtain ⟨r, hr⟩ := List.exists_mem_of_ne_nil rs hB.some
  obtain ⟨k, hk⟩ : ∃ k, rs = List.replicate (k + 1) r := by
    have e := List.eq_replicate_of_mem (fun b hb => same b hb r hr)
    obtain ⟨k, hk⟩ := Nat.exists_eq_succ_of_ne_zero (List.length_pos_iff.mpr hB.some).ne'
    exact ⟨k, e.trans (by rw [hk])⟩
  have h1 := observed lw Φ hΦ hm size hs low D t0 rs hB r hr (jacs lw D r) (jacs_diff lw D t0 rs hB r hr) rfl
  have h2 := observed lw Φ hΦ hm size hs low D t0 rs hB r hr (graphed asksGraph (jacs lw D r) t0) (fun _ _ => differentiableAt_const _) rfl
  filter_upwards [good_near _ t0 h1.1 h1.2, good_near _ t0 h2.1 h2.2] with t g1 g2
  have hf : tracked lw Φ big size D rs low t0 t = C98.predicted big size (rs.map fun r => seen lw Φ size low D r (graphed asksGraph (jacs lw D r) t0 t) t) := by
    unfold tracked
    refine congrArg _ (List.map_congr_left fun r hr => ?_)
    rw [frozen_seen lw Φ size low D t0 t r (fun p => hc r hr p t)]
    simp only [graphed, frozen_jacs lw D t0 t r (fun p => hc r hr p t), frozen_jacs lw D t0 t0 r (fun _ => rfl)]
  rw [hf]
  unfold actual
  rw [hk, List.map_replicate, List.map_replicate, predicted_replicate _ _ _ _ g1, predicted_replicate _ _ _ _ g2]
  obtain ⟨a, b, c, d⟩ := seen_row lw Φ size low D r (jacs lw D r t) t
  obtain ⟨a', b', c', d'⟩ := seen_row lw Φ size low D r (graphed asksGraph (jacs lw D r) t0 t) t
  rw [a, b, c, d, a', b', c', d']

/-- **C122: one muon.** -/
theorem single (lw : ℝ × ℝ) (Φ : ℝ → ℝ) (hΦ : Differentiable ℝ Φ) (hm : Monotone Φ) (big size : ℝ) (hs : 0 ≤ size) (D : Plane n n' → ℝ → Panel) (t0 : ℝ) (r : Ray n n') (hB : C121.Batch lw D t0 [r])
    (hc : ∀ p t, crossing (r.muon p) (D p t).z = crossing (r.muon p) (D p t0).z) (low : ℝ × ℝ × ℝ) : ∀ᶠ t in 𝓝 t0, tracked lw Φ big size D [r] low t0 t = actual lw Φ big size D [r] low t :=
  alike lw Φ hΦ hm big size hs D t0 [r] hB (by simp) (by simpa using hc) low

/-- **C122 (violated): heights.** One muon without noise, seen by four panels. Its tracks are what they are wherever the panels are, so the height of the highest panel does not matter for the prediction. Automatic
differentiation sees a function of the height that falls: it takes the place where the muon crosses the panel as fixed. -/
theorem height_violated (lw : ℝ × ℝ) (big size : ℝ) (hs : 0 < size) (low : ℝ × ℝ × ℝ) : ∃ (D : Plane 2 2 → ℝ → Panel) (r : Ray 2 2) (x : ℝ) (g : ℝ → ℝ), C121.Batch lw D 0 [r] ∧ (∀ p, r.noise p = (0, 0)) ∧
    (∀ᶠ t in 𝓝 0, actual lw normalCdf big size D [r] low t = .num x) ∧ (∀ᶠ t in 𝓝 0, tracked lw normalCdf big size D [r] low 0 t = .num (g t)) ∧ g 0 = x ∧ ∃ d < 0, HasDerivAt g d 0 := by
  have hΦ : Differentiable ℝ normalCdf := fun x => (normalCdf_deriv x).differentiableAt
  have hB := slanted_batch lw
  have hB' := frozen_batch lw four 0 _ hB
  have h1 := observed lw normalCdf hΦ normalCdf_mono size hs.le low four 0 _ hB slanted (by simp) (jacs lw four slanted) (jacs_diff lw four 0 _ hB slanted (by simp)) rfl
  have h2 := observed lw normalCdf hΦ normalCdf_mono size hs.le low four 0 _ hB' (slanted.frozen four 0) (by simp) (graphed asksGraph (jacs lw four (slanted.frozen four 0)) 0)
    (fun _ _ => differentiableAt_const _) rfl
  obtain ⟨d, hd, h, dh, -, eh, -⟩ := one_falls lw normalCdf hΦ normalCdf_mono big size hs low 0 (graphed asksGraph (jacs lw four (shot 1)) 0) (fun _ _ => differentiableAt_const _) rfl
  have near : ∀ᶠ t in 𝓝 (0 : ℝ), -1 < t := lt_mem_nhds (by norm_num)
  refine ⟨four, slanted, h 0, h, hB, fun _ => rfl, ?_, ?_, rfl, d, hd, dh⟩
  · filter_upwards [good_near _ 0 h1.1 h1.2, near] with t g ht
    have := predicted_replicate big size 0 _ g
    obtain ⟨w, a1, a2, a3, a4, a5, a6⟩ := slanted_hits t
    obtain ⟨-, v1, v2, v3⟩ := angles lw _ _ w _ _ (by linarith) (by linarith) a1 a2 a3 a4 a5 a6
    obtain ⟨b1, b2, b3, b4⟩ := seen_row lw normalCdf size low four slanted (jacs lw four slanted t) t
    have e : (2 + t) / 2 / (2 + t) = 1 / (2 + 0) := by
      have : (2 + t) ≠ 0 := by linarith
      field_simp
      norm_num
    rw [b1, b2, b3, b4, v1, v2, v3, e] at this
    rw [eh]
    exact this
  · filter_upwards [good_near _ 0 h2.1 h2.2, near] with t g ht
    have := predicted_replicate big size 0 _ g
    obtain ⟨w, a1, a2, a3, a4, a5, a6⟩ := frozen_hits t
    obtain ⟨-, v1, v2, v3⟩ := angles lw _ _ w _ _ (by linarith) (by linarith) a1 a2 a3 a4 a5 a6
    obtain ⟨b1, b2, b3, b4⟩ := seen_row lw normalCdf size low four (slanted.frozen four 0) (graphed asksGraph (jacs lw four (slanted.frozen four 0)) 0 t) t
    rw [b1, b2, b3, b4, v1, v2, v3, (frozen_rest four 0 slanted).2] at this
    rw [eh]
    exact this

/-- **C122 (violated).** Two muons, four panels, and the height of the highest panel as parameter. The error of the voxel is a differentiable function of this height, and so is what automatic
differentiation sees, with the same value; but their derivatives differ. -/
theorem gradient_violated (lw : ℝ × ℝ) (big size : ℝ) (hs : 0 < size) : ∃ (D : Plane 2 2 → ℝ → Panel) (rs : List (Ray 2 2)) (low : ℝ × ℝ × ℝ) (y : ℝ) (L G : ℝ → ℝ), C121.Batch lw D 0 rs ∧
    (∀ᶠ t in 𝓝 0, ∃ p, actual lw normalCdf big size D rs low t = .num p ∧ Loss.mse [p] [y] = .num (L t)) ∧
    (∀ᶠ t in 𝓝 0, ∃ p, tracked lw normalCdf big size D rs low 0 t = .num p ∧ Loss.mse [p] [y] = .num (G t)) ∧
    DifferentiableAt ℝ L 0 ∧ DifferentiableAt ℝ G 0 ∧ L 0 = G 0 ∧ deriv L 0 ≠ deriv G 0 := by
  obtain ⟨L, f, g, hf, hg, df, dg, h0, -, hne⟩ := four_gap lw normalCdf (fun x => (normalCdf_deriv x).differentiableAt) normalCdf_mono 1 normalCdf_lim normalCdf_tail big size hs
  have hL : HasDerivAt (fun t => (f t - (f 0 - 1)) ^ 2) (2 * deriv f 0) 0 := by
    refine ((df.hasDerivAt.sub_const (f 0 - 1)).fun_pow 2).congr_deriv ?_
    norm_num
  have hG : HasDerivAt (fun t => (g t - (f 0 - 1)) ^ 2) (2 * deriv g 0) 0 := by
    refine ((dg.hasDerivAt.sub_const (f 0 - 1)).fun_pow 2).congr_deriv ?_
    rw [h0]
    norm_num
  refine ⟨four, [shot 1, shot 4], (L, 0, 0), f 0 - 1, _, _, four_batch lw [1, 4] (by simp) (by norm_num), ?_, ?_, hL.differentiableAt, hG.differentiableAt, by rw [h0], ?_⟩
  · filter_upwards [hf] with t ht
    exact ⟨f t, ht, by simp [Loss.mse]⟩
  · filter_upwards [hg] with t ht
    exact ⟨g t, by simp only [tracked, List.map_cons, List.map_nil, shot_frozen]; exact ht, by simp [Loss.mse]⟩
  · rw [hL.deriv, hG.deriv]
    exact fun h => hne (mul_left_cancel₀ two_ne_zero h)

/-- **C122 (violated): training can go uphill.** A detector of four panels, with the height of the highest as the only parameter, looks at two volumes of a batch with two muons each; the X0 to be found are
positive. The mean loss `L` of the batch is a differentiable function of the height, and so is `G`, what automatic differentiation sees, with the same value; but however small the learning rate, a step against
the gradient of `G` makes the loss larger. -/
theorem uphill_violated (lw : ℝ × ℝ) (big size : ℝ) (hs : 0 < size) : ∃ (D : Plane 2 2 → ℝ → Panel) (rs rs' : List (Ray 2 2)) (low : ℝ × ℝ × ℝ) (y y' : ℝ) (L G : ℝ → ℝ), C121.Batch lw D 0 rs ∧
    C121.Batch lw D 0 rs' ∧ rs.length = rs'.length ∧ 0 < y ∧ 0 < y' ∧
    (∀ᶠ t in 𝓝 0, ∃ p p' e e', actual lw normalCdf big size D rs low t = .num p ∧ actual lw normalCdf big size D rs' low t = .num p' ∧ Loss.mse [p] [y] = .num e ∧ Loss.mse [p'] [y'] = .num e' ∧
      L t = (e + e') / 2) ∧
    (∀ᶠ t in 𝓝 0, ∃ p p' e e', tracked lw normalCdf big size D rs low 0 t = .num p ∧ tracked lw normalCdf big size D rs' low 0 t = .num p' ∧ Loss.mse [p] [y] = .num e ∧ Loss.mse [p'] [y'] = .num e' ∧
      G t = (e + e') / 2) ∧
    DifferentiableAt ℝ L 0 ∧ DifferentiableAt ℝ G 0 ∧ L 0 = G 0 ∧ ∀ᶠ η in 𝓝[>] 0, L 0 < L (0 - η * deriv G 0) := by
  have hΦ : Differentiable ℝ normalCdf := fun x => (normalCdf_deriv x).differentiableAt
  obtain ⟨X, f, g, hf, hg, df, dg, h0, pf, hne⟩ := four_gap lw normalCdf hΦ normalCdf_mono 1 normalCdf_lim normalCdf_tail big size hs
  have hB := four_batch lw [1] (by simp) (by norm_num)
  obtain ⟨d, hd, h, dh, ph, eh, hh⟩ := one_falls lw normalCdf hΦ normalCdf_mono big size hs (X, 0, 0) 1 (jacs lw four (shot 1)) (jacs_diff lw four 0 _ hB (shot 1) (by simp)) rfl
  obtain ⟨-, -, h', -, -, eh', hh'⟩ := one_falls lw normalCdf hΦ normalCdf_mono big size hs (X, 0, 0) 1 (graphed asksGraph (jacs lw four (shot 1)) 0) (fun _ _ => differentiableAt_const _) rfl
  rw [eh', ← eh] at hh'
  obtain ⟨ε, hε, b1, b2⟩ : ∃ ε > 0, ε * 1 < f 0 ∧ ε * (-((deriv f 0 + deriv g 0) / (2 * d))) < h 0 := by
    refine ⟨min (f 0 / 2) (h 0 / (2 * (|-((deriv f 0 + deriv g 0) / (2 * d))| + 1))), by positivity, ?_, ?_⟩
    · have := min_le_left (f 0 / 2) (h 0 / (2 * (|-((deriv f 0 + deriv g 0) / (2 * d))| + 1)))
      linarith
    · generalize -((deriv f 0 + deriv g 0) / (2 * d)) = z
      have h1 := min_le_right (f 0 / 2) (h 0 / (2 * (|z| + 1)))
      have h2 : 0 ≤ min (f 0 / 2) (h 0 / (2 * (|z| + 1))) := by positivity
      calc _ ≤ min (f 0 / 2) (h 0 / (2 * (|z| + 1))) * |z| := mul_le_mul_of_nonneg_left (le_abs_self z) h2
        _ ≤ h 0 / (2 * (|z| + 1)) * |z| := mul_le_mul_of_nonneg_right h1 (abs_nonneg z)
        _ < h 0 := by
          rw [div_mul_eq_mul_div, div_lt_iff₀ (by positivity)]
          nlinarith [abs_nonneg z]
  set u := ε * 1 with hu
  set v := ε * (-((deriv f 0 + deriv g 0) / (2 * d))) with hv
  have hL : HasDerivAt (fun t => ((f t - (f 0 - u)) ^ 2 + (h t - (h 0 - v)) ^ 2) / 2) (u * deriv f 0 + v * d) 0 := by
    refine ((((df.hasDerivAt.sub_const (f 0 - u)).fun_pow 2).fun_add ((dh.sub_const (h 0 - v)).fun_pow 2)).div_const 2).congr_deriv ?_
    norm_num
    ring
  have hG : HasDerivAt (fun t => ((g t - (f 0 - u)) ^ 2 + (h t - (h 0 - v)) ^ 2) / 2) (u * deriv g 0 + v * d) 0 := by
    refine ((((dg.hasDerivAt.sub_const (f 0 - u)).fun_pow 2).fun_add ((dh.sub_const (h 0 - v)).fun_pow 2)).div_const 2).congr_deriv ?_
    rw [h0]
    norm_num
    ring
  have vd : v * d = -(ε * ((deriv f 0 + deriv g 0) / 2)) := by
    have hd0 : d ≠ 0 := hd.ne
    rw [hv]
    field_simp
  refine ⟨four, [shot 1, shot 4], [shot 1, shot 1], (X, 0, 0), f 0 - u, h 0 - v, _, _, four_batch lw [1, 4] (by simp) (by norm_num), four_batch lw [1, 1] (by simp) (by norm_num), rfl, by linarith,
    by linarith, ?_, ?_, hL.differentiableAt, hG.differentiableAt, by simp only [h0], ?_⟩
  · filter_upwards [hf, hh] with t ht ht'
    exact ⟨f t, h t, _, _, ht, ht', by simp [Loss.mse], by simp [Loss.mse], rfl⟩
  · filter_upwards [hg, hh'] with t ht ht'
    exact ⟨g t, h t, _, _, by simp only [tracked, List.map_cons, List.map_nil, shot_frozen]; exact ht, by simp only [tracked, List.map_cons, List.map_nil, shot_frozen]; exact ht', by simp [Loss.mse], by simp [Loss.mse], rfl⟩
  · rw [hG.deriv]
    have hlin : HasDerivAt (fun η : ℝ => 0 - η * (u * deriv g 0 + v * d)) (-(u * deriv g 0 + v * d)) 0 := by
      simpa using ((hasDerivAt_id (0 : ℝ)).mul_const (u * deriv g 0 + v * d)).const_sub 0
    have hL' : HasDerivAt (fun t => ((f t - (f 0 - u)) ^ 2 + (h t - (h 0 - v)) ^ 2) / 2) (u * deriv f 0 + v * d) (0 - 0 * (u * deriv g 0 + v * d)) := by simpa using hL
    have hc := hL'.comp (0 : ℝ) hlin
    have pos : 0 < (u * deriv f 0 + v * d) * (-(u * deriv g 0 + v * d)) := by
      rw [vd, hu]
      have hq : deriv f 0 - deriv g 0 ≠ 0 := sub_ne_zero.mpr hne
      have : 0 < (deriv f 0 - deriv g 0) ^ 2 := by positivity
      have : 0 < ε ^ 2 * (deriv f 0 - deriv g 0) ^ 2 := by positivity
      nlinarith
    have sl := hasDerivAt_iff_tendsto_slope.mp hc
    have ev := (sl.eventually (lt_mem_nhds pos)).filter_mono (nhdsWithin_mono 0 (show Set.Ioi (0 : ℝ) ⊆ {0}ᶜ by intro x hx; exact ne_of_gt hx))
    filter_upwards [ev, self_mem_nhdsWithin] with η h1 h2
    have h3 : (0 : ℝ) < η := h2
    rw [slope_def_field, sub_zero] at h1
    have h4 := (div_pos_iff_of_pos_right h3).mp h1
    simp only [Function.comp_apply, zero_mul, sub_zero] at h4
    simpa using h4

/-- A batch of one, which crosses the panels at the same places wherever they are. -/
example (lw : ℝ × ℝ) : C121.Batch lw four 0 [shot 4] ∧ ∀ p t, crossing ((shot 4).muon p) (four p t).z = crossing ((shot 4).muon p) (four p 0).z :=
  ⟨four_batch lw [4] (by simp) (by norm_num), fun _ _ => (middle_crossing _).trans (middle_crossing _).symm⟩

end C122

end

end Tomopt
