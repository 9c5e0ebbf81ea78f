import Verif.Lemmas.ChainCase

/- Helper lemmas: how the derivative of a prediction changes with the derivatives of the uncertainties. -/
namespace Tomopt

noncomputable section
open Real Filter Topology Scatter Uncert Chain

namespace C121

theorem form_deriv (size : ℝ) (M S I O : ℝ → ℝ) (t0 m' s' i' o' : ℝ) (hM : HasDerivAt M m' t0) (hS : HasDerivAt S s' t0) (hI : HasDerivAt I i' t0) (hO : HasDerivAt O o' t0) (pM : 0 < M t0)
    (pS : 0 < S t0) (pI : 0 < I t0) (pO : 0 < O t0) (pC : 0 < cos (sqrt (I t0)) + cos (sqrt (O t0))) :
    HasDerivAt (fun t => C98.fromSquares size (S t) (sqrt (I t)) (sqrt (O t)) (M t))
      (-(scatterCoefA ^ 2 * size * ((m' * (S t0 / 2) + M t0 * (s' / 2)) * ((cos (sqrt (I t0)) + cos (sqrt (O t0))) / 2) +
        M t0 * (S t0 / 2) * ((-sin (sqrt (I t0)) * (i' / (2 * sqrt (I t0))) + -sin (sqrt (O t0)) * (o' / (2 * sqrt (O t0)))) / 2))) /
        (M t0 * (S t0 / 2) * ((cos (sqrt (I t0)) + cos (sqrt (O t0))) / 2)) ^ 2) t0 := by
  unfold C98.fromSquares
  have hd : M t0 * (S t0 / 2) * ((cos (sqrt (I t0)) + cos (sqrt (O t0))) / 2) ≠ 0 := by positivity
  refine ((hasDerivAt_const t0 (scatterCoefA ^ 2 * size)).fun_div ((hM.fun_mul (hS.div_const 2)).fun_mul ((((hI.sqrt pI.ne').cos).fun_add ((hO.sqrt pO.ne').cos)).div_const 2)) hd).congr_deriv ?_
  rw [zero_mul, zero_sub]

theorem mean_deriv (w1 w2 f1 f2 : ℝ → ℝ) (t0 w1' w2' f1' f2' : ℝ) (h1 : HasDerivAt w1 w1' t0) (h2 : HasDerivAt w2 w2' t0) (g1 : HasDerivAt f1 f1' t0) (g2 : HasDerivAt f2 f2' t0)
    (hp : w1 t0 + w2 t0 ≠ 0) :
    HasDerivAt (fun t => (w1 t * f1 t + w2 t * f2 t) / (w1 t + w2 t))
      ((w1 t0 * f1' + w2 t0 * f2') / (w1 t0 + w2 t0) + (f1 t0 - f2 t0) * (w2 t0 * w1' - w1 t0 * w2') / (w1 t0 + w2 t0) ^ 2) t0 := by
  refine (((h1.fun_mul g1).fun_add (h2.fun_mul g2)).fun_div (h1.fun_add h2) hp).congr_deriv ?_
  field_simp
  ring

theorem weight_deriv (x u : Infer.MuRow → ℝ) (s : ℝ → C98.Seen) (t0 e' p' x' u' : ℝ) (he : HasDerivAt (fun t => (s t).eff) e' t0) (hp : HasDerivAt (fun t => (s t).prob) p' t0)
    (hx : HasDerivAt (fun t => x (s t).row) x' t0) (hu : HasDerivAt (fun t => u (s t).row) u' t0) (h0 : 0 < (s t0).eff) (h3 : 0 < (s t0).prob) (h1 : 0 < x (s t0).row) (h2 : 0 < u (s t0).row) :
    HasDerivAt (fun t => C98.weight x u (s t)) (C98.weight x u (s t0) * (e' / (s t0).eff + p' / (s t0).prob - 2 * x' / x (s t0).row - 2 * u' / u (s t0).row)) t0 := by
  simp only [C98.weight, C98.squareVar_eq]
  refine ((he.fun_mul hp).fun_div (((hx.const_mul 2).fun_mul hu).fun_pow 2) (by positivity)).congr_deriv ?_
  field_simp
  ring

/-- `a` and `b` against `a'` and `b'`, which agree with them but in how the uncertainties and probabilities change -/
structure Same (a a' : ℝ → C98.Seen) (t0 : ℝ) : Prop where
  now : a t0 = a' t0
  eff : ∀ t, (a t).eff = (a' t).eff
  scat : ∀ t, (a t).row.scat = (a' t).row.scat
  thIn : ∀ t, (a t).row.thIn = (a' t).row.thIn
  thOut : ∀ t, (a t).row.thOut = (a' t).row.thOut
  mom : ∀ t, (a t).row.mom = (a' t).row.mom

/-- how the weight of a muon for the angle of its incoming track changes, relative to how it would with the other uncertainties -/
def lean (a a' : ℝ → C98.Seen) (t0 : ℝ) : ℝ :=
  (deriv (fun t => (a t).prob) t0 - deriv (fun t => (a' t).prob) t0) / (a t0).prob - 2 * (deriv (fun t => (a t).row.thInUnc) t0 - deriv (fun t => (a' t).row.thInUnc) t0) / (a t0).row.thInUnc

theorem wmean_pair (w f : C98.Seen → ℝ) (a b : C98.Seen) : C98.wmean w f [a, b] = (w a * f a + w b * f b) / (w a + w b) := by
  simp [C98.wmean]

/-- relative change of the weight -/
def rel (x u : Infer.MuRow → ℝ) (s : ℝ → C98.Seen) (t0 : ℝ) : ℝ :=
  deriv (fun t => (s t).eff) t0 / (s t0).eff + deriv (fun t => (s t).prob) t0 / (s t0).prob - 2 * deriv (fun t => x (s t).row) t0 / x (s t0).row - 2 * deriv (fun t => u (s t).row) t0 / u (s t0).row

theorem pair_mean (x u : Infer.MuRow → ℝ) (a b : ℝ → C98.Seen) (t0 : ℝ) (da : SeenDiff a t0) (db : SeenDiff b t0) (ga : C98.Good (a t0)) (gb : C98.Good (b t0))
    (xa : DifferentiableAt ℝ (fun t => x (a t).row) t0) (ua : DifferentiableAt ℝ (fun t => u (a t).row) t0) (xb : DifferentiableAt ℝ (fun t => x (b t).row) t0)
    (ub : DifferentiableAt ℝ (fun t => u (b t).row) t0) (h1 : 0 < x (a t0).row) (h2 : 0 < u (a t0).row) (h3 : 0 < x (b t0).row) (h4 : 0 < u (b t0).row) :
    HasDerivAt (fun t => C98.wmean (C98.weight x u) (fun m => x m.row ^ 2) [a t, b t])
      ((C98.weight x u (a t0) * (2 * x (a t0).row * deriv (fun t => x (a t).row) t0) + C98.weight x u (b t0) * (2 * x (b t0).row * deriv (fun t => x (b t).row) t0)) /
          (C98.weight x u (a t0) + C98.weight x u (b t0)) +
        (x (a t0).row ^ 2 - x (b t0).row ^ 2) * (C98.weight x u (a t0) * C98.weight x u (b t0) * (rel x u a t0 - rel x u b t0)) / (C98.weight x u (a t0) + C98.weight x u (b t0)) ^ 2) t0 := by
  simp only [wmean_pair]
  have wa := weight_deriv x u a t0 _ _ _ _ da.eff.hasDerivAt da.prob.hasDerivAt xa.hasDerivAt ua.hasDerivAt ga.eff ga.prob h1 h2
  have wb := weight_deriv x u b t0 _ _ _ _ db.eff.hasDerivAt db.prob.hasDerivAt xb.hasDerivAt ub.hasDerivAt gb.eff gb.prob h3 h4
  have pa := C98.weight_pos (x := x) (u := u) ga.eff ga.prob h1 h2
  have pb := C98.weight_pos (x := x) (u := u) gb.eff gb.prob h3 h4
  refine (mean_deriv _ _ _ _ t0 _ _ _ _ wa wb (xa.hasDerivAt.fun_pow 2) (xb.hasDerivAt.fun_pow 2) (by positivity)).congr_deriv ?_
  have e1 : ∀ y z : ℝ, ((2 : ℕ) : ℝ) * y ^ (2 - 1) * z = 2 * y * z := fun y z => by norm_num
  rw [e1, e1]
  congr 2
  unfold rel
  ring

theorem gap (big size : ℝ) (hsize : 0 < size) (a b a' b' : ℝ → C98.Seen) (t0 : ℝ) (da : SeenDiff a t0) (db : SeenDiff b t0) (da' : SeenDiff a' t0) (db' : SeenDiff b' t0) (ga : C98.Good (a t0))
    (gb : C98.Good (b t0)) (sa : Same a a' t0) (sb : Same b b' t0) (hs : (a t0).row.scat = (b t0).row.scat) (ho : (a t0).row.thOut = (b t0).row.thOut) (hm : (a t0).row.mom = (b t0).row.mom)
    (hi : (a t0).row.thIn ≠ (b t0).row.thIn) (hl : lean a a' t0 ≠ lean b b' t0) :
    ∃ f f' : ℝ → ℝ, (∀ᶠ t in 𝓝 t0, C98.predicted big size [a t, b t] = .num (f t)) ∧ (∀ᶠ t in 𝓝 t0, C98.predicted big size [a' t, b' t] = .num (f' t)) ∧ DifferentiableAt ℝ f t0 ∧
      DifferentiableAt ℝ f' t0 ∧ f t0 = f' t0 ∧ 0 < f t0 ∧ deriv f t0 ≠ deriv f' t0 := by
  have ga' : C98.Good (a' t0) := sa.now ▸ ga
  have gb' : C98.Good (b' t0) := sb.now ▸ gb
  have val : ∀ a b : ℝ → C98.Seen, SeenDiff a t0 → SeenDiff b t0 → C98.Good (a t0) → C98.Good (b t0) →
      ∀ᶠ t in 𝓝 t0, C98.predicted big size [a t, b t] = .num (C98.fromSquares size (C98.wmean (C98.weight (·.scat) (·.scatUnc)) (fun m => m.row.scat ^ 2) [a t, b t])
        (sqrt (C98.wmean (C98.weight (·.thIn) (·.thInUnc)) (fun m => m.row.thIn ^ 2) [a t, b t])) (sqrt (C98.wmean (C98.weight (·.thOut) (·.thOutUnc)) (fun m => m.row.thOut ^ 2) [a t, b t]))
        (C98.wmean (fun m => m.eff * m.prob) (fun m => m.row.mom ^ 2) [a t, b t])) := by
    intro a b da db ga gb
    filter_upwards [good_near a t0 da ga, good_near b t0 db gb] with t h1 h2
    exact C98.estimate big size [a t, b t] (by simp) (by simp [h1, h2])
  have hpi := pi_pos
  have acos : ∀ (x u : Infer.MuRow → ℝ), (0 < x (a t0).row ∧ x (a t0).row < π / 2) → (0 < x (b t0).row ∧ x (b t0).row < π / 2) → 0 < u (a t0).row → 0 < u (b t0).row →
      0 < C98.wmean (C98.weight x u) (fun m => x m.row ^ 2) [a t0, b t0] ∧ sqrt (C98.wmean (C98.weight x u) (fun m => x m.row ^ 2) [a t0, b t0]) < π / 2 := by
    intro x u h1 h2 h3 h4
    have hw : ∀ m ∈ [a t0, b t0], 0 < C98.weight x u m := by
      intro m hm
      simp only [List.mem_cons, List.not_mem_nil, or_false] at hm
      rcases hm with rfl | rfl
      · exact C98.weight_pos ga.eff ga.prob h1.1 h3
      · exact C98.weight_pos gb.eff gb.prob h2.1 h4
    refine ⟨C98.wmean_pos _ _ _ (by simp) hw ?_, ?_⟩
    · intro m hm
      simp only [List.mem_cons, List.not_mem_nil, or_false] at hm
      rcases hm with rfl | rfl
      · exact pow_pos h1.1 2
      · exact pow_pos h2.1 2
    · rw [sqrt_lt' (by positivity)]
      refine C98.wmean_lt _ _ _ _ (by simp) hw ?_
      intro m hm
      simp only [List.mem_cons, List.not_mem_nil, or_false] at hm
      rcases hm with rfl | rfl
      · exact pow_lt_pow_left₀ h1.2 h1.1.le two_ne_zero
      · exact pow_lt_pow_left₀ h2.2 h2.1.le two_ne_zero
  obtain ⟨pI, cI⟩ := acos (·.thIn) (·.thInUnc) ga.thIn gb.thIn ga.thInUnc gb.thInUnc
  obtain ⟨pO, cO⟩ := acos (·.thOut) (·.thOutUnc) ga.thOut gb.thOut ga.thOutUnc gb.thOutUnc
  have hw : ∀ m ∈ [a t0, b t0], 0 < C98.weight (·.scat) (·.scatUnc) m := by
    intro m hm
    simp only [List.mem_cons, List.not_mem_nil, or_false] at hm
    rcases hm with rfl | rfl
    · exact C98.weight_pos ga.eff ga.prob ga.scat ga.scatUnc
    · exact C98.weight_pos gb.eff gb.prob gb.scat gb.scatUnc
  have hw4 : ∀ m ∈ [a t0, b t0], 0 < m.eff * m.prob := by
    intro m hm
    simp only [List.mem_cons, List.not_mem_nil, or_false] at hm
    rcases hm with rfl | rfl
    · exact mul_pos ga.eff ga.prob
    · exact mul_pos gb.eff gb.prob
  have pS : 0 < C98.wmean (C98.weight (·.scat) (·.scatUnc)) (fun m => m.row.scat ^ 2) [a t0, b t0] := C98.wmean_pos _ _ _ (by simp) hw (by
    intro m hm
    simp only [List.mem_cons, List.not_mem_nil, or_false] at hm
    rcases hm with rfl | rfl
    · exact pow_pos ga.scat 2
    · exact pow_pos gb.scat 2)
  have pM : 0 < C98.wmean (fun m => m.eff * m.prob) (fun m => m.row.mom ^ 2) [a t0, b t0] := C98.wmean_pos _ _ _ (by simp) hw4 (by
    intro m hm
    simp only [List.mem_cons, List.not_mem_nil, or_false] at hm
    rcases hm with rfl | rfl
    · exact pow_pos ga.mom 2
    · exact pow_pos gb.mom 2)
  have pcI : 0 < cos (sqrt (C98.wmean (C98.weight (·.thIn) (·.thInUnc)) (fun m => m.row.thIn ^ 2) [a t0, b t0])) :=
    cos_pos_of_mem_Ioo ⟨by have := sqrt_nonneg (C98.wmean (C98.weight (·.thIn) (·.thInUnc)) (fun m => m.row.thIn ^ 2) [a t0, b t0]); linarith, cI⟩
  have pcO : 0 < cos (sqrt (C98.wmean (C98.weight (·.thOut) (·.thOutUnc)) (fun m => m.row.thOut ^ 2) [a t0, b t0])) :=
    cos_pos_of_mem_Ioo ⟨by have := sqrt_nonneg (C98.wmean (C98.weight (·.thOut) (·.thOutUnc)) (fun m => m.row.thOut ^ 2) [a t0, b t0]); linarith, cO⟩
  have momD : ∀ a b : ℝ → C98.Seen, SeenDiff a t0 → SeenDiff b t0 → C98.Good (a t0) → C98.Good (b t0) → (a t0).row.mom = (b t0).row.mom →
      HasDerivAt (fun t => C98.wmean (fun m => m.eff * m.prob) (fun m => m.row.mom ^ 2) [a t, b t]) 0 t0 := by
    intro a b da db ga gb hm
    simp only [wmean_pair, da.mom, db.mom]
    have := ga.eff; have := ga.prob; have := gb.eff; have := gb.prob
    refine (mean_deriv _ _ _ _ t0 _ _ _ _ (da.eff.fun_mul da.prob).hasDerivAt (db.eff.fun_mul db.prob).hasDerivAt (hasDerivAt_const t0 ((a t0).row.mom ^ 2)) (hasDerivAt_const t0 ((b t0).row.mom ^ 2))
      (by positivity)).congr_deriv ?_
    rw [hm]
    simp
  have S := pair_mean (·.scat) (·.scatUnc) a b t0 da db ga gb da.scat da.scatUnc db.scat db.scatUnc ga.scat ga.scatUnc gb.scat gb.scatUnc
  have S' := pair_mean (·.scat) (·.scatUnc) a' b' t0 da' db' ga' gb' da'.scat da'.scatUnc db'.scat db'.scatUnc ga'.scat ga'.scatUnc gb'.scat gb'.scatUnc
  have I := pair_mean (·.thIn) (·.thInUnc) a b t0 da db ga gb da.thIn da.thInUnc db.thIn db.thInUnc ga.thIn.1 ga.thInUnc gb.thIn.1 gb.thInUnc
  have I' := pair_mean (·.thIn) (·.thInUnc) a' b' t0 da' db' ga' gb' da'.thIn da'.thInUnc db'.thIn db'.thInUnc ga'.thIn.1 ga'.thInUnc gb'.thIn.1 gb'.thInUnc
  have O := pair_mean (·.thOut) (·.thOutUnc) a b t0 da db ga gb da.thOut da.thOutUnc db.thOut db.thOutUnc ga.thOut.1 ga.thOutUnc gb.thOut.1 gb.thOutUnc
  have O' := pair_mean (·.thOut) (·.thOutUnc) a' b' t0 da' db' ga' gb' da'.thOut da'.thOutUnc db'.thOut db'.thOutUnc ga'.thOut.1 ga'.thOutUnc gb'.thOut.1 gb'.thOutUnc
  have F := form_deriv size _ _ _ _ t0 _ _ _ _ (momD a b da db ga gb hm) S I O pM pS pI pO (by linarith)
  have F' := form_deriv size _ _ _ _ t0 _ _ _ _ (momD a' b' da' db' ga' gb' (by rw [← sa.now, ← sb.now]; exact hm)) S' I' O' (by rw [← sa.now, ← sb.now]; exact pM) (by rw [← sa.now, ← sb.now]; exact pS)
    (by rw [← sa.now, ← sb.now]; exact pI) (by rw [← sa.now, ← sb.now]; exact pO) (by rw [← sa.now, ← sb.now]; linarith)
  refine ⟨_, _, val a b da db ga gb, val a' b' da' db' ga' gb', F.differentiableAt, F'.differentiableAt, by rw [← sa.now, ← sb.now], ?_, ?_⟩
  · have hA : 0 < scatterCoefA := by unfold scatterCoefA; norm_num
    unfold C98.fromSquares
    positivity
  rw [F.deriv, F'.deriv]
  simp only [← sa.now, ← sb.now, ← sa.scat, ← sb.scat, ← sa.thIn, ← sb.thIn, ← sa.thOut, ← sb.thOut, hs, ho, sub_self, zero_mul, zero_div, add_zero]
  have dl : (rel (·.thIn) (·.thInUnc) a t0 - rel (·.thIn) (·.thInUnc) b t0) - (rel (·.thIn) (·.thInUnc) a' t0 - rel (·.thIn) (·.thInUnc) b' t0) = lean a a' t0 - lean b b' t0 := by
    simp only [rel, lean, ← sa.now, ← sb.now, ← sa.eff, ← sb.eff, ← sa.thIn, ← sb.thIn]
    ring
  generalize C98.wmean (C98.weight (·.scat) (·.scatUnc)) (fun m => m.row.scat ^ 2) [a t0, b t0] = s0 at *
  generalize C98.wmean (C98.weight (·.thIn) (·.thInUnc)) (fun m => m.row.thIn ^ 2) [a t0, b t0] = i0 at *
  generalize C98.wmean (C98.weight (·.thOut) (·.thOutUnc)) (fun m => m.row.thOut ^ 2) [a t0, b t0] = o0 at *
  generalize C98.wmean (fun m => m.eff * m.prob) (fun m => m.row.mom ^ 2) [a t0, b t0] = m0 at *
  have wa : 0 < C98.weight (·.thIn) (·.thInUnc) (a t0) := C98.weight_pos ga.eff ga.prob ga.thIn.1 ga.thInUnc
  have wb : 0 < C98.weight (·.thIn) (·.thInUnc) (b t0) := C98.weight_pos gb.eff gb.prob gb.thIn.1 gb.thInUnc
  have hK : scatterCoefA ^ 2 * size ≠ 0 := mul_ne_zero (pow_ne_zero 2 (by unfold scatterCoefA; norm_num)) hsize.ne'
  have hq : sin (sqrt i0) ≠ 0 := (sin_pos_of_pos_of_lt_pi (sqrt_pos.mpr pI) (by linarith)).ne'
  have hq0 : sqrt i0 ≠ 0 := (sqrt_pos.mpr pI).ne'
  have hC : m0 * (s0 / 2) ≠ 0 := by positivity
  have hD : (m0 * (s0 / 2) * ((cos (sqrt i0) + cos (sqrt o0)) / 2)) ^ 2 ≠ 0 := by positivity
  have inj : ∀ K A B i1 i2 s C D q : ℝ, K ≠ 0 → C ≠ 0 → D ≠ 0 → s ≠ 0 → q ≠ 0 →
      -(K * (A + C * ((-s * (i1 / (2 * q)) + B) / 2))) / D = -(K * (A + C * ((-s * (i2 / (2 * q)) + B) / 2))) / D → i1 = i2 := by
    intro K A B i1 i2 s C D q hK hC hD hs hq h
    rw [div_left_inj' hD, neg_inj] at h
    have h1 := add_left_cancel (mul_left_cancel₀ hK h)
    have h2 := mul_left_cancel₀ hC h1
    have h3 : s * (i1 - i2) = 0 := by
      field_simp at h2
      linarith
    exact sub_eq_zero.mp ((mul_eq_zero.mp h3).resolve_left hs)
  intro heq
  have h1 := inj _ _ _ _ _ _ _ _ _ hK hC hD hq hq0 heq
  have h2 := add_left_cancel h1
  have hW : (C98.weight (·.thIn) (·.thInUnc) (a t0) + C98.weight (·.thIn) (·.thInUnc) (b t0)) ^ 2 ≠ 0 := by positivity
  rw [div_left_inj' hW] at h2
  have hf : (a t0).row.thIn ^ 2 - (b t0).row.thIn ^ 2 ≠ 0 := by
    rw [sub_ne_zero]
    exact fun h => hi ((pow_left_inj₀ ga.thIn.1.le gb.thIn.1.le two_ne_zero).mp h)
  have h3 := mul_left_cancel₀ (mul_ne_zero wa.ne' wb.ne') (mul_left_cancel₀ hf h2)
  rw [h3, sub_self] at dl
  exact hl (sub_eq_zero.mp dl.symm)

/-! ### A voxel far away -/

theorem cdf_gap (Φ : ℝ → ℝ) (hΦ : Differentiable ℝ Φ) (m s r : ℝ → ℝ) (t0 m' s' r' ε : ℝ) (hm : HasDerivAt m m' t0) (hs : HasDerivAt s s' t0) (hr : HasDerivAt r r' t0) (e : s t0 = r t0)
    (hp : s t0 + ε ≠ 0) (x : ℝ) :
    deriv (fun t => Φ ((x - m t) / (s t + ε))) t0 - deriv (fun t => Φ ((x - m t) / (r t + ε))) t0 =
      -((x - m t0) / (s t0 + ε) * deriv Φ ((x - m t0) / (s t0 + ε))) * ((s' - r') / (s t0 + ε)) := by
  have h1 := HasDerivAt.comp (h₂ := Φ) t0 (hΦ _).hasDerivAt ((hm.const_sub x).fun_div (hs.add_const ε) hp)
  have h2 := HasDerivAt.comp (h₂ := Φ) t0 (hΦ _).hasDerivAt ((hm.const_sub x).fun_div (hr.add_const ε) (by rwa [← e]))
  have e1 := h1.deriv
  have e2 := h2.deriv
  simp only [Function.comp_def] at e1 e2
  rw [e1, e2, ← e]
  field_simp
  ring

theorem far (Φ : ℝ → ℝ) (hΦ : Differentiable ℝ Φ) (ht : Tendsto (fun x => x * deriv Φ x) atTop (𝓝 0)) (m s r : ℝ → ℝ) (t0 ε : ℝ) (hm : DifferentiableAt ℝ m t0) (hs : DifferentiableAt ℝ s t0)
    (hr : DifferentiableAt ℝ r t0) (e : s t0 = r t0) (hp : 0 < s t0 + ε) (d : ℝ) :
    Tendsto (fun L => deriv (fun t => Φ ((L + d - m t) / (s t + ε))) t0 - deriv (fun t => Φ ((L + d - m t) / (r t + ε))) t0) atTop (𝓝 0) := by
  simp only [fun L => cdf_gap Φ hΦ m s r t0 _ _ _ ε hm.hasDerivAt hs.hasDerivAt hr.hasDerivAt e hp.ne' (L + d)]
  have g : Tendsto (fun L : ℝ => (L + d - m t0) / (s t0 + ε)) atTop atTop := by
    refine Tendsto.atTop_div_const hp ?_
    exact tendsto_atTop_add_const_right _ _ (tendsto_atTop_add_const_right _ _ tendsto_id)
  have := ((ht.comp g).neg).mul_const ((deriv s t0 - deriv r t0) / (s t0 + ε))
  simpa [Function.comp_def] using this

theorem far_value (Φ : ℝ → ℝ) (l : ℝ) (hl : Tendsto Φ atTop (𝓝 l)) (m σ : ℝ) (hp : 0 < σ) (d : ℝ) : Tendsto (fun L : ℝ => Φ ((L + d - m) / σ)) atTop (𝓝 l) := by
  refine hl.comp (Tendsto.atTop_div_const hp ?_)
  exact tendsto_atTop_add_const_right _ _ (tendsto_atTop_add_const_right _ _ tendsto_id)

variable {n n' : Nat}

theorem parts (lw : ℝ × ℝ) (D : Plane n n' → ℝ → Panel) (t0 : ℝ) (rs : List (Ray n n')) (hB : Batch lw D t0 rs) (r : Ray n n') (hr : r ∈ rs) (J : ℝ → Var → Plane n n' × Fin 3 → ℝ)
    (hJ : ∀ v k, DifferentiableAt ℝ (fun t => J t v k) t0) (h0 : J t0 = jacs lw D r t0) (v : Var) :
    DifferentiableAt ℝ (fun t => value lw v (hits D r t, wgts D r t)) t0 ∧ DifferentiableAt ℝ (fun t => spread (J t v) (uncs D r t)) t0 ∧ 0 < spread (J t0 v) (uncs D r t0) := by
  obtain ⟨dh, du, dw, de, pw, pu, pe, le, -⟩ := reports D t0 r hB.moving (hB.clear r hr)
  have fit := usable_fit lw hB.above hB.below _ _ pw (hB.usable r hr)
  obtain ⟨cd, -⟩ := vars_cd lw hB.above hB.below (hits D r t0, wgts D r t0) fit
  have dq : DifferentiableAt ℝ (fun t => (hits D r t, wgts D r t)) t0 := (differentiableAt_pi.mpr dh).prodMk (differentiableAt_pi.mpr dw)
  have sp : 0 < spread (J t0 v) (uncs D r t0) := by
    rw [h0]
    exact uncs_pos lw hB.above hB.below _ _ fit _ pu v
  refine ⟨DifferentiableAt.comp (f := fun t => (hits D r t, wgts D r t)) t0 ((cd v).differentiableAt (by simp)) dq, ?_, sp⟩
  unfold spread
  refine DifferentiableAt.sqrt (DifferentiableAt.fun_sum fun k _ => ((hJ v k).mul (du k)).pow 2) ?_
  exact (sqrt_pos.mp sp).ne'

theorem prob_gap (X Y R Q : ℝ → ℝ) (t0 κ : ℝ) (hX : DifferentiableAt ℝ X t0) (hY : DifferentiableAt ℝ Y t0) (hR : DifferentiableAt ℝ R t0) (hQ : DifferentiableAt ℝ Q t0) (e : X t0 = Y t0)
    (e' : R t0 = Q t0) : deriv (fun t => X t * R t + κ) t0 - deriv (fun t => Y t * Q t + κ) t0 = (deriv X t0 - deriv Y t0) * R t0 + X t0 * (deriv R t0 - deriv Q t0) := by
  rw [((hX.hasDerivAt.fun_mul hR.hasDerivAt).add_const κ).deriv, ((hY.hasDerivAt.fun_mul hQ.hasDerivAt).add_const κ).deriv, e, e']
  ring

theorem prob_lim (A B : ℝ → ℝ → ℝ) (R Q : ℝ → ℝ) (t0 κ size : ℝ) (hκ : κ ≠ 0) (dA : ∀ x, DifferentiableAt ℝ (A x) t0) (dB : ∀ x, DifferentiableAt ℝ (B x) t0) (dR : DifferentiableAt ℝ R t0)
    (dQ : DifferentiableAt ℝ Q t0) (e : ∀ x, A x t0 = B x t0) (e' : R t0 = Q t0) (h1 : Tendsto (fun L => deriv (A (L + size)) t0 - deriv (B (L + size)) t0) atTop (𝓝 0))
    (h2 : Tendsto (fun L => deriv (A L) t0 - deriv (B L) t0) atTop (𝓝 0)) (h3 : Tendsto (fun L => B (L + size) t0 - B L t0) atTop (𝓝 0)) :
    Tendsto (fun L => (deriv (fun t => (A (L + size) t - A L t) * R t + κ) t0 - deriv (fun t => (B (L + size) t - B L t) * Q t + κ) t0) / ((B (L + size) t0 - B L t0) * Q t0 + κ)) atTop (𝓝 0) := by
  have num : ∀ L, deriv (fun t => (A (L + size) t - A L t) * R t + κ) t0 - deriv (fun t => (B (L + size) t - B L t) * Q t + κ) t0 =
      (deriv (A (L + size)) t0 - deriv (B (L + size)) t0 - (deriv (A L) t0 - deriv (B L) t0)) * R t0 + (B (L + size) t0 - B L t0) * (deriv R t0 - deriv Q t0) := by
    intro L
    rw [prob_gap (fun t => A (L + size) t - A L t) (fun t => B (L + size) t - B L t) R Q t0 κ ((dA _).sub (dA _)) ((dB _).sub (dB _)) dR dQ (by rw [e, e]) e',
      ((dA (L + size)).hasDerivAt.fun_sub (dA L).hasDerivAt).deriv, ((dB (L + size)).hasDerivAt.fun_sub (dB L).hasDerivAt).deriv, e, e]
    ring
  simp only [num]
  have a := ((h1.sub h2).mul_const (R t0)).add (h3.mul_const (deriv R t0 - deriv Q t0))
  have b := (h3.mul_const (Q t0)).add_const κ
  have := a.div b (by simpa using hκ)
  rw [show ((0 - 0) * R t0 + 0 * (deriv R t0 - deriv Q t0)) / (0 * Q t0 + κ) = 0 by simp] at this
  exact this

/-- for voxels further and further away, the muon's probability stops depending on the uncertainties -/
theorem prob_far (lw : ℝ × ℝ) (Φ : ℝ → ℝ) (hΦ : Differentiable ℝ Φ) (l : ℝ) (hl : Tendsto Φ atTop (𝓝 l)) (ht : Tendsto (fun x => x * deriv Φ x) atTop (𝓝 0)) (size : ℝ) (D : Plane n n' → ℝ → Panel)
    (t0 : ℝ) (rs : List (Ray n n')) (hB : Batch lw D t0 rs) (r : Ray n n') (hr : r ∈ rs) :
    Tendsto (fun L : ℝ => (deriv (fun t => (seen lw Φ size (L, 0, 0) D r (jacs lw D r t) t).prob) t0 - deriv (fun t => (seen lw Φ size (L, 0, 0) D r (jacs lw D r t0) t).prob) t0) /
      (seen lw Φ size (L, 0, 0) D r (jacs lw D r t0) t0).prob) atTop (𝓝 0) := by
  have p1 := parts lw D t0 rs hB r hr (jacs lw D r) (jacs_diff lw D t0 rs hB r hr) rfl
  have p2 := parts lw D t0 rs hB r hr (fun _ => jacs lw D r t0) (fun _ _ => differentiableAt_const _) rfl
  have pos : ∀ v, 0 < spread (jacs lw D r t0 v) (uncs D r t0) + 1e-7 := fun v => by
    have := (p1 v).2.2
    positivity
  have d1 : ∀ v x, DifferentiableAt ℝ (fun t => Φ ((x - value lw v (hits D r t, wgts D r t)) / (spread (jacs lw D r t v) (uncs D r t) + 1e-7))) t0 := fun v x =>
    DifferentiableAt.comp (g := Φ) t0 hΦ.differentiableAt (((p1 v).1.const_sub x).fun_div ((p1 v).2.1.add_const _) (pos v).ne')
  have d2 : ∀ v x, DifferentiableAt ℝ (fun t => Φ ((x - value lw v (hits D r t, wgts D r t)) / (spread (jacs lw D r t0 v) (uncs D r t) + 1e-7))) t0 := fun v x =>
    DifferentiableAt.comp (g := Φ) t0 hΦ.differentiableAt (((p2 v).1.const_sub x).fun_div ((p2 v).2.1.add_const _) (pos v).ne')
  have near : Tendsto (fun L : ℝ => Φ ((L + size - value lw .pocaX (hits D r t0, wgts D r t0)) / (spread (jacs lw D r t0 .pocaX) (uncs D r t0) + 1e-7)) -
      Φ ((L - value lw .pocaX (hits D r t0, wgts D r t0)) / (spread (jacs lw D r t0 .pocaX) (uncs D r t0) + 1e-7))) atTop (𝓝 0) := by
    have := (far_value Φ l hl (value lw .pocaX (hits D r t0, wgts D r t0)) _ (pos .pocaX) size).sub (far_value Φ l hl (value lw .pocaX (hits D r t0, wgts D r t0)) _ (pos .pocaX) 0)
    simpa using this
  have s1 := far Φ hΦ ht _ _ _ t0 1e-7 (p1 .pocaX).1 (p1 .pocaX).2.1 (p2 .pocaX).2.1 rfl (pos _) size
  have s2 := far Φ hΦ ht _ _ _ t0 1e-7 (p1 .pocaX).1 (p1 .pocaX).2.1 (p2 .pocaX).2.1 rfl (pos _) 0
  simp only [add_zero] at s2
  have := prob_lim (fun x t => Φ ((x - value lw .pocaX (hits D r t, wgts D r t)) / (spread (jacs lw D r t .pocaX) (uncs D r t) + 1e-7)))
    (fun x t => Φ ((x - value lw .pocaX (hits D r t, wgts D r t)) / (spread (jacs lw D r t0 .pocaX) (uncs D r t) + 1e-7))) _ _ t0 1e-15 size (by norm_num) (d1 .pocaX) (d2 .pocaX)
    (((d1 .pocaY (0 + size)).fun_sub (d1 .pocaY 0)).fun_mul ((d1 .pocaZ (0 + size)).fun_sub (d1 .pocaZ 0))) (((d2 .pocaY (0 + size)).fun_sub (d2 .pocaY 0)).fun_mul ((d2 .pocaZ (0 + size)).fun_sub (d2 .pocaZ 0)))
    (fun _ => rfl) rfl s1 s2 near
  simpa only [seen, told, Told.seen, Infer.voxelProb, muRow, mul_assoc] using this

/-! ### The case of four panels -/

/-- what the voxel sees, with the Jacobians there are -/
def live (lw : ℝ × ℝ) (Φ : ℝ → ℝ) (size L c t : ℝ) : C98.Seen := seen lw Φ size (L, 0, 0) four (shot c) (jacs lw four (shot c) t) t

/-- what the voxel sees, with the Jacobians there were -/
def stale (lw : ℝ × ℝ) (Φ : ℝ → ℝ) (size L c t : ℝ) : C98.Seen := seen lw Φ size (L, 0, 0) four (shot c) (jacs lw four (shot c) 0) t

theorem lean_far (lw : ℝ × ℝ) (Φ : ℝ → ℝ) (hΦ : Differentiable ℝ Φ) (l : ℝ) (hl : Tendsto Φ atTop (𝓝 l)) (ht : Tendsto (fun x => x * deriv Φ x) atTop (𝓝 0)) (size c : ℝ) (hc : 0 < c) (hc2 : c ≠ 2) :
    Tendsto (fun L => lean (live lw Φ size L c) (stale lw Φ size L c) 0) atTop (𝓝 (-((c ^ 2 - 4) / (c ^ 2 + 4)))) := by
  have hB := four_batch lw [c] (by simp) (by simpa using ⟨hc, hc2⟩)
  have h1 := prob_far lw Φ hΦ l hl ht size four 0 _ hB (shot c) (by simp)
  have near : ∀ᶠ t in 𝓝 (0 : ℝ), -1 < t ∧ c ≠ 2 + t := by
    refine (lt_mem_nhds (by norm_num)).and ?_
    have : Tendsto (fun t : ℝ => 2 + t) (𝓝 0) (𝓝 2) := by
      have : ContinuousAt (fun t : ℝ => 2 + t) 0 := by fun_prop
      simpa [ContinuousAt] using this
    filter_upwards [this.eventually_ne (Ne.symm hc2)] with t ht
    exact Ne.symm ht
  have hu : HasDerivAt (fun t => spread (jacs lw four (shot c) t .thIn) (uncs four (shot c) t)) (sqrt 2 * ((c ^ 2 - 4) / (c ^ 2 + 4) ^ 2)) 0 := by
    have hd : HasDerivAt (fun t : ℝ => sqrt 2 * ((2 + t) / (c ^ 2 + (2 + t) ^ 2))) (sqrt 2 * ((c ^ 2 - 4) / (c ^ 2 + 4) ^ 2)) 0 := by
      have a : HasDerivAt (fun t : ℝ => 2 + t) 1 0 := by simpa using (hasDerivAt_id (0 : ℝ)).const_add 2
      refine ((a.fun_div ((a.fun_pow 2).const_add (c ^ 2)) (by positivity)).const_mul (sqrt 2)).congr_deriv ?_
      norm_num
      ring
    refine hd.congr_of_eventuallyEq ?_
    filter_upwards [near] with t ht
    exact four_thIn lw c t ht.1 hc ht.2
  have hv : ∀ t, spread (jacs lw four (shot c) 0 .thIn) (uncs four (shot c) t) = spread (jacs lw four (shot c) 0 .thIn) (uncs four (shot c) 0) := fun t => by rw [four_uncs, four_uncs]
  have h0 := four_thIn lw c 0 (by norm_num) hc (by simpa using hc2)
  have e : ∀ L, lean (live lw Φ size L c) (stale lw Φ size L c) 0 =
      (deriv (fun t => (seen lw Φ size (L, 0, 0) four (shot c) (jacs lw four (shot c) t) t).prob) 0 - deriv (fun t => (seen lw Φ size (L, 0, 0) four (shot c) (jacs lw four (shot c) 0) t).prob) 0) /
        (seen lw Φ size (L, 0, 0) four (shot c) (jacs lw four (shot c) 0) 0).prob - (c ^ 2 - 4) / (c ^ 2 + 4) := by
    intro L
    unfold lean live stale
    congr 1
    have e1 : (fun t => (seen lw Φ size (L, 0, 0) four (shot c) (jacs lw four (shot c) t) t).row.thInUnc) = fun t => spread (jacs lw four (shot c) t .thIn) (uncs four (shot c) t) := rfl
    have e2 : (fun t => (seen lw Φ size (L, 0, 0) four (shot c) (jacs lw four (shot c) 0) t).row.thInUnc) = fun _ => spread (jacs lw four (shot c) 0 .thIn) (uncs four (shot c) 0) := funext hv
    have e3 : (seen lw Φ size (L, 0, 0) four (shot c) (jacs lw four (shot c) 0) 0).row.thInUnc = spread (jacs lw four (shot c) 0 .thIn) (uncs four (shot c) 0) := rfl
    rw [e1, e2, e3, hu.deriv, deriv_const, h0]
    have : sqrt 2 ≠ 0 := by positivity
    have : c ^ 2 + 4 ≠ 0 := by positivity
    norm_num
    field_simp
  simp only [e]
  simpa using h1.sub_const ((c ^ 2 - 4) / (c ^ 2 + 4))

theorem four_values (lw : ℝ × ℝ) (c : ℝ) (hc : 0 < c) (hc2 : c ≠ 2) :
    value lw .scat (hits four (shot c) 0, wgts four (shot c) 0) = arccos ((c + 2) / (sqrt (c ^ 2 + 4) * sqrt 2)) ∧
    value lw .thIn (hits four (shot c) 0, wgts four (shot c) 0) = arccos (2 / sqrt (c ^ 2 + 4)) ∧ value lw .thOut (hits four (shot c) 0, wgts four (shot c) 0) = arccos (1 / sqrt 2) := by
  have hf := four_fit c 0 (by norm_num) hc (by simpa using hc2)
  obtain ⟨e1, e2⟩ := four_tracks c 0 (by norm_num)
  obtain ⟨-, -, -, -, near⟩ := vars_cd lw le_rfl le_rfl (hits four (shot c) 0, fun _ => 1) hf
  obtain ⟨-, -, h1, h2, h3⟩ := near.self_of_nhds
  simp only [e1, e2] at h1 h2 h3
  rw [four_wgts]
  refine ⟨?_, ?_, ?_⟩
  · unfold thetaMsc at h1
    split at h1
    · exact absurd h1 (by simp)
    · simp only [Option.some.injEq] at h1
      rw [← h1]
      simp only [vdot, vnorm]
      congr 2
      · ring
      · congr 2 <;> ring
  · rw [thetaOf_eq _ _ h2]
    simp only [vdot, vnorm]
    congr 2
    · ring
    · congr 1
      ring
  · rw [thetaOf_eq _ _ h3]
    simp only [vdot, vnorm]
    congr 2
    · ring
    · congr 1
      ring

theorem seen_eff (lw : ℝ × ℝ) (Φ : ℝ → ℝ) (size : ℝ) (low : ℝ × ℝ × ℝ) (D : Plane n n' → ℝ → Panel) (r : Ray n n') (J : Var → Plane n n' × Fin 3 → ℝ) (t : ℝ) :
    (seen lw Φ size low D r J t).eff = eff D r t := rfl

theorem seen_row (lw : ℝ × ℝ) (Φ : ℝ → ℝ) (size : ℝ) (low : ℝ × ℝ × ℝ) (D : Plane n n' → ℝ → Panel) (r : Ray n n') (J : Var → Plane n n' × Fin 3 → ℝ) (t : ℝ) :
    (seen lw Φ size low D r J t).row.scat = value lw .scat (hits D r t, wgts D r t) ∧ (seen lw Φ size low D r J t).row.thIn = value lw .thIn (hits D r t, wgts D r t) ∧
    (seen lw Φ size low D r J t).row.thOut = value lw .thOut (hits D r t, wgts D r t) ∧ (seen lw Φ size low D r J t).row.mom = r.mom := ⟨rfl, rfl, rfl, rfl⟩

theorem live_same (lw : ℝ × ℝ) (Φ : ℝ → ℝ) (size L c : ℝ) : Same (live lw Φ size L c) (stale lw Φ size L c) 0 :=
  ⟨rfl, fun t => (seen_eff ..).trans (seen_eff ..).symm, fun t => (seen_row ..).1.trans (seen_row ..).1.symm, fun t => (seen_row ..).2.1.trans (seen_row ..).2.1.symm,
    fun t => (seen_row ..).2.2.1.trans (seen_row ..).2.2.1.symm, fun t => (seen_row ..).2.2.2.trans (seen_row ..).2.2.2.symm⟩

theorem live_good (lw : ℝ × ℝ) (Φ : ℝ → ℝ) (hΦ : Differentiable ℝ Φ) (hm : Monotone Φ) (size : ℝ) (hsize : 0 < size) (L c : ℝ) (hc : 0 < c) (hc2 : c ≠ 2) :
    SeenDiff (live lw Φ size L c) 0 ∧ SeenDiff (stale lw Φ size L c) 0 ∧ C98.Good (live lw Φ size L c 0) := by
  have hB := four_batch lw [c] (by simp) (by simpa using ⟨hc, hc2⟩)
  have m : shot c ∈ [c].map shot := by simp
  have a := observed lw Φ hΦ hm size hsize.le (L, 0, 0) four 0 _ hB (shot c) m (jacs lw four (shot c)) (jacs_diff lw four 0 _ hB _ m) rfl
  have a' := observed lw Φ hΦ hm size hsize.le (L, 0, 0) four 0 _ hB (shot c) m (fun _ => jacs lw four (shot c) 0) (fun _ _ => differentiableAt_const _) rfl
  exact ⟨a.1, a'.1, a.2⟩

theorem live_row (lw : ℝ × ℝ) (Φ : ℝ → ℝ) (size L c : ℝ) (hc : 0 < c) (hc2 : c ≠ 2) : (live lw Φ size L c 0).row.scat = arccos ((c + 2) / (sqrt (c ^ 2 + 4) * sqrt 2)) ∧
    (live lw Φ size L c 0).row.thIn = arccos (2 / sqrt (c ^ 2 + 4)) ∧ (live lw Φ size L c 0).row.thOut = arccos (1 / sqrt 2) ∧ (live lw Φ size L c 0).row.mom = 1 := by
  obtain ⟨a, b, d⟩ := four_values lw c hc hc2
  exact ⟨a, b, d, rfl⟩

theorem four_gap (lw : ℝ × ℝ) (Φ : ℝ → ℝ) (hΦ : Differentiable ℝ Φ) (hm : Monotone Φ) (l : ℝ) (hl : Tendsto Φ atTop (𝓝 l)) (ht : Tendsto (fun x => x * deriv Φ x) atTop (𝓝 0)) (big size : ℝ)
    (hsize : 0 < size) : ∃ L : ℝ, ∃ f g : ℝ → ℝ, (∀ᶠ t in 𝓝 0, C98.predicted big size [live lw Φ size L 1 t, live lw Φ size L 4 t] = .num (f t)) ∧
      (∀ᶠ t in 𝓝 0, C98.predicted big size [stale lw Φ size L 1 t, stale lw Φ size L 4 t] = .num (g t)) ∧ DifferentiableAt ℝ f 0 ∧ DifferentiableAt ℝ g 0 ∧ f 0 = g 0 ∧ 0 < f 0 ∧ deriv f 0 ≠ deriv g 0 := by
  have l1 := lean_far lw Φ hΦ l hl ht size 1 (by norm_num) (by norm_num)
  have l4 := lean_far lw Φ hΦ l hl ht size 4 (by norm_num) (by norm_num)
  obtain ⟨L, hL⟩ := ((l1.sub l4).eventually_ne (show -(((1 : ℝ) ^ 2 - 4) / (1 ^ 2 + 4)) - -(((4 : ℝ) ^ 2 - 4) / (4 ^ 2 + 4)) ≠ 0 by norm_num)).exists
  obtain ⟨s1, i1, o1, k1⟩ := live_row lw Φ size L 1 (by norm_num) (by norm_num)
  obtain ⟨s4, i4, o4, k4⟩ := live_row lw Φ size L 4 (by norm_num) (by norm_num)
  obtain ⟨a, a', ga⟩ := live_good lw Φ hΦ hm size hsize L 1 (by norm_num) (by norm_num)
  obtain ⟨b, b', gb⟩ := live_good lw Φ hΦ hm size hsize L 4 (by norm_num) (by norm_num)
  have r20 : sqrt (20 : ℝ) = 2 * sqrt 5 := by
    rw [show (20 : ℝ) = 2 ^ 2 * 5 by norm_num, sqrt_mul (by norm_num), sqrt_sq (by norm_num)]
  have p5 : 0 < sqrt (5 : ℝ) := by positivity
  refine ⟨L, gap big size hsize (live lw Φ size L 1) (live lw Φ size L 4) (stale lw Φ size L 1) (stale lw Φ size L 4) 0 a b a' b' ga gb (live_same ..) (live_same ..) ?_ (by rw [o1, o4]) (by rw [k1, k4])
    ?_ (sub_ne_zero.mp hL)⟩
  · rw [s1, s4]
    norm_num [r20]
    congr 1
    field_simp
    norm_num
  · rw [i1, i4]
    norm_num [r20]
    intro h
    have s5 : 2 < sqrt (5 : ℝ) := lt_sqrt_of_sq_lt (by norm_num)
    have q1 : 0 < 2 / sqrt (5 : ℝ) := by positivity
    have q2 : 0 < 2 / (2 * sqrt (5 : ℝ)) := by positivity
    have q3 : 2 / sqrt (5 : ℝ) ≤ 1 := by rw [div_le_one p5]; exact s5.le
    have q4 : 2 / (2 * sqrt (5 : ℝ)) ≤ 1 := by rw [div_le_one (by positivity)]; linarith
    have := arccos_injOn ⟨by linarith, q3⟩ ⟨by linarith, q4⟩ h
    field_simp at this
    norm_num at this

end C121

end

end Tomopt
