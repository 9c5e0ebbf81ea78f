import Verif.Lemmas.Weighted
import Verif.Props.C15_18
import Verif.Spec.Infer

/- C37-C39, C71: weighted averages, inversion of the scattering model, voxel order and voxel probabilities. -/
namespace Tomopt

noncomputable section

open Real Infer

namespace C37

/-- **C37, mean.** Between the smallest and the largest value. -/
theorem mean_bounds (xs ws : List ℝ) (hl : xs.length = ws.length) (hw : ∀ w ∈ ws, 0 ≤ w) (hs : 0 < ws.sum) (lo hi : ℝ) (hx : ∀ x ∈ xs, lo ≤ x ∧ x ≤ hi) :
    ∃ m, weightedMean xs ws = some m ∧ lo ≤ m ∧ m ≤ hi := by
  obtain ⟨h1, h2⟩ := wsum_bounds (fun x => x) lo hi xs ws hl hw hx
  refine ⟨_, by rw [weightedMean, if_neg hs.ne'], ?_, ?_⟩
  · rw [le_div_iff₀ hs]; exact h1
  · rw [div_le_iff₀ hs]; exact h2

/-- **C37, RMS.** Between the smallest and the largest magnitude. -/
theorem rms_bounds (xs ws : List ℝ) (hl : xs.length = ws.length) (hw : ∀ w ∈ ws, 0 ≤ w) (hs : 0 < ws.sum) (lo hi : ℝ) (h0 : 0 ≤ lo)
    (hx : ∀ x ∈ xs, lo ≤ |x| ∧ |x| ≤ hi) (hhi : 0 ≤ hi) : ∃ m, weightedRms xs ws = some m ∧ lo ≤ m ∧ m ≤ hi := by
  obtain ⟨h1, h2⟩ := wsum_bounds (fun x => x ^ 2) (lo ^ 2) (hi ^ 2) xs ws hl hw (by
    intro x hxm
    obtain ⟨a, b⟩ := hx x hxm
    rw [← sq_abs x]
    exact ⟨pow_le_pow_left₀ h0 a 2, pow_le_pow_left₀ (abs_nonneg x) b 2⟩)
  refine ⟨_, by rw [weightedRms, if_neg hs.ne'], ?_, ?_⟩
  · apply le_sqrt_of_sq_le; rw [le_div_iff₀ hs]; exact h1
  · apply sqrt_le_iff.mpr
    exact ⟨hhi, by rw [div_le_iff₀ hs]; exact h2⟩

/-- Scaling all weights changes neither; weights that sum to zero give NaN. -/
theorem scale (xs ws : List ℝ) (k : ℝ) (hk : k ≠ 0) : weightedMean xs (ws.map (k * ·)) = weightedMean xs ws ∧ weightedRms xs (ws.map (k * ·)) = weightedRms xs ws := by
  constructor
  · unfold weightedMean
    have := wsum_scale (fun x => x) k xs ws
    rw [sum_scale, this]
    by_cases h : ws.sum = 0
    · simp [h]
    · rw [if_neg (mul_ne_zero hk h), if_neg h, mul_div_mul_left _ _ hk]
  · unfold weightedRms
    rw [sum_scale, wsum_scale (fun x => x ^ 2)]
    by_cases h : ws.sum = 0
    · simp [h]
    · rw [if_neg (mul_ne_zero hk h), if_neg h, mul_div_mul_left _ _ hk]

theorem zero_weights (xs ws : List ℝ) (h : ws.sum = 0) : weightedMean xs ws = none ∧ weightedRms xs ws = none := by
  simp [weightedMean, weightedRms, h]

/-- weights for one variable, as used for a voxel -/
theorem weights_pos (big : ℝ) (hb : 0 < big) (effs ps vars : List ℝ) (he : ∀ e ∈ effs, 0 < e) (hp : ∀ p ∈ ps, 0 < p) (hv : ∀ v ∈ vars, 0 ≤ v) :
    ∀ w ∈ List.zipWith (fun w v => nanToNum big (XF.quot w v)) (List.zipWith (· * ·) effs ps) vars, 0 < w := by
  intro w hw
  obtain ⟨a, ha, v, hv', rfl⟩ := zipWith_mem hw
  obtain ⟨e, he', p, hp', rfl⟩ := zipWith_mem ha
  exact weight_pos big _ _ hb (mul_pos (he e he') (hp p hp')) (hv v hv')

/-- what is known of the muons that a filtered scatter batch holds: they scattered, travel downwards and have momentum -/
structure Sane (r : MuRow) : Prop where
  scat : 0 < r.scat
  thIn : 0 ≤ r.thIn ∧ r.thIn < π / 2
  thOut : 0 ≤ r.thOut ∧ r.thOut < π / 2
  mom : 0 < r.mom

theorem rms_pos (xs ws : List ℝ) (hl : xs.length = ws.length) (hne : ws ≠ []) (hw : ∀ w ∈ ws, 0 < w) (hx : ∀ x ∈ xs, 0 < x) :
    ∃ m, weightedRms xs ws = some m ∧ 0 < m := by
  have hs := sum_pos' ws hne hw
  refine ⟨_, by rw [weightedRms, if_neg hs.ne'], ?_⟩
  exact sqrt_pos.mpr (div_pos (wsum_pos (fun x => x ^ 2) xs ws hl hne hw fun x h => by have := hx x h; positivity) hs)

theorem rms_lt (xs ws : List ℝ) (hl : xs.length = ws.length) (hne : ws ≠ []) (hw : ∀ w ∈ ws, 0 < w) (hi : ℝ) (hx : ∀ x ∈ xs, 0 ≤ x ∧ x < hi) (hhi : 0 < hi) :
    ∃ m, weightedRms xs ws = some m ∧ 0 ≤ m ∧ m < hi := by
  have hs := sum_pos' ws hne hw
  refine ⟨_, by rw [weightedRms, if_neg hs.ne'], sqrt_nonneg _, ?_⟩
  rw [sqrt_lt' hhi, div_lt_iff₀ hs]
  exact wsum_lt (fun x => x ^ 2) (hi ^ 2) xs ws hl hne hw fun x h => by
    obtain ⟨a, b⟩ := hx x h
    exact pow_lt_pow_left₀ b a (by norm_num)

/-- **A prediction is a positive number**: with at least one sane muon, positive efficiencies and probabilities, every voxel gets a finite positive X0, so
that the NaN error is not raised. -/
theorem prediction_positive (big size : ℝ) (hb : 0 < big) (hsz : 0 < size) (rows : List MuRow) (effs ps : List ℝ) (hne : rows ≠ [])
    (h1 : effs.length = rows.length) (h2 : ps.length = rows.length) (he : ∀ e ∈ effs, 0 < e) (hp : ∀ p ∈ ps, 0 < p) (hr : ∀ r ∈ rows, Sane r) :
    ∃ x, voxelX0 big size rows effs ps = .num x ∧ 0 < x := by
  have hw : ∀ vars : List ℝ, vars.length = rows.length → (∀ v ∈ vars, 0 ≤ v) → ∀ ws, ws = List.zipWith (fun w v => nanToNum big (XF.quot w v)) (List.zipWith (· * ·) effs ps) vars →
      ws.length = rows.length ∧ ws ≠ [] ∧ ∀ w ∈ ws, 0 < w := by
    intro vars hl hv ws hws
    have hlen : ws.length = rows.length := by rw [hws]; simp [h1, h2, hl]
    refine ⟨hlen, ?_, ?_⟩
    · intro h0; rw [h0] at hlen; simp at hlen; exact hne (List.eq_nil_of_length_eq_zero hlen.symm)
    · rw [hws]; exact weights_pos big hb effs ps vars he hp hv
  have sq : ∀ f g : MuRow → ℝ, ∀ v ∈ rows.map (fun r => sqVar (f r) (g r)), 0 ≤ v := by
    intro f g v hv
    simp only [List.mem_map] at hv
    obtain ⟨r, _, rfl⟩ := hv
    exact sq_nonneg _
  obtain ⟨a1, a2, a3⟩ := hw (rows.map fun r => sqVar r.scat r.scatUnc) (by simp) (sq (·.scat) (·.scatUnc)) _ rfl
  obtain ⟨b1, b2, b3⟩ := hw (rows.map fun r => sqVar r.thIn r.thInUnc) (by simp) (sq (·.thIn) (·.thInUnc)) _ rfl
  obtain ⟨c1, c2, c3⟩ := hw (rows.map fun r => sqVar r.thOut r.thOutUnc) (by simp) (sq (·.thOut) (·.thOutUnc)) _ rfl
  obtain ⟨s, hs, hs0⟩ := rms_pos (rows.map (·.scat)) _ (by rw [a1]; simp) a2 a3 (by
    intro x hx; simp only [List.mem_map] at hx; obtain ⟨r, hr', rfl⟩ := hx; exact (hr r hr').scat)
  obtain ⟨i, hi, hi0, hi1⟩ := rms_lt (rows.map (·.thIn)) _ (by rw [b1]; simp) b2 b3 (π / 2) (by
    intro x hx; simp only [List.mem_map] at hx; obtain ⟨r, hr', rfl⟩ := hx; exact (hr r hr').thIn) (by positivity)
  obtain ⟨o, ho, ho0, ho1⟩ := rms_lt (rows.map (·.thOut)) _ (by rw [c1]; simp) c2 c3 (π / 2) (by
    intro x hx; simp only [List.mem_map] at hx; obtain ⟨r, hr', rfl⟩ := hx; exact (hr r hr').thOut) (by positivity)
  have hmom : ∃ m, weightedRms (rows.map (·.mom)) (List.zipWith (fun w v => nanToNum big (XF.quot w v)) (List.zipWith (· * ·) effs ps)
      (if (rows.map fun r => sqVar r.mom r.momUnc).all (fun v => decide (v = 0)) then rows.map (fun _ => 1) else rows.map fun r => sqVar r.mom r.momUnc)) = some m ∧ 0 < m := by
    have hv : ∀ v ∈ (if (rows.map fun r => sqVar r.mom r.momUnc).all (fun v => decide (v = 0)) then rows.map (fun _ => 1) else rows.map fun r => sqVar r.mom r.momUnc), (0:ℝ) ≤ v := by
      split
      · intro v hv; simp only [List.mem_map] at hv; obtain ⟨_, _, rfl⟩ := hv; norm_num
      · exact sq (·.mom) (·.momUnc)
    obtain ⟨d1, d2, d3⟩ := hw _ (by split <;> simp) hv _ rfl
    exact rms_pos _ _ (by rw [d1]; simp) d2 d3 (by
      intro x hx; simp only [List.mem_map] at hx; obtain ⟨r, hr', rfl⟩ := hx; exact (hr r hr').mom)
  obtain ⟨m, hm, hm0⟩ := hmom
  unfold voxelX0
  simp only [hs, hi, ho, hm]
  have hc : 0 < (cos i + cos o) / 2 := by
    have := cos_pos_of_mem_Ioo ⟨by linarith, hi1⟩
    have := cos_pos_of_mem_Ioo ⟨by linarith, ho1⟩
    linarith
  have hd : 0 < (s / sqrt 2) ^ 2 * ((cos i + cos o) / 2) := by positivity
  refine ⟨(scatterCoefA / m) ^ 2 * size / ((s / sqrt 2) ^ 2 * ((cos i + cos o) / 2)), ?_, ?_⟩
  · simp only [x0FromScatters, XF.quot, hm0.ne', ne_eq, not_false_eq_true, if_true, xsq, xmulR, XF.div, hd.ne']
  · have : (0:ℝ) < scatterCoefA := by norm_num [scatterCoefA]
    positivity

/-- Without any muon left the prediction raises. -/
theorem no_muons (big size : ℝ) (shp : Nat × Nat × Nat) (h1 : 0 < shp.1) (h2 : 0 < shp.2.1) (h3 : 0 < shp.2.2) :
    voxelPreds big size shp [] [] [] = .error .valueError := by
  have : ∀ ps, voxelX0 big size [] [] ps = .nan := by
    intro ps; simp [voxelX0, weightedRms]
  unfold voxelPreds
  simp only [this]
  rw [if_pos]
  obtain ⟨a, b, c⟩ := shp
  simp only at h1 h2 h3
  simp only [List.any_eq_true, List.mem_map, List.mem_range]
  exact ⟨_, ⟨0, h3, rfl⟩, _, List.mem_map.mpr ⟨0, List.mem_range.mpr h1, rfl⟩, _, List.mem_map.mpr ⟨0, List.mem_range.mpr h2, rfl⟩, rfl⟩

example : ∃ m, weightedRms [3, -4] [1, 1] = some m ∧ 3 ≤ m ∧ m ≤ 4 :=
  rms_bounds [3, -4] [1, 1] rfl (by simp) (by norm_num) 3 4 (by norm_num) (by intro x hx; simp at hx; rcases hx with rfl | rfl <;> norm_num) (by norm_num)

end C37

namespace C38

/-- the first-order scattering angle of layer.py 279-286, without the logarithm -/
def theta0FirstOrder (x0 mom step : ℝ) : ℝ := (scatterCoefA / mom) * sqrt (step / x0)

theorem A_pos : (0:ℝ) < scatterCoefA := by norm_num [scatterCoefA]

theorem invert_aux (x0 mom th dz k : ℝ) (hx : 0 < x0) (hm : 0 < mom) (hc : 0 < cos th) (hd : 0 < dz) (hk : k ≠ 0) :
    x0FromScatters dz (theta0FirstOrder x0 mom (dz / cos th) * k) th th mom = .num (x0 / k ^ 2) := by
  have hs : sqrt (dz / cos th / x0) ^ 2 = dz / cos th / x0 := sq_sqrt (by positivity)
  have hA := A_pos
  have hden : (theta0FirstOrder x0 mom (dz / cos th) * k) ^ 2 * ((cos th + cos th) / 2) ≠ 0 := by
    unfold theta0FirstOrder
    rw [mul_pow, mul_pow, hs]
    have : (cos th + cos th) / 2 = cos th := by ring
    rw [this]
    positivity
  simp only [x0FromScatters, XF.quot, hm.ne', ne_eq, not_false_eq_true, if_true, xsq, xmulR, XF.div, hden, XF.num.injEq]
  unfold theta0FirstOrder
  rw [mul_pow, mul_pow, hs]
  have : (cos th + cos th) / 2 = cos th := by ring
  rw [this]
  field_simp

/-- **C38.** Inverting the first-order formula gives back the radiation length. -/
theorem inverts (x0 mom th dz : ℝ) (hx : 0 < x0) (hm : 0 < mom) (hc : 0 < cos th) (hd : 0 < dz) :
    x0FromScatters dz (theta0FirstOrder x0 mom (dz / cos th)) th th mom = .num x0 := by
  have := invert_aux x0 mom th dz 1 hx hm hc hd one_ne_zero
  simpa using this

/-- With the angle of the simulation itself (`pdgTheta0`), the result is off by exactly the square of the logarithmic factor. -/
theorem with_log (x0 mom th dz : ℝ) (hx : 0 < x0) (hm : 0 < mom) (hc : 0 < cos th) (hd : 0 < dz) (hk : 1 + scatterCoefB * log (dz / cos th / x0) ≠ 0) :
    x0FromScatters dz (pdgTheta0 x0 mom (dz / cos th)) th th mom = .num (x0 / (1 + scatterCoefB * log (dz / cos th / x0)) ^ 2) := by
  rw [← invert_aux x0 mom th dz _ hx hm hc hd hk]
  rfl

/-- **C38, a voxel.** If all muons cross the voxel at the same angle with the same momentum and their total (two projections) scatter is the first-order
one, the voxel is predicted to have exactly the radiation length, whatever the efficiencies, probabilities and uncertainties. -/
theorem voxel_inverts (big size : ℝ) (hb : 0 < big) (hsz : 0 < size) (rows : List MuRow) (effs ps : List ℝ) (hne : rows ≠ [])
    (h1 : effs.length = rows.length) (h2 : ps.length = rows.length) (he : ∀ e ∈ effs, 0 < e) (hp : ∀ p ∈ ps, 0 < p) (x0 mom th : ℝ) (hx : 0 < x0) (hm : 0 < mom)
    (hth : 0 ≤ th) (hc : 0 < cos th)
    (hr : ∀ r ∈ rows, r.scat = sqrt 2 * theta0FirstOrder x0 mom (size / cos th) ∧ r.thIn = th ∧ r.thOut = th ∧ r.mom = mom) :
    voxelX0 big size rows effs ps = .num x0 := by
  have hconst : ∀ (f : MuRow → ℝ) (c : ℝ) (vars : List ℝ), 0 ≤ c → (∀ r ∈ rows, f r = c) → vars.length = rows.length → (∀ v ∈ vars, 0 ≤ v) →
      weightedRms (rows.map f) (List.zipWith (fun w v => nanToNum big (XF.quot w v)) (List.zipWith (· * ·) effs ps) vars) = some c := by
    intro f c vars h0 hf hl hv
    generalize hws : List.zipWith (fun w v => nanToNum big (XF.quot w v)) (List.zipWith (· * ·) effs ps) vars = ws
    have hlen : ws.length = rows.length := by rw [← hws]; simp [h1, h2, hl]
    have hne' : ws ≠ [] := by intro h; rw [h] at hlen; simp at hlen; exact hne (List.eq_nil_of_length_eq_zero hlen.symm)
    have hs := sum_pos' ws hne' (by rw [← hws]; exact C37.weights_pos big hb effs ps vars he hp hv)
    rw [weightedRms, if_neg hs.ne', wsum_const (c ^ 2) (fun x => x ^ 2) _ _ (by simp [hlen]) (by
      intro x hx'; simp only [List.mem_map] at hx'; obtain ⟨r, hr', rfl⟩ := hx'; rw [hf r hr']), mul_div_assoc, div_self hs.ne', mul_one, sqrt_sq h0]
  have sq : ∀ f g : MuRow → ℝ, ∀ v ∈ rows.map (fun r => sqVar (f r) (g r)), 0 ≤ v := by
    intro f g v hv
    simp only [List.mem_map] at hv
    obtain ⟨r, _, rfl⟩ := hv
    exact sq_nonneg _
  have hA := A_pos
  have hpos : 0 ≤ sqrt 2 * theta0FirstOrder x0 mom (size / cos th) := by unfold theta0FirstOrder; positivity
  unfold voxelX0
  simp only
  rw [hconst (·.scat) _ _ hpos (fun r hr' => (hr r hr').1) (by simp) (sq (·.scat) (·.scatUnc)), hconst (·.thIn) th _ hth (fun r hr' => (hr r hr').2.1) (by simp) (sq (·.thIn) (·.thInUnc)),
    hconst (·.thOut) th _ hth (fun r hr' => (hr r hr').2.2.1) (by simp) (sq (·.thOut) (·.thOutUnc)), hconst (·.mom) mom _ hm.le (fun r hr' => (hr r hr').2.2.2) (by split <;> simp) (by
      split
      · intro v hv; simp only [List.mem_map] at hv; obtain ⟨_, _, rfl⟩ := hv; norm_num
      · exact sq (·.mom) (·.momUnc))]
  simp only
  rw [mul_div_cancel_left₀ _ (by positivity : sqrt (2:ℝ) ≠ 0)]
  exact inverts x0 mom th size hx hm hc hsz

end C38

namespace C39

variable {V : Volume} {s zb : ℝ} {nx ny nz : Nat} {mat : Nat → Nat → Nat → ℝ}

theorem reshape_get {β : Type} (a b c : Nat) (l : List β) (h : l.length = a * b * c) :
    ∃ t, reshape3 a b c l = .ok t ∧ t.length = a ∧ ∀ i < a, ∃ ti, t[i]? = some ti ∧ ti.length = b ∧ ∀ j < b, ∃ tj, ti[j]? = some tj ∧ tj.length = c ∧
      ∀ k < c, tj[k]? = l[(i * b + j) * c + k]? := by
  refine ⟨_, by rw [reshape3, if_pos h], by simp, ?_⟩
  intro i hi
  refine ⟨(List.range b).map fun j => (l.drop ((i * b + j) * c)).take c, by simp [hi], by simp, ?_⟩
  intro j hj
  have hb1 : (i * b + j) * c + c ≤ a * b * c := by
    calc (i * b + j) * c + c = (i * b + (j + 1)) * c := by ring
      _ ≤ (i * b + b) * c := Nat.mul_le_mul_right c (by omega)
      _ = (i + 1) * b * c := by ring
      _ ≤ a * b * c := Nat.mul_le_mul_right c (Nat.mul_le_mul_right b hi)
  refine ⟨(l.drop ((i * b + j) * c)).take c, by simp [hj], by simp; omega, ?_⟩
  intro k hk
  rw [List.getElem?_take_of_lt hk, List.getElem?_drop]

/-- **C39, probabilities.** For a block of voxels (bottom a whole number of voxels above zero): entry (k, i, j) of the tensor of a muon is the product of
three interval probabilities of voxel (i, j, k) - the one `i` voxels along x, `j` along y and `k` above the bottom - plus 1e-15. -/
theorem probs_zxy (hB : Block V s zb nx ny nz mat) (n : ℤ) (hz : zb = n * s) (cdf big eff) :
    ∃ c, confOf V cdf big eff = .ok c ∧ ∀ r, ∃ t, muonProbs c.cdf c.size c.edges c.shp r = .ok t ∧ t.length = nz ∧ ∀ k < nz, ∃ tk, t[k]? = some tk ∧ tk.length = nx ∧
      ∀ i < nx, ∃ ti, tk[i]? = some ti ∧ ti.length = ny ∧ ∀ j < ny, ti[j]? = some (voxelProb cdf s r (i * s, j * s, zb + k * s) + 1e-15) := by
  obtain ⟨es, he, hlen, hget, _⟩ := C15.edges_spec hB n hz
  have e1 : (nx : ℝ) * s / s = nx := by have := hB.pos.ne'; field_simp
  have e2 : (ny : ℝ) * s / s = ny := by have := hB.pos.ne'; field_simp
  refine ⟨⟨cdf, big, s, es, (nx, ny, nz), eff⟩, ?_, ?_⟩
  · simp only [confOf, hB.lw_eq, hB.size_eq, he, hB.count, e1, e2, pyRound_nat, bind, Except.bind, Int.toNat_natCast]
  · intro r
    obtain ⟨t, ht, tl, htg⟩ := reshape_get nx ny nz (es.map (voxelProb cdf s r)) (by simp [hlen])
    refine ⟨(permuteZXY nz t).map fun a => a.map fun b => b.map (· + 1e-15), by simp only [muonProbs, ht, bind, Except.bind], by simp [permuteZXY], ?_⟩
    intro k hk
    refine ⟨(t.map fun tx => tx.map fun ty => ty.getD k 0).map fun b => b.map (· + 1e-15), by simp [permuteZXY, hk], by simp [tl], ?_⟩
    intro i hi
    obtain ⟨ti, h1, h2, h3⟩ := htg i hi
    refine ⟨(ti.map fun ty => ty.getD k 0).map (· + 1e-15), by simp [h1], by simp [h2], ?_⟩
    intro j hj
    obtain ⟨tj, h4, h5, h6⟩ := h3 j hj
    have hv : tj[k]? = some (voxelProb cdf s r (i * s, j * s, zb + k * s)) := by
      rw [h6 k hk, List.getElem?_map, hget i j k hi hj hk]; rfl
    simp [h4, List.getD_eq_getElem?_getD, hv]

/-- **C39, predictions.** Entry (k, i, j) of a prediction is the X0 computed with the probabilities of entry (k, i, j) of every muon. -/
theorem preds_zxy (big size : ℝ) (nx ny nz : Nat) (rows : List MuRow) (effs : List ℝ) (probs) (p) (h : voxelPreds big size (nx, ny, nz) rows effs probs = .ok p) :
    p.length = nz ∧ ∀ k < nz, ∃ pk, p[k]? = some pk ∧ pk.length = nx ∧ ∀ i < nx, ∃ pi, pk[i]? = some pi ∧ pi.length = ny ∧
      ∀ j < ny, pi[j]? = some (voxelX0 big size rows effs (probs.map fun t => at3 t k i j)) := by
  unfold voxelPreds at h
  simp only at h
  split at h
  · simp at h
  · simp only [Except.ok.injEq] at h
    subst h
    refine ⟨by simp, fun k hk => ⟨(List.range nx).map fun i => (List.range ny).map fun j => voxelX0 big size rows effs (probs.map fun t => at3 t k i j),
      by simp [hk], by simp, fun i hi => ⟨(List.range ny).map fun j => voxelX0 big size rows effs (probs.map fun t => at3 t k i j), by simp [hi], by simp,
        fun j hj => by simp [hj]⟩⟩⟩

/-- Where the grid does not match the number of layers the probabilities raise instead. -/
theorem shape_error (cdf size) (edges : List (ℝ × ℝ × ℝ)) (nx ny nz : Nat) (r : MuRow) (h : edges.length ≠ nx * ny * nz) :
    muonProbs cdf size edges (nx, ny, nz) r = .error .runtimeError := by
  simp only [muonProbs, reshape3, List.length_map, h, if_false]
  rfl

example : ∃ c, confOf C16.demo (fun _ _ x => x) 1 panelEff = .ok c := by
  obtain ⟨c, h, _⟩ := probs_zxy C16.demo_block 3 (by norm_num) (fun _ _ x => x) 1 panelEff
  exact ⟨c, h⟩

end C39

namespace C71

theorem telescope (f : ℝ → ℝ) (s a : ℝ) : ∀ n : Nat, ((List.range n).map fun (i : Nat) => f (a + i * s + s) - f (a + i * s)).sum = f (a + n * s) - f a
  | 0 => by simp
  | n + 1 => by
    rw [List.range_succ, List.map_append, List.sum_append, telescope f s a n]
    simp only [List.map_cons, List.map_nil, List.sum_cons, List.sum_nil]
    push_cast
    rw [show a + (n + 1) * s = a + n * s + s by ring]
    ring

theorem sum_mul_left {β : Type} (c : ℝ) (f : β → ℝ) (l : List β) : (l.map fun x => c * f x).sum = c * (l.map f).sum := by
  induction l with
  | nil => simp
  | cons a l ih => simp [ih, mul_add]

theorem sum_mul_right {β : Type} (c : ℝ) (f : β → ℝ) (l : List β) : (l.map fun x => f x * c).sum = (l.map f).sum * c := by
  induction l with
  | nil => simp
  | cons a l ih => simp [ih, add_mul]

/-- **C71.** The probabilities of all voxels together are the probability that the scatter was inside the volume: they telescope to the product of the
three interval probabilities of the whole block, for any distribution. -/
theorem total (cdf : ℝ → ℝ → ℝ → ℝ) (s zb : ℝ) (nx ny nz : Nat) (r : MuRow) :
    ((List.range nz).map fun (k : Nat) => ((List.range nx).map fun (i : Nat) => ((List.range ny).map fun (j : Nat) => voxelProb cdf s r (i * s, j * s, zb + k * s)).sum).sum).sum =
      (cdf r.poca.1 (r.pocaUnc.1 + 1e-7) (nx * s) - cdf r.poca.1 (r.pocaUnc.1 + 1e-7) 0) *
      (cdf r.poca.2.1 (r.pocaUnc.2.1 + 1e-7) (ny * s) - cdf r.poca.2.1 (r.pocaUnc.2.1 + 1e-7) 0) *
      (cdf r.poca.2.2 (r.pocaUnc.2.2 + 1e-7) (zb + nz * s) - cdf r.poca.2.2 (r.pocaUnc.2.2 + 1e-7) zb) := by
  have tx := telescope (cdf r.poca.1 (r.pocaUnc.1 + 1e-7)) s 0 nx
  have ty := telescope (cdf r.poca.2.1 (r.pocaUnc.2.1 + 1e-7)) s 0 ny
  have tz := telescope (cdf r.poca.2.2 (r.pocaUnc.2.2 + 1e-7)) s zb nz
  simp only [zero_add] at tx ty
  unfold voxelProb
  simp only [sum_mul_right, sum_mul_left, tx, ty, tz]

/-- Each is a number between 0 and 1 if the distribution function is non-decreasing with values in [0, 1]; the code adds 1e-15 to it. -/
theorem each (cdf : ℝ → ℝ → ℝ → ℝ) (hm : ∀ m d, Monotone (cdf m d)) (h0 : ∀ m d x, 0 ≤ cdf m d x) (h1 : ∀ m d x, cdf m d x ≤ 1) (s : ℝ) (hs : 0 ≤ s) (r : MuRow)
    (low : ℝ × ℝ × ℝ) : 0 ≤ voxelProb cdf s r low ∧ voxelProb cdf s r low ≤ 1 := by
  have key : ∀ m d x, 0 ≤ cdf m d (x + s) - cdf m d x ∧ cdf m d (x + s) - cdf m d x ≤ 1 := by
    intro m d x
    exact ⟨by linarith [hm m d (show x ≤ x + s by linarith)], by linarith [h1 m d (x + s), h0 m d x]⟩
  unfold voxelProb
  obtain ⟨a1, a2⟩ := key r.poca.1 (r.pocaUnc.1 + 1e-7) low.1
  obtain ⟨b1, b2⟩ := key r.poca.2.1 (r.pocaUnc.2.1 + 1e-7) low.2.1
  obtain ⟨c1, c2⟩ := key r.poca.2.2 (r.pocaUnc.2.2 + 1e-7) low.2.2
  exact ⟨mul_nonneg (mul_nonneg a1 b1) c1, mul_le_one₀ (mul_le_one₀ a2 b1 b2) c1 c2⟩

end C71

end

end Tomopt
