import Verif.Model.PredUnc
import Verif.Props.C98
import Verif.Props.C34_36
import Mathlib.Analysis.Calculus.Deriv.Inv
import Mathlib.Analysis.SpecialFunctions.Sqrt
import Mathlib.Analysis.SpecialFunctions.Trigonometric.Deriv

/- Derivatives of the predicted X0 by the variables of one muon. -/
namespace Tomopt

noncomputable section

open Real Infer Filter Topology

namespace C133

theorem wmean_deriv {β : Type} (w f : β → ℝ) (a b : List β) (p : ℝ → β) (t0 w' f' : ℝ) (hw : HasDerivAt (fun t => w (p t)) w' t0) (hf : HasDerivAt (fun t => f (p t)) f' t0)
    (hW : ((a ++ p t0 :: b).map w).sum ≠ 0) :
    HasDerivAt (fun t => C98.wmean w f (a ++ p t :: b)) ((w' * (f (p t0) - C98.wmean w f (a ++ p t0 :: b)) + w (p t0) * f') / ((a ++ p t0 :: b).map w).sum) t0 := by
  have sums : ∀ (g : β → ℝ) t, ((a ++ p t :: b).map g).sum = (a.map g).sum + (g (p t) + (b.map g).sum) := fun g t => by simp
  have h1 : HasDerivAt (fun t => ((a ++ p t :: b).map fun m => w m * f m).sum) (w' * f (p t0) + w (p t0) * f') t0 := by
    simp only [sums]
    exact ((hw.fun_mul hf).add_const _).const_add _
  have h2 : HasDerivAt (fun t => ((a ++ p t :: b).map w).sum) w' t0 := by
    simp only [sums]
    exact (hw.add_const _).const_add _
  have h3 := h1.fun_div h2 hW
  refine h3.congr_deriv ?_
  rw [C98.wmean]
  field_simp
  ring

/-- what the prediction is made of: four weighted means and the sums of their weights -/
structure Means where
  W1 : ℝ
  m1 : ℝ
  W2 : ℝ
  m2 : ℝ
  W3 : ℝ
  m3 : ℝ
  W4 : ℝ
  m4 : ℝ

def wMom (m : C98.Seen) : ℝ := m.eff * m.prob

/-- of these muons -/
def meansOf (ms : List C98.Seen) : Means where
  W1 := (ms.map (C98.weight (·.scat) (·.scatUnc))).sum
  m1 := C98.wmean (C98.weight (·.scat) (·.scatUnc)) (fun m => m.row.scat ^ 2) ms
  W2 := (ms.map (C98.weight (·.thIn) (·.thInUnc))).sum
  m2 := C98.wmean (C98.weight (·.thIn) (·.thInUnc)) (fun m => m.row.thIn ^ 2) ms
  W3 := (ms.map (C98.weight (·.thOut) (·.thOutUnc))).sum
  m3 := C98.wmean (C98.weight (·.thOut) (·.thOutUnc)) (fun m => m.row.thOut ^ 2) ms
  W4 := (ms.map wMom).sum
  m4 := C98.wmean wMom (fun m => m.row.mom ^ 2) ms

/-- the X0 from the means -/
def Means.x0 (M : Means) (size : ℝ) : ℝ := C98.fromSquares size M.m1 (sqrt M.m2) (sqrt M.m3) M.m4

/-- change of the prediction for changes `d1` to `d4` of the four means -/
def Means.change (M : Means) (size d1 d2 d3 d4 : ℝ) : ℝ :=
  M.x0 size * (-d1 / M.m1 - d4 / M.m4 + (sin (sqrt M.m2) / (2 * sqrt M.m2) * d2 + sin (sqrt M.m3) / (2 * sqrt M.m3) * d3) / (cos (sqrt M.m2) + cos (sqrt M.m3)))

/-- means of usable muons -/
structure Means.Ok (M : Means) : Prop where
  W1 : 0 < M.W1
  m1 : 0 < M.m1
  W2 : 0 < M.W2
  m2 : 0 < M.m2
  c2 : 0 < cos (sqrt M.m2)
  W3 : 0 < M.W3
  m3 : 0 < M.m3
  c3 : 0 < cos (sqrt M.m3)
  W4 : 0 < M.W4
  m4 : 0 < M.m4

theorem means_ok (ms : List C98.Seen) (hne : ms ≠ []) (hg : ∀ m ∈ ms, C98.Good m) : (meansOf ms).Ok := by
  have w1 : ∀ m ∈ ms, 0 < C98.weight (·.scat) (·.scatUnc) m := fun m hm => C98.weight_pos (hg m hm).eff (hg m hm).prob (hg m hm).scat (hg m hm).scatUnc
  have w2 : ∀ m ∈ ms, 0 < C98.weight (·.thIn) (·.thInUnc) m := fun m hm => C98.weight_pos (hg m hm).eff (hg m hm).prob (hg m hm).thIn.1 (hg m hm).thInUnc
  have w3 : ∀ m ∈ ms, 0 < C98.weight (·.thOut) (·.thOutUnc) m := fun m hm => C98.weight_pos (hg m hm).eff (hg m hm).prob (hg m hm).thOut.1 (hg m hm).thOutUnc
  have w4 : ∀ m ∈ ms, 0 < wMom m := fun m hm => mul_pos (hg m hm).eff (hg m hm).prob
  have cpos : ∀ a, a < (π / 2) ^ 2 → 0 < cos (sqrt a) := fun a h => cos_pos_of_mem_Ioo ⟨by linarith [pi_pos, sqrt_nonneg a], by
    rw [sqrt_lt' (by linarith [pi_pos])]; exact h⟩
  exact ⟨C98.sum_pos_of _ ms hne w1, C98.wmean_pos _ _ ms hne w1 fun m hm => pow_pos (hg m hm).scat 2,
    C98.sum_pos_of _ ms hne w2, C98.wmean_pos _ _ ms hne w2 fun m hm => pow_pos (hg m hm).thIn.1 2,
    cpos _ (C98.wmean_lt _ _ _ ms hne w2 fun m hm => pow_lt_pow_left₀ (hg m hm).thIn.2 (hg m hm).thIn.1.le two_ne_zero),
    C98.sum_pos_of _ ms hne w3, C98.wmean_pos _ _ ms hne w3 fun m hm => pow_pos (hg m hm).thOut.1 2,
    cpos _ (C98.wmean_lt _ _ _ ms hne w3 fun m hm => pow_lt_pow_left₀ (hg m hm).thOut.2 (hg m hm).thOut.1.le two_ne_zero),
    C98.sum_pos_of _ ms hne w4, C98.wmean_pos _ _ ms hne w4 fun m hm => pow_pos (hg m hm).mom 2⟩

/-- the derivatives of the weights and squares of one muon -/
structure Rates where
  w1 : ℝ
  f1 : ℝ
  w2 : ℝ
  f2 : ℝ
  w3 : ℝ
  f3 : ℝ
  w4 : ℝ
  f4 : ℝ

structure Rates.Of (R : Rates) (p : ℝ → C98.Seen) (t0 : ℝ) : Prop where
  w1 : HasDerivAt (fun t => C98.weight (·.scat) (·.scatUnc) (p t)) R.w1 t0
  f1 : HasDerivAt (fun t => (p t).row.scat ^ 2) R.f1 t0
  w2 : HasDerivAt (fun t => C98.weight (·.thIn) (·.thInUnc) (p t)) R.w2 t0
  f2 : HasDerivAt (fun t => (p t).row.thIn ^ 2) R.f2 t0
  w3 : HasDerivAt (fun t => C98.weight (·.thOut) (·.thOutUnc) (p t)) R.w3 t0
  f3 : HasDerivAt (fun t => (p t).row.thOut ^ 2) R.f3 t0
  w4 : HasDerivAt (fun t => wMom (p t)) R.w4 t0
  f4 : HasDerivAt (fun t => (p t).row.mom ^ 2) R.f4 t0

/-- the change of the prediction when a muon `m` changes at rates `R` -/
def Rates.effect (R : Rates) (M : Means) (size : ℝ) (m : C98.Seen) : ℝ :=
  M.change size ((R.w1 * (m.row.scat ^ 2 - M.m1) + C98.weight (·.scat) (·.scatUnc) m * R.f1) / M.W1)
    ((R.w2 * (m.row.thIn ^ 2 - M.m2) + C98.weight (·.thIn) (·.thInUnc) m * R.f2) / M.W2)
    ((R.w3 * (m.row.thOut ^ 2 - M.m3) + C98.weight (·.thOut) (·.thOutUnc) m * R.f3) / M.W3)
    ((R.w4 * (m.row.mom ^ 2 - M.m4) + wMom m * R.f4) / M.W4)

/-- Means of squares enter the prediction smoothly. -/
theorem x0_deriv (size t0 d1 d2 d3 d4 : ℝ) (M : ℝ → Means) (hM : (M t0).Ok) (h1 : HasDerivAt (fun t => (M t).m1) d1 t0) (h2 : HasDerivAt (fun t => (M t).m2) d2 t0)
    (h3 : HasDerivAt (fun t => (M t).m3) d3 t0) (h4 : HasDerivAt (fun t => (M t).m4) d4 t0) :
    HasDerivAt (fun t => (M t).x0 size) ((M t0).change size d1 d2 d3 d4) t0 := by
  have s2 := h2.sqrt hM.m2.ne'
  have s3 := h3.sqrt hM.m3.ne'
  have k := ((h4.fun_mul (h1.div_const 2)).fun_mul ((s2.cos.fun_add s3.cos).div_const 2))
  have q1 := hM.m1
  have q4 := hM.m4
  have c2 := hM.c2
  have c3 := hM.c3
  have r2 := sqrt_pos.mpr hM.m2
  have r3 := sqrt_pos.mpr hM.m3
  have hne : (M t0).m4 * ((M t0).m1 / 2) * ((cos (sqrt (M t0).m2) + cos (sqrt (M t0).m3)) / 2) ≠ 0 := by positivity
  have fin := (hasDerivAt_const t0 (scatterCoefA ^ 2 * size)).fun_div k hne
  refine fin.congr_deriv ?_
  rw [Means.change, Means.x0, C98.fromSquares]
  field_simp
  ring

/-- **The derivative of the prediction** when one of its muons changes. -/
theorem effect_deriv (big size : ℝ) (a b : List C98.Seen) (p : ℝ → C98.Seen) (t0 : ℝ) (ha : ∀ m ∈ a, C98.Good m) (hb : ∀ m ∈ b, C98.Good m) (hp : ∀ᶠ t in 𝓝 t0, C98.Good (p t))
    (R : Rates) (hR : R.Of p t0) :
    HasDerivAt (fun t => predValue (C98.predicted big size (a ++ p t :: b))) (R.effect (meansOf (a ++ p t0 :: b)) size (p t0)) t0 := by
  have good : ∀ t, C98.Good (p t) → ∀ m ∈ a ++ p t :: b, C98.Good m := fun t h m hm => by
    simp only [List.mem_append, List.mem_cons] at hm
    rcases hm with h1 | rfl | h1
    · exact ha m h1
    · exact h
    · exact hb m h1
  have ok := means_ok (a ++ p t0 :: b) (by simp) (good t0 hp.self_of_nhds)
  have eq : (fun t => predValue (C98.predicted big size (a ++ p t :: b))) =ᶠ[𝓝 t0] fun t => (meansOf (a ++ p t :: b)).x0 size := hp.mono fun t h => by
    simp only [C98.estimate big size (a ++ p t :: b) (by simp) (good t h), predValue]
    rfl
  refine HasDerivAt.congr_of_eventuallyEq ?_ eq
  exact x0_deriv size t0 _ _ _ _ (fun t => meansOf (a ++ p t :: b)) ok (wmean_deriv _ _ a b p t0 _ _ hR.w1 hR.f1 ok.W1.ne') (wmean_deriv _ _ a b p t0 _ _ hR.w2 hR.f2 ok.W2.ne')
    (wmean_deriv _ _ a b p t0 _ _ hR.w3 hR.f3 ok.W3.ne') (wmean_deriv wMom _ a b p t0 _ _ hR.w4 hR.f4 ok.W4.ne')

/-- the same means with `n` times the weights -/
def Means.times (M : Means) (n : ℝ) : Means := { M with W1 := n * M.W1, W2 := n * M.W2, W3 := n * M.W3, W4 := n * M.W4 }

theorem effect_times (R : Rates) (M : Means) (hM : M.Ok) (n : ℝ) (hn : n ≠ 0) (size : ℝ) (m : C98.Seen) : R.effect (M.times n) size m = R.effect M size m / n := by
  have := hM.W1.ne'; have := hM.W2.ne'; have := hM.W3.ne'; have := hM.W4.ne'
  have := hM.m1.ne'; have := hM.m4.ne'
  have := (sqrt_pos.mpr hM.m2).ne'; have := (sqrt_pos.mpr hM.m3).ne'
  have : cos (sqrt M.m2) + cos (sqrt M.m3) ≠ 0 := (add_pos hM.c2 hM.c3).ne'
  simp only [Rates.effect, Means.change, Means.times, Means.x0]
  field_simp

/-- a muon as seen from the voxel with lower corner `low` -/
def seen (cdf : ℝ → ℝ → ℝ → ℝ) (size : ℝ) (low : ℝ × ℝ × ℝ) (m : MuRow × ℝ) : C98.Seen := ⟨m.1, m.2, voxelProb cdf size m.1 low + 1e-15⟩

theorem voxelOf_eq (cdf : ℝ → ℝ → ℝ → ℝ) (big size : ℝ) (low : ℝ × ℝ × ℝ) (ms : List (MuRow × ℝ)) :
    voxelOf cdf big size low ms = C98.predicted big size (ms.map (seen cdf size low)) := by
  simp [voxelOf, C98.predicted, seen, Function.comp_def]

/-- what is used about the cumulative distribution `cdf mean scale x`: it grows with `x` and is differentiable in the mean -/
structure Dist (cdf : ℝ → ℝ → ℝ → ℝ) : Prop where
  mono : ∀ μ σ, 0 < σ → Monotone (cdf μ σ)
  diff : ∀ σ x, 0 < σ → Differentiable ℝ fun μ => cdf μ σ x

/-- a usable muon: seen, scattered, slanted, downwards, with errors on the angles and none on the momentum -/
structure Usable (m : MuRow × ℝ) : Prop where
  eff : 0 < m.2
  pocaUnc : 0 ≤ m.1.pocaUnc.1 ∧ 0 ≤ m.1.pocaUnc.2.1 ∧ 0 ≤ m.1.pocaUnc.2.2
  scat : 0 < m.1.scat
  scatUnc : 0 < m.1.scatUnc
  thIn : 0 < m.1.thIn ∧ m.1.thIn < π / 2
  thInUnc : 0 < m.1.thInUnc
  thOut : 0 < m.1.thOut ∧ m.1.thOut < π / 2
  thOutUnc : 0 < m.1.thOutUnc
  mom : 0 < m.1.mom
  momUnc : m.1.momUnc = 0

theorem prob_nonneg {cdf} (hc : Dist cdf) (size : ℝ) (hs : 0 ≤ size) (low : ℝ × ℝ × ℝ) (r : MuRow) (hu : 0 ≤ r.pocaUnc.1 ∧ 0 ≤ r.pocaUnc.2.1 ∧ 0 ≤ r.pocaUnc.2.2) :
    0 ≤ voxelProb cdf size r low := by
  have h : ∀ μ u x, 0 ≤ u → 0 ≤ cdf μ (u + 1e-7) (x + size) - cdf μ (u + 1e-7) x := fun μ u x h =>
    sub_nonneg.mpr (hc.mono μ (u + 1e-7) (by linarith [(by norm_num : (0:ℝ) < 1e-7)]) (by linarith))
  exact mul_nonneg (mul_nonneg (h _ _ _ hu.1) (h _ _ _ hu.2.1)) (h _ _ _ hu.2.2)

theorem good_seen {cdf} (hc : Dist cdf) {size : ℝ} (hs : 0 ≤ size) (low : ℝ × ℝ × ℝ) {m : MuRow × ℝ} (h : Usable m) : C98.Good (seen cdf size low m) :=
  ⟨h.eff, by have := prob_nonneg hc size hs low m.1 h.pocaUnc; simp only [seen]; linarith [(by norm_num : (0:ℝ) < 1e-15)], h.scat, h.scatUnc, h.thIn, h.thInUnc, h.thOut, h.thOutUnc, h.mom, h.momUnc⟩

/-- the change of the probability of a muon for a voxel with a coordinate of its PoCA -/
def probRate (cdf : ℝ → ℝ → ℝ → ℝ) (size : ℝ) (low : ℝ × ℝ × ℝ) (r : MuRow) (c : Col) : ℝ := deriv (fun t => voxelProb cdf size (r.put c t) low) (r.get c)

theorem prob_diff {cdf} (hc : Dist cdf) (size : ℝ) (low : ℝ × ℝ × ℝ) (r : MuRow) (hu : 0 ≤ r.pocaUnc.1 ∧ 0 ≤ r.pocaUnc.2.1 ∧ 0 ≤ r.pocaUnc.2.2) (c : Col) :
    HasDerivAt (fun t => voxelProb cdf size (r.put c t) low) (probRate cdf size low r c) (r.get c) := by
  have pos : ∀ u : ℝ, 0 ≤ u → 0 < u + 1e-7 := fun u h => by linarith [(by norm_num : (0:ℝ) < 1e-7)]
  have d1 := fun x => hc.diff (r.pocaUnc.1 + 1e-7) x (pos _ hu.1)
  have d2 := fun x => hc.diff (r.pocaUnc.2.1 + 1e-7) x (pos _ hu.2.1)
  have d3 := fun x => hc.diff (r.pocaUnc.2.2 + 1e-7) x (pos _ hu.2.2)
  have : Differentiable ℝ fun t => voxelProb cdf size (r.put c t) low := by
    cases c <;> simp only [voxelProb, MuRow.put]
    · exact (((d1 _).fun_sub (d1 _)).mul_const _).mul_const _
    · exact (((d2 _).fun_sub (d2 _)).const_mul _).mul_const _
    · exact ((d3 _).fun_sub (d3 _)).const_mul _
    all_goals exact differentiable_const _
  exact (this _).hasDerivAt

/-- the rates at which the weights and squares of a muon change with a column -/
def rates (cdf : ℝ → ℝ → ℝ → ℝ) (size : ℝ) (low : ℝ × ℝ × ℝ) (m : MuRow × ℝ) (c : Col) : Rates :=
  let s := seen cdf size low m
  let k := probRate cdf size low m.1 c / s.prob
  match c with
  | .scat => ⟨-2 * C98.weight (·.scat) (·.scatUnc) s / m.1.scat, 2 * m.1.scat, 0, 0, 0, 0, 0, 0⟩
  | .thIn => ⟨0, 0, -2 * C98.weight (·.thIn) (·.thInUnc) s / m.1.thIn, 2 * m.1.thIn, 0, 0, 0, 0⟩
  | .thOut => ⟨0, 0, 0, 0, -2 * C98.weight (·.thOut) (·.thOutUnc) s / m.1.thOut, 2 * m.1.thOut, 0, 0⟩
  | .mom => ⟨0, 0, 0, 0, 0, 0, 0, 2 * m.1.mom⟩
  | _ => ⟨k * C98.weight (·.scat) (·.scatUnc) s, 0, k * C98.weight (·.thIn) (·.thInUnc) s, 0, k * C98.weight (·.thOut) (·.thOutUnc) s, 0, k * wMom s, 0⟩

theorem sq_rate (x : ℝ) : HasDerivAt (fun t : ℝ => t ^ 2) (2 * x) x := by simpa using hasDerivAt_pow 2 x

theorem weight_rate (k u x : ℝ) (hx : x ≠ 0) (hu : u ≠ 0) : HasDerivAt (fun t : ℝ => k / (2 * t * u) ^ 2) (-2 * (k / (2 * x * u) ^ 2) / x) x := by
  have h1 : HasDerivAt (fun t : ℝ => (2 * t * u) ^ 2) ((2 * u) ^ 2 * (2 * x)) x := by
    have := (sq_rate x).const_mul ((2 * u) ^ 2)
    exact this.congr_of_eventuallyEq (Eventually.of_forall fun t => by ring)
  have h2 := (hasDerivAt_const x k).fun_div h1 (by positivity)
  refine h2.congr_deriv ?_
  field_simp
  ring

theorem rates_of {cdf} (hc : Dist cdf) {size : ℝ} (hs : 0 ≤ size) (low : ℝ × ℝ × ℝ) {m : MuRow × ℝ} (h : Usable m) (c : Col) :
    (rates cdf size low m c).Of (fun t => seen cdf size low (m.1.put c t, m.2)) (m.1.get c) := by
  have hg := good_seen hc hs low h
  have hp := prob_diff hc size low m.1 h.pocaUnc c
  have hq := hg.prob.ne'
  have wq : ∀ (e v p' q : ℝ), q ≠ 0 → e * p' / v = p' / q * (e * q / v) := fun e v p' q hq => by field_simp
  have wm : ∀ (e p' q : ℝ), q ≠ 0 → e * p' = p' / q * (e * q) := fun e p' q hq => by field_simp
  let W1 := C98.weight (·.scat) (·.scatUnc) (seen cdf size low m)
  let W2 := C98.weight (·.thIn) (·.thInUnc) (seen cdf size low m)
  let W3 := C98.weight (·.thOut) (·.thOutUnc) (seen cdf size low m)
  let W4 := wMom (seen cdf size low m)
  cases c
  all_goals simp only [MuRow.put, MuRow.get] at hp ⊢
  iterate 3
    have hp := (hp.add_const 1e-15).const_mul m.2
    refine ⟨?_, hasDerivAt_const _ (m.1.scat ^ 2), ?_, hasDerivAt_const _ (m.1.thIn ^ 2), ?_, hasDerivAt_const _ (m.1.thOut ^ 2), ?_, hasDerivAt_const _ (m.1.mom ^ 2)⟩
    · exact (hp.div_const (C98.squareVar m.1.scat m.1.scatUnc)).congr_deriv (wq _ _ _ _ hq)
    · exact (hp.div_const (C98.squareVar m.1.thIn m.1.thInUnc)).congr_deriv (wq _ _ _ _ hq)
    · exact (hp.div_const (C98.squareVar m.1.thOut m.1.thOutUnc)).congr_deriv (wq _ _ _ _ hq)
    · exact hp.congr_deriv (wm _ _ _ hq)
  · refine ⟨?_, sq_rate _, hasDerivAt_const _ W2, hasDerivAt_const _ (m.1.thIn ^ 2), hasDerivAt_const _ W3, hasDerivAt_const _ (m.1.thOut ^ 2), hasDerivAt_const _ W4, hasDerivAt_const _ (m.1.mom ^ 2)⟩
    have := weight_rate (m.2 * (seen cdf size low m).prob) m.1.scatUnc m.1.scat h.scat.ne' h.scatUnc.ne'
    simp only [← C98.squareVar_eq] at this
    exact this
  · refine ⟨hasDerivAt_const _ W1, hasDerivAt_const _ (m.1.scat ^ 2), ?_, sq_rate _, hasDerivAt_const _ W3, hasDerivAt_const _ (m.1.thOut ^ 2), hasDerivAt_const _ W4, hasDerivAt_const _ (m.1.mom ^ 2)⟩
    have := weight_rate (m.2 * (seen cdf size low m).prob) m.1.thInUnc m.1.thIn h.thIn.1.ne' h.thInUnc.ne'
    simp only [← C98.squareVar_eq] at this
    exact this
  · refine ⟨hasDerivAt_const _ W1, hasDerivAt_const _ (m.1.scat ^ 2), hasDerivAt_const _ W2, hasDerivAt_const _ (m.1.thIn ^ 2), ?_, sq_rate _, hasDerivAt_const _ W4, hasDerivAt_const _ (m.1.mom ^ 2)⟩
    have := weight_rate (m.2 * (seen cdf size low m).prob) m.1.thOutUnc m.1.thOut h.thOut.1.ne' h.thOutUnc.ne'
    simp only [← C98.squareVar_eq] at this
    exact this
  · exact ⟨hasDerivAt_const _ W1, hasDerivAt_const _ (m.1.scat ^ 2), hasDerivAt_const _ W2, hasDerivAt_const _ (m.1.thIn ^ 2), hasDerivAt_const _ W3, hasDerivAt_const _ (m.1.thOut ^ 2), hasDerivAt_const _ W4, sq_rate _⟩

theorem stays {m : MuRow × ℝ} (h : Usable m) (c : Col) : ∀ᶠ t in 𝓝 (m.1.get c), Usable (m.1.put c t, m.2) := by
  cases c
  iterate 3 exact Eventually.of_forall fun t => ⟨h.eff, h.pocaUnc, h.scat, h.scatUnc, h.thIn, h.thInUnc, h.thOut, h.thOutUnc, h.mom, h.momUnc⟩
  · filter_upwards [lt_mem_nhds h.scat] with t ht
    exact ⟨h.eff, h.pocaUnc, ht, h.scatUnc, h.thIn, h.thInUnc, h.thOut, h.thOutUnc, h.mom, h.momUnc⟩
  · filter_upwards [Ioo_mem_nhds h.thIn.1 h.thIn.2] with t ht
    exact ⟨h.eff, h.pocaUnc, h.scat, h.scatUnc, ht, h.thInUnc, h.thOut, h.thOutUnc, h.mom, h.momUnc⟩
  · filter_upwards [Ioo_mem_nhds h.thOut.1 h.thOut.2] with t ht
    exact ⟨h.eff, h.pocaUnc, h.scat, h.scatUnc, h.thIn, h.thInUnc, ht, h.thOutUnc, h.mom, h.momUnc⟩
  · filter_upwards [lt_mem_nhds h.mom] with t ht
    exact ⟨h.eff, h.pocaUnc, h.scat, h.scatUnc, h.thIn, h.thInUnc, h.thOut, h.thOutUnc, ht, h.momUnc⟩

theorem is_smooth {m : MuRow × ℝ} (h : Usable m) (c : Col) : smooth m.1 c = true := by
  have v : ∀ x u : ℝ, 0 < x → 0 < u → sqVar x u ≠ 0 := fun x u hx hu => by rw [sqVar]; positivity
  have a := v _ _ h.scat h.scatUnc
  have b := v _ _ h.thIn.1 h.thInUnc
  have d := v _ _ h.thOut.1 h.thOutUnc
  cases c <;> simp [smooth, a, b, d]

theorem put_get (r : MuRow) (c : Col) : r.put c (r.get c) = r := by cases c <;> rfl

theorem holes_whole {β : Type} : ∀ (l : List β), ∀ h ∈ holes l, h.1 ++ h.2.1 :: h.2.2 = l
  | [], h, hh => by simp [holes] at hh
  | x :: l, h, hh => by
    simp only [holes, List.mem_cons, List.mem_map] at hh
    rcases hh with rfl | ⟨k, hk, rfl⟩
    · rfl
    · simp [holes_whole l k hk]

theorem holes_mid {β : Type} : ∀ (l : List β), (holes l).map (fun h => h.2.1) = l
  | [] => rfl
  | x :: l => by
    have := holes_mid l
    simp only [holes, List.map_cons, List.map_map]
    exact congrArg (x :: ·) this

theorem good_all {cdf} (hc : Dist cdf) {size : ℝ} (hs : 0 ≤ size) (low : ℝ × ℝ × ℝ) {l : List (MuRow × ℝ)} (hl : ∀ x ∈ l, Usable x) : ∀ s ∈ l.map (seen cdf size low), C98.Good s := by
  intro s hs'
  obtain ⟨x, hx, rfl⟩ := List.mem_map.mp hs'
  exact good_seen hc hs low (hl x hx)

theorem x0_nonneg {M : Means} (h : M.Ok) {size : ℝ} (hs : 0 ≤ size) : 0 ≤ M.x0 size := by
  have := h.m1; have := h.m4; have := h.c2; have := h.c3
  rw [Means.x0, C98.fromSquares]; positivity

theorem effect_scat (cdf : ℝ → ℝ → ℝ → ℝ) (size : ℝ) (low : ℝ × ℝ × ℝ) (m : MuRow × ℝ) (hm : m.1.scat ≠ 0) (M : Means) (h : M.Ok) :
    (rates cdf size low m .scat).effect M size (seen cdf size low m) = -2 * M.x0 size / m.1.scat * (C98.weight (·.scat) (·.scatUnc) (seen cdf size low m) / M.W1) := by
  have := h.m1.ne'; have := h.W1.ne'
  have e : (seen cdf size low m).row = m.1 := rfl
  simp only [rates, Rates.effect, Means.change, e, zero_mul, mul_zero, add_zero, zero_div, sub_zero]
  field_simp
  ring

theorem effect_in (cdf : ℝ → ℝ → ℝ → ℝ) (size : ℝ) (low : ℝ × ℝ × ℝ) (m : MuRow × ℝ) (hm : m.1.thIn ≠ 0) (M : Means) (h : M.Ok) :
    (rates cdf size low m .thIn).effect M size (seen cdf size low m) =
      M.x0 size * (sin (sqrt M.m2) * sqrt M.m2 / m.1.thIn / (cos (sqrt M.m2) + cos (sqrt M.m3))) * (C98.weight (·.thIn) (·.thInUnc) (seen cdf size low m) / M.W2) := by
  have := h.m2.ne'; have := h.W2.ne'
  have e : (seen cdf size low m).row = m.1 := rfl
  have s := (sqrt_pos.mpr h.m2).ne'
  have s2 : sqrt M.m2 ^ 2 = M.m2 := sq_sqrt h.m2.le
  have c0 := (add_pos h.c2 h.c3).ne'
  simp only [rates, Rates.effect, Means.change, e, zero_mul, mul_zero, add_zero, zero_div, sub_zero, neg_zero, zero_add]
  field_simp
  rw [s2]
  ring

theorem effect_out (cdf : ℝ → ℝ → ℝ → ℝ) (size : ℝ) (low : ℝ × ℝ × ℝ) (m : MuRow × ℝ) (hm : m.1.thOut ≠ 0) (M : Means) (h : M.Ok) :
    (rates cdf size low m .thOut).effect M size (seen cdf size low m) =
      M.x0 size * (sin (sqrt M.m3) * sqrt M.m3 / m.1.thOut / (cos (sqrt M.m2) + cos (sqrt M.m3))) * (C98.weight (·.thOut) (·.thOutUnc) (seen cdf size low m) / M.W3) := by
  have := h.m3.ne'; have := h.W3.ne'
  have e : (seen cdf size low m).row = m.1 := rfl
  have s := (sqrt_pos.mpr h.m3).ne'
  have s2 : sqrt M.m3 ^ 2 = M.m3 := sq_sqrt h.m3.le
  have c0 := (add_pos h.c2 h.c3).ne'
  simp only [rates, Rates.effect, Means.change, e, zero_mul, mul_zero, add_zero, zero_div, sub_zero, neg_zero, zero_add]
  field_simp
  rw [s2]
  ring

theorem mem_copies {β : Type} {n : Nat} {ms : List β} {m : β} (h : m ∈ (List.replicate n ms).flatten) : m ∈ ms := by
  obtain ⟨l, hl, hm⟩ := List.mem_flatten.mp h
  rw [(List.mem_replicate.mp hl).2] at hm
  exact hm

theorem sum_copies {β : Type} (f : β → ℝ) (n : Nat) (ms : List β) : (((List.replicate n ms).flatten).map f).sum = n * (ms.map f).sum := by
  induction n with
  | zero => simp
  | succ n ih => simp only [List.replicate_succ, List.flatten_cons, List.map_append, List.sum_append, ih]; push_cast; ring

theorem means_copies (cdf : ℝ → ℝ → ℝ → ℝ) (size : ℝ) (low : ℝ × ℝ × ℝ) (ms : List (MuRow × ℝ)) (n : Nat) (hn : n ≠ 0) :
    meansOf (((List.replicate n ms).flatten).map (seen cdf size low)) = (meansOf (ms.map (seen cdf size low))).times n := by
  have hn' : (n : ℝ) ≠ 0 := Nat.cast_ne_zero.mpr hn
  have e : ((List.replicate n ms).flatten).map (seen cdf size low) = (List.replicate n (ms.map (seen cdf size low))).flatten := by
    simp [List.map_flatten]
  have hw : ∀ (w f : C98.Seen → ℝ) l, C98.wmean w f (List.replicate n l).flatten = C98.wmean w f l := fun w f l => by
    rw [C98.wmean, sum_copies, sum_copies, mul_div_mul_left _ _ hn', C98.wmean]
  rw [e]
  simp only [meansOf, Means.times, hw, sum_copies]

/-! the remembered uncertainties -/

theorem ensure_keeps (c : Conf) (s : St) (h : s.vars ≠ none) : ensure c s = (s, .ok ()) := by
  cases hv : s.vars with
  | none => exact absurd hv h
  | some v => simp [ensure, hv]

theorem readVars_ok (c : Conf) (s s' : St) (v) (h : readVars c s = (s', .ok v)) : s'.vars = some v := by
  unfold readVars at h
  split at h
  · simp at h
  · split at h
    · rename_i hv
      simp only [Prod.mk.injEq, Except.ok.injEq] at h
      rw [← h.1, hv, h.2]
    · simp at h

theorem readVars_keeps (c : Conf) (s : St) (h : s.vars ≠ none) : (readVars c s).1 = s := by
  unfold readVars
  rw [ensure_keeps c s h]
  split
  · simp_all
  · rename_i heq
    simp only [Prod.mk.injEq, and_true] at heq
    subst heq
    split <;> rfl

theorem readProbs_keeps (c : Conf) (s : St) (h : s.vars ≠ none) : (readProbs c s).1.vars = s.vars := by
  have hk := readVars_keeps c s h
  unfold readProbs
  repeat' split
  all_goals first | rfl | (rename_i heq; rw [heq] at hk; exact congrArg St.vars hk) | skip
  all_goals simp_all

theorem readPreds_keeps (c : Conf) (s : St) (h : s.vars ≠ none) : (readPreds c s).1.vars ≠ none := by
  have he := ensure_keeps c s h
  cases hp : s.preds with
  | some p => simpa [readPreds, hp] using h
  | none =>
    unfold readPreds
    simp only [hp, readEff, he]
    cases hef : s.eff with
    | none => simpa using h
    | some eff =>
      simp only
      have k1 := readProbs_keeps c s h
      rcases hr : readProbs c s with ⟨s1, r1⟩
      rw [hr] at k1
      simp only at k1
      have h1 : s1.vars ≠ none := by rw [k1]; exact h
      cases r1 with
      | error e => simpa using h1
      | ok probs =>
        simp only
        have k2 := readVars_keeps c s1 h1
        rcases hv : readVars c s1 with ⟨s2, r2⟩
        rw [hv] at k2
        simp only at k2
        subst k2
        cases r2 with
        | error e => simpa using h1
        | ok v =>
          simp only
          split
          · simpa using h1
          · split
            · simpa using h1
            · simpa using h1

theorem readPreds_vars (c : Conf) (s s' : St) (p) (h0 : s.preds = none) (h : readPreds c s = (s', .ok p)) : s'.vars ≠ none := by
  unfold readPreds at h
  simp only [h0] at h
  split at h
  · simp at h
  · simp at h
  · split at h
    · simp at h
    · split at h
      · simp at h
      · rename_i hv
        have := readVars_ok c _ _ _ hv
        split at h
        · simp at h
        · split at h
          · simp at h
          · simp only [Prod.mk.injEq, Except.ok.injEq] at h
            rw [← h.1]
            simp [this]

theorem step_keeps (c : Conf) (s : St) (o : Op) (ho : ∀ b, o ≠ .add b) (h : s.vars ≠ none) : (step c s o).1.vars ≠ none := by
  have he := ensure_keeps c s h
  cases o with
  | add b => exact absurd rfl (ho b)
  | prediction =>
    have := readPreds_keeps c s h
    simp only [step, getPrediction]
    split
    · exact h
    · split
      all_goals rename_i hq; rw [hq] at this; exact this
  | vars => simp only [step]; rw [readVars_keeps c s h]; exact h
  | efficiency => simp only [step, readEff, he]; exact h
  | nMuons => simp only [step, readN, he]; exact h
  | probs => simp only [step]; rw [readProbs_keeps c s h]; exact h

theorem ensure_preds (c : Conf) (s : St) : (ensure c s).1.preds = s.preds := by
  unfold ensure
  split
  · unfold combine
    split
    · rfl
    · simp only
      split <;> rfl
  · rfl

theorem readVars_preds (c : Conf) (s : St) : (readVars c s).1.preds = s.preds := by
  have h := ensure_preds c s
  unfold readVars
  split
  · rename_i hq; rw [hq] at h; exact h
  · rename_i hq; rw [hq] at h
    split <;> exact h

theorem readEff_preds (c : Conf) (s : St) : (readEff c s).1.preds = s.preds := by
  have h := ensure_preds c s
  unfold readEff
  split
  all_goals rename_i hq; rw [hq] at h; exact h

theorem readN_preds (c : Conf) (s : St) : (readN c s).1.preds = s.preds := by
  have h := ensure_preds c s
  unfold readN
  split
  all_goals rename_i hq; rw [hq] at h; exact h

theorem readProbs_preds (c : Conf) (s : St) : (readProbs c s).1.preds = s.preds := by
  have h := readVars_preds c s
  rcases hv : readVars c s with ⟨s1, r1⟩
  rw [hv] at h
  unfold readProbs
  split
  · rfl
  · rw [hv]
    cases r1 with
    | error e => exact h
    | ok v =>
      simp only
      split
      · exact h
      · split
        · exact h
        · split <;> exact h

theorem readPreds_preds (c : Conf) (s : St) : (readPreds c s).1.preds = s.preds ∨ ∃ p, (readPreds c s).2 = .ok p := by
  have h1 := readEff_preds c s
  cases hp : s.preds with
  | some p => exact Or.inr ⟨p, by simp [readPreds, hp]⟩
  | none =>
    unfold readPreds
    simp only [hp]
    rcases he : readEff c s with ⟨s1, r1⟩
    rw [he, hp] at h1
    cases r1 with
    | error e => exact Or.inl h1
    | ok o =>
      cases o with
      | none => exact Or.inl h1
      | some eff =>
        simp only
        have h2 := readProbs_preds c s1
        rcases hr : readProbs c s1 with ⟨s2, r2⟩
        rw [hr, h1] at h2
        cases r2 with
        | error e => exact Or.inl h2
        | ok probs =>
          simp only
          have h3 := readVars_preds c s2
          rcases hv : readVars c s2 with ⟨s3, r3⟩
          rw [hv, h2] at h3
          cases r3 with
          | error e => exact Or.inl h3
          | ok v =>
            simp only
            split
            · exact Or.inl h3
            · split
              · exact Or.inl h3
              · exact Or.inr ⟨_, rfl⟩

theorem readPreds_there (c : Conf) (s : St) (h : s.preds ≠ none → s.vars ≠ none) : (readPreds c s).1.preds ≠ none → (readPreds c s).1.vars ≠ none := by
  intro hp
  by_cases hv : s.vars = none
  · have h0 : s.preds = none := by by_contra hn; exact h hn hv
    rcases readPreds_preds c s with h1 | ⟨p, h1⟩
    · exact absurd (h1.trans h0) hp
    · exact readPreds_vars c s _ p h0 (Prod.ext rfl h1)
  · exact readPreds_keeps c s hv

theorem step_there (c : Conf) (s : St) (o : Op) (ho : ∀ b, o ≠ .add b) (h : s.preds ≠ none → s.vars ≠ none) : (step c s o).1.preds ≠ none → (step c s o).1.vars ≠ none := by
  by_cases hv : s.vars = none
  · have h0 : s.preds = none := by by_contra hn; exact h hn hv
    cases o with
    | add b => exact absurd rfl (ho b)
    | prediction =>
      have := readPreds_there c s h
      simp only [step, getPrediction]
      split
      · exact h
      · split
        all_goals rename_i hq; rw [hq] at this; exact this
    | vars => intro hn; exact absurd ((readVars_preds c s).trans h0) hn
    | efficiency => intro hn; exact absurd ((readEff_preds c s).trans h0) hn
    | nMuons => intro hn; exact absurd ((readN_preds c s).trans h0) hn
    | probs => intro hn; exact absurd ((readProbs_preds c s).trans h0) hn
  · intro _; exact step_keeps c s o ho hv

theorem zip_maps {β γ : Type} (f : β × γ → ℝ) : ∀ (l : List β) (k : List γ), l.length = k.length → (l.zip k).map (·.1) = l ∧ (l.zip k).map (·.2) = k
  | [], [], _ => ⟨rfl, rfl⟩
  | a :: l, b :: k, h => by
    obtain ⟨h1, h2⟩ := zip_maps f l k (by simpa using h)
    exact ⟨by simp [h1], by simp [h2]⟩
  | [], b :: k, h => by simp at h
  | a :: l, [], h => by simp at h

theorem mapE_map {β γ δ : Type} (f : β → Except Err γ) (g : γ → δ) (g' : β → δ) (hg : ∀ x y, f x = .ok y → g y = g' x) : ∀ (l : List β) (r : List γ), mapE f l = .ok r → r.map g = l.map g'
  | [], r, h => by
    simp only [mapE, Except.ok.injEq] at h
    subst h; rfl
  | x :: l, r, h => by
    simp only [mapE, Bind.bind, Except.bind] at h
    cases hx : f x with
    | error e => simp [hx] at h
    | ok y =>
      cases hl : mapE f l with
      | error e => simp [hx, hl] at h
      | ok ys =>
        simp only [hx, hl, Except.ok.injEq] at h
        subst h
        simp [hg x y hx, mapE_map f g g' hg l ys hl]

theorem at3_probs (cdf : ℝ → ℝ → ℝ → ℝ) (size : ℝ) (edges : List (ℝ × ℝ × ℝ)) (nx ny nz : Nat) (r : MuRow) (t) (h : muonProbs cdf size edges (nx, ny, nz) r = .ok t)
    (k i j : Nat) (hk : k < nz) (hi : i < nx) (hj : j < ny) : at3 t k i j = voxelProb cdf size r (edges.getD ((i * ny + j) * nz + k) (0, 0, 0)) + 1e-15 := by
  simp only [muonProbs, reshape3, List.length_map, Bind.bind, Except.bind] at h
  split at h
  · simp at h
  · rename_i v hv
    split at hv
    · rename_i hlen
      simp only [Except.ok.injEq] at hv h
      subst hv h
      have hb : (i * ny + j) * nz + k < edges.length := by
        rw [hlen]
        calc (i * ny + j) * nz + k < (i * ny + j) * nz + nz := by omega
          _ = (i * ny + j + 1) * nz := by ring
          _ ≤ (nx * ny) * nz := Nat.mul_le_mul_right _ (by nlinarith)
      simp [at3, permuteZXY, hk, hi, hj, List.getD_eq_getElem?_getD, List.getElem?_take, List.getElem?_drop, hb]
    · simp at hv

end C133

end

end Tomopt
