import Verif.Lemmas.ManyMuons
import Verif.Lemmas.TurnedAngle
import Verif.Props.C97
import Verif.Props.C131
import Mathlib.Probability.Distributions.Uniform

/- C132: what the X0 of a voxel tends to for ever more muons. -/
namespace Tomopt

noncomputable section

open MeasureTheory ProbabilityTheory Filter Topology Real Infer

namespace C132

variable {Ω : Type} [MeasurableSpace Ω] {P : Measure Ω} {E : Type} [MeasurableSpace E]

/-- Ever more muons: each is a function `M` of what happened to it (`x i`); what happens to different muons is independent, and has the same distribution. -/
structure Muons (P : Measure Ω) (x : ℕ → Ω → E) : Prop where
  indep : ∀ i j, i ≠ j → IndepFun (x i) (x j) P
  alike : ∀ i, IdentDistrib (x i) (x 0) P P

/-- expected value of a quantity of a muon -/
def mean (P : Measure Ω) (x : ℕ → Ω → E) (M : E → C98.Seen) (f : C98.Seen → ℝ) : ℝ := ∫ ω, f (M (x 0 ω)) ∂P

/-- it exists -/
def HasMean (P : Measure Ω) (x : ℕ → Ω → E) (M : E → C98.Seen) (f : C98.Seen → ℝ) : Prop := Measurable (fun e => f (M e)) ∧ Integrable (fun ω => f (M (x 0 ω))) P

/-- the weights of the scatterings, the angles in and out and the momenta: those of C98 -/
def wScat : C98.Seen → ℝ := C98.weight (·.scat) (·.scatUnc)
def wIn : C98.Seen → ℝ := C98.weight (·.thIn) (·.thInUnc)
def wOut : C98.Seen → ℝ := C98.weight (·.thOut) (·.thOutUnc)
def wMom (m : C98.Seen) : ℝ := m.eff * m.prob

/-- the squares that are averaged -/
def scat2 (m : C98.Seen) : ℝ := m.row.scat ^ 2
def in2 (m : C98.Seen) : ℝ := m.row.thIn ^ 2
def out2 (m : C98.Seen) : ℝ := m.row.thOut ^ 2
def mom2 (m : C98.Seen) : ℝ := m.row.mom ^ 2

/-- the expected value with a weight -/
def expected (P : Measure Ω) (x : ℕ → Ω → E) (M : E → C98.Seen) (w f : C98.Seen → ℝ) : ℝ := mean P x M (fun m => w m * f m) / mean P x M w

theorem averages (x : ℕ → Ω → E) (hx : Muons P x) (M : E → C98.Seen) (f : C98.Seen → ℝ) (hf : HasMean P x M f) :
    ∀ᵐ ω ∂P, Tendsto (fun n : ℕ => (∑ i ∈ Finset.range n, f (M (x i ω))) / (n : ℝ)) atTop (𝓝 (mean P x M f)) :=
  strong_law_ae_real (fun i ω => f (M (x i ω))) hf.2 (fun i j h => (hx.indep i j h).comp hf.1 hf.1) fun i => (hx.alike i).comp hf.1

theorem wmeans (x : ℕ → Ω → E) (hx : Muons P x) (M : E → C98.Seen) (w f : C98.Seen → ℝ) (hw : HasMean P x M w) (hf : HasMean P x M fun m => w m * f m) (h0 : mean P x M w ≠ 0) :
    ∀ᵐ ω ∂P, Tendsto (fun n : ℕ => C98.wmean w f ((List.range n).map fun i => M (x i ω))) atTop (𝓝 (expected P x M w f)) := by
  filter_upwards [averages x hx M _ hw, averages x hx M _ hf] with ω h1 h2
  refine (h2.div h1 h0).congr' ?_
  filter_upwards [eventually_gt_atTop 0] with n hn
  have hn' : (n : ℝ) ≠ 0 := by exact_mod_cast hn.ne'
  rw [wmean_range]
  exact div_div_div_cancel_right₀ hn' _ _

theorem pos_mean [IsProbabilityMeasure P] {f : Ω → ℝ} (hf : Integrable f P) (h : ∀ᵐ ω ∂P, 0 < f ω) : 0 < ∫ ω, f ω ∂P := by
  refine lt_of_le_of_ne (integral_nonneg_of_ae (h.mono fun _ h => h.le)) fun h0 => ?_
  have := (integral_eq_zero_iff_of_nonneg_ae (h.mono fun _ h => h.le) hf).mp h0.symm
  obtain ⟨ω, h1, h2⟩ := (h.and this).exists
  exact h1.ne' h2

/-- what the estimate needs: expected values of weights and weighted squares -/
structure Means (P : Measure Ω) (x : ℕ → Ω → E) (M : E → C98.Seen) : Prop where
  scat : HasMean P x M wScat
  scat2 : HasMean P x M fun m => wScat m * scat2 m
  thIn : HasMean P x M wIn
  thIn2 : HasMean P x M fun m => wIn m * in2 m
  thOut : HasMean P x M wOut
  thOut2 : HasMean P x M fun m => wOut m * out2 m
  mom : HasMean P x M wMom
  mom2 : HasMean P x M fun m => wMom m * mom2 m

/-- what the predicted X0 tends to -/
def limit (P : Measure Ω) (x : ℕ → Ω → E) (M : E → C98.Seen) (size : ℝ) : ℝ :=
  C98.fromSquares size (expected P x M wScat scat2) (sqrt (expected P x M wIn in2)) (sqrt (expected P x M wOut out2)) (expected P x M wMom mom2)

theorem expected_pos [IsProbabilityMeasure P] (x : ℕ → Ω → E) (M : E → C98.Seen) (w f : C98.Seen → ℝ) (hw : HasMean P x M w) (hf : HasMean P x M fun m => w m * f m)
    (h : ∀ᵐ ω ∂P, 0 < w (M (x 0 ω)) ∧ 0 < f (M (x 0 ω))) : 0 < mean P x M w ∧ 0 < expected P x M w f := by
  have h1 : 0 < mean P x M w := pos_mean hw.2 (h.mono fun _ h => h.1)
  exact ⟨h1, div_pos (pos_mean hf.2 (h.mono fun _ h => mul_pos h.1 h.2)) h1⟩

theorem expected_lt [IsProbabilityMeasure P] (x : ℕ → Ω → E) (M : E → C98.Seen) (w f : C98.Seen → ℝ) (hw : HasMean P x M w) (hf : HasMean P x M fun m => w m * f m) (c : ℝ)
    (h : ∀ᵐ ω ∂P, 0 < w (M (x 0 ω)) ∧ f (M (x 0 ω)) < c) : expected P x M w f < c := by
  have h1 : 0 < mean P x M w := pos_mean hw.2 (h.mono fun _ h => h.1)
  rw [expected, div_lt_iff₀ h1]
  have h2 := pos_mean ((hw.2.const_mul c).sub hf.2) (h.mono fun ω h => by
    simp only [Pi.sub_apply]; nlinarith [h.1, h.2])
  rw [integral_sub' (hw.2.const_mul c) hf.2, integral_const_mul] at h2
  simp only [mean]
  linarith

/-- **C132.** Where the expected values exist, the predicted X0 tends to a number for ever more muons: the inverted PDG formula at the expected values, with the weights of C98. -/
theorem settles [IsProbabilityMeasure P] (x : ℕ → Ω → E) (hx : Muons P x) (M : E → C98.Seen) (hm : Means P x M) (hg : ∀ᵐ ω ∂P, ∀ i, C98.Good (M (x i ω))) (big size : ℝ) :
    ∀ᵐ ω ∂P, ∃ X : ℕ → ℝ, (∀ n, 0 < n → C98.predicted big size ((List.range n).map fun i => M (x i ω)) = .num (X n)) ∧ Tendsto X atTop (𝓝 (limit P x M size)) := by
  have g0 := hg.mono fun _ h => h 0
  have a1 := expected_pos x M wScat scat2 hm.scat hm.scat2 (g0.mono fun _ h => ⟨C98.weight_pos h.eff h.prob h.scat h.scatUnc, pow_pos h.scat 2⟩)
  have w2 := g0.mono fun _ h => C98.weight_pos h.eff h.prob h.thIn.1 h.thInUnc
  have w3 := g0.mono fun _ h => C98.weight_pos h.eff h.prob h.thOut.1 h.thOutUnc
  have a2 := expected_pos x M wIn in2 hm.thIn hm.thIn2 ((w2.and g0).mono fun _ h => ⟨h.1, pow_pos h.2.thIn.1 2⟩)
  have a3 := expected_pos x M wOut out2 hm.thOut hm.thOut2 ((w3.and g0).mono fun _ h => ⟨h.1, pow_pos h.2.thOut.1 2⟩)
  have a4 := expected_pos x M wMom mom2 hm.mom hm.mom2 (g0.mono fun _ h => ⟨mul_pos h.eff h.prob, pow_pos h.mom 2⟩)
  have b2 := expected_lt x M wIn in2 hm.thIn hm.thIn2 ((π / 2) ^ 2) ((w2.and g0).mono fun _ h => ⟨h.1, pow_lt_pow_left₀ h.2.thIn.2 h.2.thIn.1.le two_ne_zero⟩)
  have b3 := expected_lt x M wOut out2 hm.thOut hm.thOut2 ((π / 2) ^ 2) ((w3.and g0).mono fun _ h => ⟨h.1, pow_lt_pow_left₀ h.2.thOut.2 h.2.thOut.1.le two_ne_zero⟩)
  have cpos : ∀ a, a < (π / 2) ^ 2 → 0 < cos (sqrt a) := fun a h => cos_pos_of_mem_Ioo ⟨by linarith [pi_pos, sqrt_nonneg a], by
    rw [sqrt_lt' (by linarith [pi_pos])]; exact h⟩
  filter_upwards [hg, wmeans x hx M wScat scat2 hm.scat hm.scat2 a1.1.ne', wmeans x hx M wIn in2 hm.thIn hm.thIn2 a2.1.ne', wmeans x hx M wOut out2 hm.thOut hm.thOut2 a3.1.ne',
    wmeans x hx M wMom mom2 hm.mom hm.mom2 a4.1.ne'] with ω h t1 t2 t3 t4
  refine ⟨_, fun n hn => C98.estimate big size _ (by simp [hn.ne']) (by
    intro m hm
    obtain ⟨i, -, rfl⟩ := List.mem_map.mp hm
    exact h i), ?_⟩
  have c2 := (continuous_cos.tendsto _).comp ((continuous_sqrt.tendsto _).comp t2)
  have c3 := (continuous_cos.tendsto _).comp ((continuous_sqrt.tendsto _).comp t3)
  have den := (t4.mul (t1.div_const 2)).mul ((c2.add c3).div_const 2)
  refine tendsto_const_nhds.div den ?_
  have := cpos _ b2
  have := cpos _ b3
  have := a1.2
  have := a4.2
  positivity

omit [MeasurableSpace E] in
/-- **C132.** The scattering enters through its harmonic mean. -/
theorem expected_scat (x : ℕ → Ω → E) (M : E → C98.Seen) (hg : ∀ᵐ ω ∂P, ∀ i, C98.Good (M (x i ω))) :
    expected P x M wScat scat2 = mean P x M C98.plain / mean P x M fun m => C98.plain m / m.row.scat ^ 2 := by
  have e1 : mean P x M (fun m => wScat m * scat2 m) = 1 / 4 * mean P x M C98.plain := by
    rw [mean, mean, ← integral_const_mul]
    refine integral_congr_ae (hg.mono fun ω h => ?_)
    have := (h 0).scat.ne'
    have := (h 0).scatUnc.ne'
    simp only [wScat, scat2, C98.weight, C98.squareVar_eq, C98.plain]; field_simp; norm_num
  have e2 : mean P x M wScat = 1 / 4 * mean P x M fun m => C98.plain m / m.row.scat ^ 2 := by
    rw [mean, mean, ← integral_const_mul]
    refine integral_congr_ae (hg.mono fun ω h => ?_)
    have := (h 0).scat.ne'
    have := (h 0).scatUnc.ne'
    simp only [wScat, C98.weight, C98.squareVar_eq, C98.plain]; field_simp; norm_num
  rw [expected, e1, e2, mul_div_mul_left _ _ (by norm_num)]

/-- **C132, violated.** Let muons of the same momentum and angle scatter on average as strongly as a material of radiation length `x0` makes them. Unless all of them scatter by the same angle, what is predicted tends to more
than `x0`. -/
theorem biased_violated [IsProbabilityMeasure P] (x : ℕ → Ω → E) (M : E → C98.Seen) (hm : Means P x M) (hg : ∀ᵐ ω ∂P, ∀ i, C98.Good (M (x i ω)))
    (hq : HasMean P x M fun m => C98.plain m * m.row.scat ^ 2) (size x0 mom th : ℝ) (hs : 0 < size) (hx0 : 0 < x0)
    (hr : ∀ᵐ ω ∂P, (M (x 0 ω)).row.thIn = th ∧ (M (x 0 ω)).row.thOut = th ∧ (M (x 0 ω)).row.mom = mom)
    (havg : mean P x M (fun m => C98.plain m * m.row.scat ^ 2) / mean P x M C98.plain = 2 * C38.theta0FirstOrder x0 mom (size / cos th) ^ 2)
    (hne : ¬ ∃ s, ∀ᵐ ω ∂P, (M (x 0 ω)).row.scat = s) : x0 < limit P x M size := by
  have g0 := hg.mono fun _ h => h 0
  obtain ⟨ω0, hr0, hg0⟩ := (hr.and g0).exists
  have hmom : 0 < mom := hr0.2.2 ▸ hg0.mom
  have hth : 0 < th ∧ th < π / 2 := hr0.1 ▸ hg0.thIn
  have hc : 0 < cos th := cos_pos_of_mem_Ioo ⟨by linarith [pi_pos], hth.2⟩
  have const : ∀ (w f : C98.Seen → ℝ) (c : ℝ), HasMean P x M w → (∀ᵐ ω ∂P, 0 < w (M (x 0 ω)) ∧ f (M (x 0 ω)) = c) → expected P x M w f = c := fun w f c hw h => by
    have p : 0 < mean P x M w := pos_mean hw.2 (h.mono fun _ h => h.1)
    rw [expected, div_eq_iff p.ne', mean, mean, ← integral_const_mul]
    exact integral_congr_ae (h.mono fun ω h => by simp only [h.2, mul_comm])
  rw [limit, const wIn in2 (th ^ 2) hm.thIn ((hr.and g0).mono fun _ h => ⟨C98.weight_pos h.2.eff h.2.prob h.2.thIn.1 h.2.thInUnc, by rw [in2, h.1.1]⟩),
    const wOut out2 (th ^ 2) hm.thOut ((hr.and g0).mono fun _ h => ⟨C98.weight_pos h.2.eff h.2.prob h.2.thOut.1 h.2.thOutUnc, by rw [out2, h.1.2.1]⟩),
    const wMom mom2 (mom ^ 2) hm.mom ((hr.and g0).mono fun _ h => ⟨mul_pos h.2.eff h.2.prob, by rw [mom2, h.1.2.2]⟩), sqrt_sq hth.1.le, C98.fromSquares, expected_scat x M hg]
  have vpos : ∀ᵐ ω ∂P, 0 < C98.plain (M (x 0 ω)) := g0.mono fun _ h => by
    have := h.eff; have := h.prob; have := h.scatUnc
    unfold C98.plain; positivity
  have iV : Integrable (fun ω => C98.plain (M (x 0 ω))) P := by
    refine (hm.scat2.2.const_mul 4).congr (g0.mono fun ω h => ?_)
    have := h.scat.ne'
    have := h.scatUnc.ne'
    simp only [wScat, scat2, C98.weight, C98.squareVar_eq, C98.plain]; field_simp; ring
  have iR : Integrable (fun ω => C98.plain (M (x 0 ω)) / (M (x 0 ω)).row.scat ^ 2) P := by
    refine (hm.scat.2.const_mul 4).congr (g0.mono fun ω h => ?_)
    have := h.scat.ne'
    have := h.scatUnc.ne'
    simp only [wScat, C98.weight, C98.squareVar_eq, C98.plain]; field_simp; ring
  have V : 0 < mean P x M C98.plain := pos_mean iV vpos
  have R : 0 < mean P x M fun m => C98.plain m / m.row.scat ^ 2 := pos_mean iR ((vpos.and g0).mono fun _ h => div_pos h.1 (pow_pos h.2.scat 2))
  generalize hH : (mean P x M C98.plain / mean P x M fun m => C98.plain m / m.row.scat ^ 2) = H
  have H0 : 0 < H := hH ▸ div_pos V R
  have key : H < mean P x M (fun m => C98.plain m * m.row.scat ^ 2) / mean P x M C98.plain := by
    rw [lt_div_iff₀ V]
    have iD := (hq.2.sub (iV.const_mul (2 * H))).add (iR.const_mul (H ^ 2))
    have nn : ∀ᵐ ω ∂P, 0 ≤ C98.plain (M (x 0 ω)) * (M (x 0 ω)).row.scat ^ 2 - 2 * H * C98.plain (M (x 0 ω)) + H ^ 2 * (C98.plain (M (x 0 ω)) / (M (x 0 ω)).row.scat ^ 2) :=
      (vpos.and g0).mono fun ω h => by
        have q0 := pow_pos h.2.scat 2
        have s0 := h.2.scat.ne'
        have e : C98.plain (M (x 0 ω)) * (M (x 0 ω)).row.scat ^ 2 - 2 * H * C98.plain (M (x 0 ω)) + H ^ 2 * (C98.plain (M (x 0 ω)) / (M (x 0 ω)).row.scat ^ 2) =
            C98.plain (M (x 0 ω)) * (((M (x 0 ω)).row.scat ^ 2 - H) ^ 2 / (M (x 0 ω)).row.scat ^ 2) := by field_simp; ring
        rw [e]
        have := h.1
        positivity
    have val : ∫ ω, (C98.plain (M (x 0 ω)) * (M (x 0 ω)).row.scat ^ 2 - 2 * H * C98.plain (M (x 0 ω)) + H ^ 2 * (C98.plain (M (x 0 ω)) / (M (x 0 ω)).row.scat ^ 2)) ∂P =
        mean P x M (fun m => C98.plain m * m.row.scat ^ 2) - H * mean P x M C98.plain := by
      have i1 : Integrable (fun ω => C98.plain (M (x 0 ω)) * (M (x 0 ω)).row.scat ^ 2) P := hq.2
      have i2 : Integrable (fun ω => C98.plain (M (x 0 ω)) * (M (x 0 ω)).row.scat ^ 2 - 2 * H * C98.plain (M (x 0 ω))) P := hq.2.sub (iV.const_mul (2 * H))
      rw [integral_add i2 (iR.const_mul (H ^ 2)), integral_sub i1 (iV.const_mul (2 * H)), integral_const_mul, integral_const_mul]
      simp only [mean] at V R hH ⊢
      rw [← hH]; field_simp; ring
    have : 0 < mean P x M (fun m => C98.plain m * m.row.scat ^ 2) - H * mean P x M C98.plain := by
      rw [← val]
      refine lt_of_le_of_ne (integral_nonneg_of_ae nn) fun h0 => hne ⟨sqrt H, ?_⟩
      have z := (integral_eq_zero_iff_of_nonneg_ae nn iD).mp h0.symm
      filter_upwards [z, vpos, g0] with ω h1 h2 h3
      have q0 := pow_pos h3.scat 2
      have s0 := h3.scat.ne'
      have e : C98.plain (M (x 0 ω)) * (M (x 0 ω)).row.scat ^ 2 - 2 * H * C98.plain (M (x 0 ω)) + H ^ 2 * (C98.plain (M (x 0 ω)) / (M (x 0 ω)).row.scat ^ 2) =
          C98.plain (M (x 0 ω)) * (((M (x 0 ω)).row.scat ^ 2 - H) ^ 2 / (M (x 0 ω)).row.scat ^ 2) := by field_simp; ring
      simp only [Pi.zero_apply] at h1
      rw [e] at h1
      have h4 := (mul_eq_zero.mp h1).resolve_left h2.ne'
      have h5 := (div_eq_zero_iff.mp h4).resolve_right q0.ne'
      have h6 : (M (x 0 ω)).row.scat ^ 2 = H := by have := pow_eq_zero_iff (two_ne_zero) |>.mp h5; linarith
      rw [← h6, sqrt_sq h3.scat.le]
    linarith
  rw [havg, C38.theta0FirstOrder] at key
  have A : 0 < scatterCoefA := by norm_num [scatterCoefA]
  rw [mul_pow, sq_sqrt (by positivity)] at key
  rw [lt_div_iff₀ (by positivity)]
  have k2 : H < 2 * ((scatterCoefA / mom) ^ 2 * (size / cos th / x0)) := key
  have e : 2 * ((scatterCoefA / mom) ^ 2 * (size / cos th / x0)) = 2 * (scatterCoefA ^ 2 * size) / (mom ^ 2 * cos th * x0) := by field_simp
  rw [e, lt_div_iff₀ (by positivity)] at k2
  nlinarith

/-- however the muons are weighted, the estimate is at least a multiple of the average of the inverse squares of the scatterings -/
theorem at_least (ms : List C98.Seen) (hne : ms ≠ []) (hg : ∀ m ∈ ms, C98.Good m) (a b l U p : ℝ) (ha : 0 < a) (hl : 0 < l)
    (hb : ∀ m ∈ ms, a ≤ m.eff * m.prob ∧ m.eff * m.prob ≤ b ∧ l ≤ m.row.scatUnc ∧ m.row.scatUnc ≤ U ∧ m.row.mom ≤ p) (big size : ℝ) (hs : 0 < size) :
    ∃ X, C98.predicted big size ms = .num X ∧ 2 * scatterCoefA ^ 2 * size / p ^ 2 * (a / U ^ 2) * (l ^ 2 / b) * ((ms.map fun m => 1 / m.row.scat ^ 2).sum / ms.length) ≤ X := by
  refine ⟨_, C98.estimate big size ms hne hg, ?_⟩
  obtain ⟨m0, hm0⟩ := List.exists_mem_of_ne_nil ms hne
  obtain ⟨b1, b2, b3, b4, b5⟩ := hb m0 hm0
  have p0 : 0 < p := (hg m0 hm0).mom.trans_le b5
  have U0 : 0 < U := hl.trans_le (b3.trans b4)
  have bb : 0 < b := ha.trans_le (b1.trans b2)
  have v0 : ∀ m ∈ ms, 0 < C98.plain m := fun m hm => by
    have := (hg m hm).eff; have := (hg m hm).prob; have := (hg m hm).scatUnc
    unfold C98.plain; positivity
  rw [C98.harmonic ms hg, C98.hmean, C98.fromSquares]
  have V0 : 0 < (ms.map C98.plain).sum := C98.sum_pos_of _ ms hne v0
  have R0 : 0 < (ms.map fun m => C98.plain m / m.row.scat ^ 2).sum := C98.sum_pos_of _ ms hne fun m hm => div_pos (v0 m hm) (pow_pos (hg m hm).scat 2)
  have T0 : 0 < (ms.map fun m => 1 / m.row.scat ^ 2).sum := C98.sum_pos_of _ ms hne fun m hm => by have := (hg m hm).scat; positivity
  have V1 : (ms.map C98.plain).sum ≤ b / l ^ 2 * ms.length := by
    have : (ms.map C98.plain).sum ≤ (ms.map fun _ => b / l ^ 2).sum := List.sum_le_sum fun m hm => by
      obtain ⟨-, h2, h3, -, -⟩ := hb m hm
      exact div_le_div₀ bb.le h2 (by positivity) (pow_le_pow_left₀ hl.le h3 2)
    simpa [mul_comm] using this
  have R1 : a / U ^ 2 * (ms.map fun m => 1 / m.row.scat ^ 2).sum ≤ (ms.map fun m => C98.plain m / m.row.scat ^ 2).sum := by
    rw [← C71.sum_mul_left]
    refine List.sum_le_sum fun m hm => ?_
    obtain ⟨h1, -, -, h4, -⟩ := hb m hm
    have s0 := (hg m hm).scat
    have u0 := (hg m hm).scatUnc
    rw [mul_one_div]
    refine div_le_div_of_nonneg_right ?_ (by positivity)
    exact div_le_div₀ (ha.le.trans h1) h1 (by positivity) (pow_le_pow_left₀ u0.le h4 2)
  have w4 : ∀ m ∈ ms, 0 < m.eff * m.prob := fun m hm => mul_pos (hg m hm).eff (hg m hm).prob
  have q0 := C98.wmean_pos (fun m : C98.Seen => m.eff * m.prob) (fun m => m.row.mom ^ 2) ms hne w4 fun m hm => pow_pos (hg m hm).mom 2
  have q1 := C131.wmean_le (fun m : C98.Seen => m.eff * m.prob) (fun m => m.row.mom ^ 2) (p ^ 2) ms hne w4 fun m hm => pow_le_pow_left₀ (hg m hm).mom.le (hb m hm).2.2.2.2 2
  have cpos : ∀ a, a < (π / 2) ^ 2 → 0 < cos (sqrt a) := fun a h => cos_pos_of_mem_Ioo ⟨by linarith [pi_pos, sqrt_nonneg a], by
    rw [sqrt_lt' (by linarith [pi_pos])]; exact h⟩
  have c2 := cpos _ (C98.wmean_lt (C98.weight (·.thIn) (·.thInUnc)) (fun m => m.row.thIn ^ 2) _ ms hne (fun m hm => C98.weight_pos (hg m hm).eff (hg m hm).prob (hg m hm).thIn.1 (hg m hm).thInUnc)
    fun m hm => pow_lt_pow_left₀ (hg m hm).thIn.2 (hg m hm).thIn.1.le two_ne_zero)
  have c3 := cpos _ (C98.wmean_lt (C98.weight (·.thOut) (·.thOutUnc)) (fun m => m.row.thOut ^ 2) _ ms hne (fun m hm => C98.weight_pos (hg m hm).eff (hg m hm).prob (hg m hm).thOut.1 (hg m hm).thOutUnc)
    fun m hm => pow_lt_pow_left₀ (hg m hm).thOut.2 (hg m hm).thOut.1.le two_ne_zero)
  generalize hci : cos (sqrt (C98.wmean (C98.weight (·.thIn) (·.thInUnc)) (fun m => m.row.thIn ^ 2) ms)) = ci at c2 ⊢
  generalize hco : cos (sqrt (C98.wmean (C98.weight (·.thOut) (·.thOutUnc)) (fun m => m.row.thOut ^ 2) ms)) = co at c3 ⊢
  have d2 : ci ≤ 1 := hci ▸ cos_le_one _
  have d3 : co ≤ 1 := hco ▸ cos_le_one _
  generalize C98.wmean (fun m : C98.Seen => m.eff * m.prob) (fun m => m.row.mom ^ 2) ms = q at q0 q1 ⊢
  generalize (ms.map C98.plain).sum = V at *
  generalize (ms.map fun m => C98.plain m / m.row.scat ^ 2).sum = R at *
  generalize (ms.map fun m => 1 / m.row.scat ^ 2).sum = T at *
  have n0 : (0:ℝ) < ms.length := by exact_mod_cast List.length_pos_iff.mpr hne
  generalize (ms.length : ℝ) = n at *
  have A : 0 < scatterCoefA := by norm_num [scatterCoefA]
  have e : 2 * scatterCoefA ^ 2 * size / p ^ 2 * (a / U ^ 2) * (l ^ 2 / b) * (T / n) = scatterCoefA ^ 2 * size / (p ^ 2 * ((b / l ^ 2 * n) / (a / U ^ 2 * T) / 2) * 1) := by field_simp
  rw [e]
  refine div_le_div_of_nonneg_left (by positivity) (by positivity) ?_
  refine mul_le_mul (mul_le_mul q1 ?_ (by positivity) (by positivity)) (by linarith) (by positivity) (by positivity)
  exact div_le_div_of_nonneg_right (div_le_div₀ (by positivity) V1 (by positivity) R1) (by norm_num)

/-- **C132, violated.** If small scatterings are as likely as for two independent angles, the chance of less than `r` being of order `r²`, the expected weight is infinite: the predicted X0 does not settle but grows without
bound, almost surely. -/
theorem diverges_violated [IsProbabilityMeasure P] (m : ℕ → Ω → C98.Seen) (hind : ∀ i j, i ≠ j → IndepFun (fun ω => (m i ω).row.scat) (fun ω => (m j ω).row.scat) P)
    (hid : ∀ i, IdentDistrib (fun ω => (m i ω).row.scat) (fun ω => (m 0 ω).row.scat) P P) (c ε : ℝ) (hc : 0 < c) (hε : 0 < ε)
    (hsm : ∀ r, 0 < r → r ≤ ε → c * r ^ 2 ≤ P.real {ω | (m 0 ω).row.scat ≤ r}) (hg : ∀ᵐ ω ∂P, ∀ i, C98.Good (m i ω)) (a b l U p : ℝ) (ha : 0 < a) (hl : 0 < l)
    (hb : ∀ᵐ ω ∂P, ∀ i, a ≤ (m i ω).eff * (m i ω).prob ∧ (m i ω).eff * (m i ω).prob ≤ b ∧ l ≤ (m i ω).row.scatUnc ∧ (m i ω).row.scatUnc ≤ U ∧ (m i ω).row.mom ≤ p)
    (big size : ℝ) (hs : 0 < size) :
    ∀ᵐ ω ∂P, ∃ X : ℕ → ℝ, (∀ n, 0 < n → C98.predicted big size ((List.range n).map fun i => m i ω) = .num (X n)) ∧ Tendsto X atTop atTop := by
  filter_upwards [hg, hb, inverse_squares (fun i ω => (m i ω).row.scat) hind hid c ε hc hε hsm (hg.mono fun _ h i => (h i).scat)] with ω h1 h2 h3
  have key : ∀ n, 0 < n → ∃ X, C98.predicted big size ((List.range n).map fun i => m i ω) = .num X ∧
      2 * scatterCoefA ^ 2 * size / p ^ 2 * (a / U ^ 2) * (l ^ 2 / b) * ((∑ i ∈ Finset.range n, 1 / (m i ω).row.scat ^ 2) / (n : ℝ)) ≤ X := by
    intro n hn
    obtain ⟨X, e, k⟩ := at_least ((List.range n).map fun i => m i ω) (by simp [hn.ne']) (by
      intro q hq
      obtain ⟨i, -, rfl⟩ := List.mem_map.mp hq
      exact h1 i) a b l U p ha hl (by
      intro q hq
      obtain ⟨i, -, rfl⟩ := List.mem_map.mp hq
      exact h2 i) big size hs
    refine ⟨X, e, ?_⟩
    rw [List.map_map, List.length_map, List.length_range] at k
    rw [← sum_range]
    exact k
  choose! X hX using key
  refine ⟨X, fun n hn => (hX n hn).1, tendsto_atTop_mono' atTop (f₁ := fun n : ℕ => 2 * scatterCoefA ^ 2 * size / p ^ 2 * (a / U ^ 2) * (l ^ 2 / b) * ((∑ i ∈ Finset.range n, 1 / (m i ω).row.scat ^ 2) / (n : ℝ)))
    ?_ (Tendsto.const_mul_atTop ?_ h3)⟩
  · filter_upwards [eventually_gt_atTop 0] with n hn using (hX n hn).2
  · obtain ⟨b1, b2, b3, b4, b5⟩ := h2 0
    have p0 : 0 < p := (h1 0).mom.trans_le b5
    have U0 : 0 < U := hl.trans_le (b3.trans b4)
    have bb : 0 < b := ha.trans_le (b1.trans b2)
    have A : 0 < scatterCoefA := by norm_num [scatterCoefA]
    positivity

/-- muon `mu` is scattered in a step through material of radiation length `x0` with the random numbers `d`, is kept, and is turned by `angle` -/
def TurnedBy (x0 mom step : ℝ) (mu : Muon) (d : Draw) (angle : ℝ) : Prop :=
  let s := pdgScatter x0 mu.th mu.ph (thetaXFromThetaPhi mu.th mu.ph) (thetaYFromThetaPhi mu.th mu.ph) mom step d
  ∃ mu', RawMuon.toMuon? (PassiveLayer.scatterXYRowO mu.toRaw s.dtx s.dty) = some mu' ∧ Scatter.thetaMsc (dir mu.th mu.ph) (dir mu'.th mu'.ph) = some angle

/-- **C132, violated.** So it is for simulated muons: if muons like `mu` are scattered in a step with independent standard normal numbers, and the angles by which they are turned are known exactly, then the X0 predicted from them
grows without bound, whatever material they passed through. -/
theorem simulated_violated [IsProbabilityMeasure P] (x0 mom step : ℝ) (ht : pdgTheta0 x0 mom step ≠ 0) (mu : Muon) (hmu : Downward mu) (d : ℕ → Ω → Draw)
    (hz : ∀ i, AEMeasurable (fun ω => ((d i ω).z2x, (d i ω).z2y)) P) (hl : ∀ i, P.map (fun ω => ((d i ω).z2x, (d i ω).z2y)) = (gaussianReal 0 1).prod (gaussianReal 0 1))
    (hind : ∀ i j, i ≠ j → IndepFun (fun ω => ((d i ω).z2x, (d i ω).z2y)) (fun ω => ((d j ω).z2x, (d j ω).z2y)) P) (m : ℕ → Ω → C98.Seen)
    (hm : ∀ᵐ ω ∂P, ∀ i, TurnedBy x0 mom step mu (d i ω) (m i ω).row.scat) (hg : ∀ᵐ ω ∂P, ∀ i, C98.Good (m i ω)) (a b l U p : ℝ) (ha : 0 < a) (hl0 : 0 < l)
    (hb : ∀ᵐ ω ∂P, ∀ i, a ≤ (m i ω).eff * (m i ω).prob ∧ (m i ω).eff * (m i ω).prob ≤ b ∧ l ≤ (m i ω).row.scatUnc ∧ (m i ω).row.scatUnc ≤ U ∧ (m i ω).row.mom ≤ p)
    (big size : ℝ) (hs : 0 < size) :
    ∀ᵐ ω ∂P, ∃ X : ℕ → ℝ, (∀ n, 0 < n → C98.predicted big size ((List.range n).map fun i => m i ω) = .num (X n)) ∧ Tendsto X atTop atTop := by
  have eq : ∀ᵐ ω ∂P, ∀ i, (m i ω).row.scat = turned mu.th (pdgTheta0 x0 mom step) ((d i ω).z2x, (d i ω).z2y) := hm.mono fun ω h i => by
    obtain ⟨mu', hk, he⟩ := h i
    rw [turned_angle x0 mom step (d i ω) mu mu' hmu _ rfl hk] at he
    exact (Option.some.inj he).symm
  have eqi : ∀ i, (fun ω => turned mu.th (pdgTheta0 x0 mom step) ((d i ω).z2x, (d i ω).z2y)) =ᵐ[P] fun ω => (m i ω).row.scat := fun i => eq.mono fun ω h => (h i).symm
  have tm := turned_meas mu.th (pdgTheta0 x0 mom step)
  obtain ⟨c, ε, hc, hε, hsm⟩ := turned_prob (P := P) mu.th (pdgTheta0 x0 mom step) ⟨hmu.1, hmu.2.1⟩ ht _ (hz 0) (hl 0)
  have alike : ∀ i, IdentDistrib (fun ω => turned mu.th (pdgTheta0 x0 mom step) ((d i ω).z2x, (d i ω).z2y)) (fun ω => turned mu.th (pdgTheta0 x0 mom step) ((d 0 ω).z2x, (d 0 ω).z2y)) P P := fun i =>
    (IdentDistrib.mk (hz i) (hz 0) (by rw [hl, hl])).comp tm
  refine diverges_violated m (fun i j h => ((hind i j h).comp tm tm).congr (eqi i) (eqi j)) (fun i => ?_) c ε hc hε (fun r h1 h2 => ?_) hg a b l U p ha hl0 hb big size hs
  · have e : ∀ i, AEMeasurable (fun ω => (m i ω).row.scat) P := fun i => (alike i).aemeasurable_fst.congr (eqi i)
    exact ⟨e i, e 0, by rw [← Measure.map_congr (eqi i), ← Measure.map_congr (eqi 0)]; exact (alike i).map_eq⟩
  · refine (hsm r h1 h2).trans_eq (measureReal_congr ?_)
    filter_upwards [eqi 0] with ω h
    exact congrArg (· ≤ r) h

/-! ### The hypotheses can be met -/

/-- a muon that scatters by one or two, like a coin falls -/
def coin (b : Bool) : C98.Seen := ⟨⟨(0, 0, 0), (1, 1, 1), if b then 1 else 2, 1, 1, 1, 1, 1, 1, 0⟩, 1, 1⟩

theorem coin_good (b : Bool) : C98.Good (coin b) := by
  have h1 : (1:ℝ) < π / 2 := by have := pi_gt_three; linarith
  exact ⟨one_pos, one_pos, by cases b <;> norm_num [coin], one_pos, ⟨one_pos, h1⟩, one_pos, ⟨one_pos, h1⟩, one_pos, one_pos, rfl⟩

/-- a fair coin, and ever more of them -/
def fair : Measure Bool := (PMF.uniformOfFintype Bool).toMeasure
def coins : Measure (ℕ → Bool) := Measure.infinitePi fun _ => fair

instance : IsProbabilityMeasure fair := by unfold fair; infer_instance
instance : IsProbabilityMeasure coins := by unfold coins; infer_instance

theorem coins_eval (i : ℕ) : MeasurePreserving (fun ω : ℕ → Bool => ω i) coins fair := measurePreserving_eval_infinitePi _ i

theorem coins_muons : Muons coins fun i ω => ω i :=
  ⟨fun i j h => (iIndepFun_infinitePi (P := fun _ : ℕ => fair) (X := fun _ b => b) fun _ => measurable_id).indepFun h,
    fun i => ⟨(coins_eval i).aemeasurable, (coins_eval 0).aemeasurable, by rw [(coins_eval i).map_eq, (coins_eval 0).map_eq]⟩⟩

theorem coins_mean (f : C98.Seen → ℝ) : HasMean coins (fun i ω => ω i) coin f :=
  ⟨Measurable.of_discrete, (coins_eval 0).integrable_comp_of_integrable (g := fun b => f (coin b)) .of_finite⟩

theorem coins_means : Means coins (fun i ω => ω i) coin :=
  ⟨coins_mean _, coins_mean _, coins_mean _, coins_mean _, coins_mean _, coins_mean _, coins_mean _, coins_mean _⟩

theorem coins_vary : ¬ ∃ s, ∀ᵐ ω ∂coins, (coin (ω 0)).row.scat = s := by
  rintro ⟨s, hs⟩
  have h : ∀ᵐ c ∂fair, (coin c).row.scat = s := by
    rw [← (coins_eval 0).map_eq]
    exact (ae_map_iff (coins_eval 0).aemeasurable (MeasurableSet.of_discrete)).mpr hs
  have all : ∀ b : Bool, (coin b).row.scat = s := by
    intro b
    by_contra hb
    have h0 := measure_mono_null (s := {b}) (by intro c hc; rw [Set.mem_singleton_iff.mp hc]; exact hb) (ae_iff.mp h)
    rw [fair, PMF.toMeasure_apply_singleton _ _ (MeasurableSet.singleton b), PMF.uniformOfFintype_apply] at h0
    simp at h0
  have h1 := (all true).trans (all false).symm
  simp [coin] at h1

theorem some_x0 (Q : ℝ) (q0 : 0 < Q) : ∃ x0, 0 < x0 ∧ Q = 2 * C38.theta0FirstOrder x0 1 (1 / cos 1) ^ 2 := by
  have hp := pi_gt_three
  have hc : 0 < cos 1 := cos_pos_of_mem_Ioo ⟨by linarith, by linarith⟩
  have A : 0 < scatterCoefA := by norm_num [scatterCoefA]
  refine ⟨2 * scatterCoefA ^ 2 / (cos 1 * Q), by positivity, ?_⟩
  rw [C38.theta0FirstOrder, mul_pow, sq_sqrt (by positivity)]
  field_simp

theorem coins_pos : 0 < mean coins (fun i ω => ω i) coin (fun m => C98.plain m * m.row.scat ^ 2) / mean coins (fun i ω => ω i) coin C98.plain := by
  have vpos : ∀ m, C98.Good m → 0 < C98.plain m := fun m h => by
    have := h.eff; have := h.prob; have := h.scatUnc
    unfold C98.plain; positivity
  exact div_pos (pos_mean (coins_mean fun m => C98.plain m * m.row.scat ^ 2).2 (ae_of_all _ fun ω => mul_pos (vpos _ (coin_good _)) (pow_pos (coin_good _).scat 2)))
    (pos_mean (coins_mean C98.plain).2 (ae_of_all _ fun ω => vpos _ (coin_good _)))

/-- Ever more coins: what is predicted settles, -/
example : ∀ᵐ ω ∂coins, ∃ X : ℕ → ℝ, (∀ n, 0 < n → C98.predicted 1000 1 ((List.range n).map fun i => coin (ω i)) = .num (X n)) ∧ Tendsto X atTop (𝓝 (limit coins (fun i ω => ω i) coin 1)) :=
  settles _ coins_muons coin coins_means (ae_of_all _ fun _ _ => coin_good _) 1000 1

/-- at more than the radiation length of the material that scatters as strongly on average. -/
example : ∃ x0, 0 < x0 ∧ x0 < limit coins (fun i ω => ω i) coin 1 ∧
    mean coins (fun i ω => ω i) coin (fun m => C98.plain m * m.row.scat ^ 2) / mean coins (fun i ω => ω i) coin C98.plain = 2 * C38.theta0FirstOrder x0 1 (1 / cos 1) ^ 2 := by
  obtain ⟨x0, hx, havg⟩ := some_x0 _ coins_pos
  have hr : ∀ᵐ ω ∂coins, (coin (ω 0)).row.thIn = 1 ∧ (coin (ω 0)).row.thOut = 1 ∧ (coin (ω 0)).row.mom = 1 := ae_of_all _ fun ω => by simp [coin]
  exact ⟨x0, hx, biased_violated (P := coins) (fun i ω => ω i) coin coins_means (ae_of_all _ fun ω i => coin_good _) (coins_mean fun m => C98.plain m * m.row.scat ^ 2) 1 x0 1 1 one_pos hx hr havg coins_vary, havg⟩

/-- a muon that comes in under 45 degrees -/
def slanted : Muon := ⟨0, 0, 0, 0, 1, π / 4, 0⟩

/-- a muon turned by an angle, as a voxel sees it -/
def seen (angle : ℝ) : C98.Seen := ⟨⟨(0, 0, 0), (1, 1, 1), angle, 1, 1, 1, 1, 1, 1, 0⟩, 1, 1⟩

/-- Simulated muons: they are kept almost surely, and what is predicted from them grows without bound. -/
example : ∃ (P : Measure (ℕ → ℝ × ℝ)) (d : ℕ → (ℕ → ℝ × ℝ) → Draw) (m : ℕ → (ℕ → ℝ × ℝ) → C98.Seen), IsProbabilityMeasure P ∧
    (∀ᵐ ω ∂P, ∀ i, TurnedBy 1 1 1 slanted (d i ω) (m i ω).row.scat) ∧
    ∀ᵐ ω ∂P, ∃ X : ℕ → ℝ, (∀ n, 0 < n → C98.predicted 1000 1 ((List.range n).map fun i => m i ω) = .num (X n)) ∧ Tendsto X atTop atTop := by
  let P : Measure (ℕ → ℝ × ℝ) := Measure.infinitePi fun _ => (gaussianReal 0 1).prod (gaussianReal 0 1)
  have mp : ∀ i, MeasurePreserving (fun ω : ℕ → ℝ × ℝ => ω i) P ((gaussianReal 0 1).prod (gaussianReal 0 1)) := fun i => measurePreserving_eval_infinitePi _ i
  have ht : pdgTheta0 1 1 1 ≠ 0 := by norm_num [pdgTheta0, scatterCoefA]
  have hp := pi_gt_three
  have hdown : Downward slanted := ⟨by simp only [slanted]; positivity, by simp only [slanted]; linarith, le_rfl, by simp only [slanted]; linarith⟩
  have clamp : 1 < tan (π / 2.2) := by
    rw [← tan_pi_div_four]
    refine tan_lt_tan_of_lt_of_lt_pi_div_two (by linarith) ?_ ?_
    · exact div_lt_div_of_pos_left pi_pos (by norm_num) (by norm_num)
    · exact div_lt_div_of_pos_left pi_pos (by norm_num) (by norm_num)
  let d : ℕ → (ℕ → ℝ × ℝ) → Draw := fun i ω => ⟨0, 0, (ω i).1, (ω i).2⟩
  let m : ℕ → (ℕ → ℝ × ℝ) → C98.Seen := fun i ω => seen (turned (π / 4) (pdgTheta0 1 1 1) (ω i))
  have null : ∀ᵐ ω ∂P, ∀ i, tan (pdgDtheta (ω i).1 (pdgTheta0 1 1 1)) ≠ 0 ∧ tan (pdgDtheta (ω i).2 (pdgTheta0 1 1 1)) ≠ 1 := by
    refine ae_all_iff.mpr fun i => ?_
    have h1 : ∀ᵐ z ∂(gaussianReal 0 1), tan (pdgDtheta z (pdgTheta0 1 1 1)) ≠ 0 := by
      have := draws_null _ 0 ht (by linarith)
      rw [ae_iff]; simpa using this
    have h2 : ∀ᵐ z ∂(gaussianReal 0 1), tan (pdgDtheta z (pdgTheta0 1 1 1)) ≠ 1 := by
      have := draws_null _ 1 ht (by linarith)
      rw [ae_iff]; simpa using this
    have k1 := (Measure.quasiMeasurePreserving_fst (μ := gaussianReal 0 1) (ν := gaussianReal 0 1)).ae h1
    have k2 := (Measure.quasiMeasurePreserving_snd (μ := gaussianReal 0 1) (ν := gaussianReal 0 1)).ae h2
    exact (mp i).quasiMeasurePreserving.ae (k1.and k2)
  have kept : ∀ᵐ ω ∂P, ∀ i, TurnedBy 1 1 1 slanted (d i ω) (m i ω).row.scat := null.mono fun ω h i => by
    obtain ⟨n1, n2⟩ := h i
    have p4 : π / 4 ≠ 0 := by positivity
    obtain ⟨mu', hk⟩ := is_kept 1 1 1 (d i ω) slanted hdown _ rfl _ _ rfl rfl _ rfl (by
      simp only [comb3, dir, axis0, axis1, slanted, p4, if_false, cos_pi_div_four, sin_pi_div_four, d]
      intro h0
      have s2 : (0:ℝ) < sqrt 2 := by positivity
      apply n2
      have : sqrt 2 / 2 * (tan (pdgDtheta (ω i).2 (pdgTheta0 1 1 1)) - 1) = 0 := by linarith
      rcases mul_eq_zero.mp this with h | h
      · linarith
      · linarith) (Or.inr (by
      simp only [comb3, dir, axis0, axis1, slanted, p4, if_false, d]
      simpa using n1))
    exact ⟨mu', hk, turned_angle 1 1 1 (d i ω) slanted mu' hdown _ rfl hk⟩
  have pos : ∀ᵐ ω ∂P, ∀ i, C98.Good (m i ω) := null.mono fun ω h i => by
    have h1 : (1:ℝ) < π / 2 := by linarith
    refine ⟨one_pos, one_pos, ?_, one_pos, ⟨one_pos, h1⟩, one_pos, ⟨one_pos, h1⟩, one_pos, one_pos, rfl⟩
    have sl : 1 < slope (pdgTheta0 1 1 1) (ω i) := by
      rw [slope, lt_sqrt (by norm_num)]
      have := pow_pos (abs_pos.mpr (h i).1) 2
      rw [sq_abs] at this
      nlinarith [sq_nonneg (tan (pdgDtheta (ω i).2 (pdgTheta0 1 1 1)))]
    change 0 < turned _ _ _
    rw [turned]
    split
    · exact arccos_pos.mpr (by rw [div_lt_one (by linarith)]; exact sl)
    · exact arccos_pos.mpr (by rw [div_lt_one (by linarith)]; linarith)
  refine ⟨P, d, m, inferInstance, kept, ?_⟩
  exact simulated_violated 1 1 1 ht slanted hdown d (fun i => (mp i).aemeasurable) (fun i => (mp i).map_eq)
    (fun i j h => (iIndepFun_infinitePi (P := fun _ : ℕ => (gaussianReal 0 1).prod (gaussianReal 0 1)) (X := fun _ b => b) fun _ => measurable_id).indepFun h) m kept pos 1 1 1 1 1 one_pos one_pos
    (ae_of_all _ fun ω i => by norm_num [m, seen]) 1000 1 one_pos

end C132

end

end Tomopt
