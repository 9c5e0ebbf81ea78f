import Verif.Model.Layer
import Mathlib.Probability.Moments.Variance
import Mathlib.Probability.Distributions.Gaussian.Real
import Mathlib.Probability.Independence.InfinitePi
import Mathlib.Probability.Independence.Integration

/- C97: how strongly material scatters. -/
namespace Tomopt

noncomputable section

open Real MeasureTheory ProbabilityTheory

namespace C97

/-- Width of the projected scattering angle of a muon of momentum `p` (GeV) in `n` radiation lengths (PDG review, "Multiple scattering through small angles"). -/
def highland (p n : ℝ) : ℝ := 0.0136 / p * sqrt n * (1 + 0.038 * log n)

/-- **C97: width.** The width of a step is the PDG's for the radiation lengths of the step. -/
theorem width (x0 p s : ℝ) : pdgTheta0 x0 p s = highland p (s / x0) := rfl

theorem factor_pos (n : ℝ) (hn : exp (-26) ≤ n) : 0 < 1 + 0.038 * log n := by
  have h : -26 ≤ log n := by rw [← log_exp (-26)]; exact log_le_log (exp_pos _) hn
  norm_num at h ⊢
  linarith

/-- **C97: width.** It is positive, inversely proportional to the momentum and grows with the thickness and shrinks with the radiation length. -/
theorem width_laws (p : ℝ) (hp : 0 < p) :
    (∀ n, exp (-26) ≤ n → 0 < highland p n) ∧ StrictMonoOn (highland p) (Set.Ici (exp (-26))) ∧ ∀ k n, k ≠ 0 → highland (k * p) n = highland p n / k := by
  refine ⟨fun n hn => ?_, fun a ha b hb hab => ?_, fun k n hk => ?_⟩
  · have := factor_pos n hn
    have hn0 : 0 < n := lt_of_lt_of_le (exp_pos _) hn
    unfold highland
    positivity
  · have ha0 : 0 < a := lt_of_lt_of_le (exp_pos _) ha
    have h1 := factor_pos a ha
    unfold highland
    apply mul_lt_mul'' _ _ (by positivity) h1.le
    · exact mul_lt_mul_of_pos_left (sqrt_lt_sqrt ha0.le hab) (by positivity)
    · have := log_lt_log ha0 hab
      norm_num at this ⊢
      linarith
  · unfold highland
    field_simp

/-- **C97, violated for very thin steps.** Below about `exp (-26.3)` radiation lengths the width is negative. -/
theorem thin_violated (p n : ℝ) (hp : 0 < p) (h0 : 0 < n) (hn : n ≤ exp (-27)) : highland p n < 0 := by
  have h : log n ≤ -27 := by rw [← log_exp (-27)]; exact log_le_log h0 hn
  have : 1 + 0.038 * log n < 0 := by norm_num at h ⊢; linarith
  unfold highland
  exact mul_neg_of_pos_of_neg (by positivity) this

/-- Two independent standard draws. -/
structure Draws {Ω : Type} [MeasurableSpace Ω] (P : Measure Ω) (z1 z2 : Ω → ℝ) : Prop where
  sq1 : MemLp z1 2 P
  sq2 : MemLp z2 2 P
  mean1 : ∫ ω, z1 ω ∂P = 0
  mean2 : ∫ ω, z2 ω ∂P = 0
  var1 : ∫ ω, z1 ω ^ 2 ∂P = 1
  var2 : ∫ ω, z2 ω ^ 2 ∂P = 1
  cross : ∫ ω, z1 ω * z2 ω ∂P = 0

/-- means of products of two linear combinations of the draws -/
theorem bilin {Ω : Type} [MeasurableSpace Ω] (P : Measure Ω) (z1 z2 : Ω → ℝ) (h : Draws P z1 z2) (a b c d : ℝ) :
    ∫ ω, (a * z1 ω + b * z2 ω) * (c * z1 ω + d * z2 ω) ∂P = a * c + b * d := by
  have i1 := h.sq1.integrable_sq
  have i2 := h.sq2.integrable_sq
  have i3 : Integrable (fun ω => z1 ω * z2 ω) P := h.sq1.integrable_mul h.sq2
  have e : (fun ω => (a * z1 ω + b * z2 ω) * (c * z1 ω + d * z2 ω)) =
      fun ω => (a * c) * z1 ω ^ 2 + (b * d) * z2 ω ^ 2 + (a * d + b * c) * (z1 ω * z2 ω) := by
    funext ω; ring
  have i12 : Integrable (fun ω => (a * c) * z1 ω ^ 2 + (b * d) * z2 ω ^ 2) P := (i1.const_mul _).add (i2.const_mul _)
  rw [e, integral_add i12 (i3.const_mul _), integral_add (i1.const_mul _) (i2.const_mul _),
    integral_const_mul, integral_const_mul, integral_const_mul, h.var1, h.var2, h.cross]
  ring

theorem lin {Ω : Type} [MeasurableSpace Ω] (P : Measure Ω) [IsProbabilityMeasure P] (z1 z2 : Ω → ℝ) (h : Draws P z1 z2) (a b : ℝ) :
    ∫ ω, (a * z1 ω + b * z2 ω) ∂P = 0 := by
  have i1 := h.sq1.integrable one_le_two
  have i2 := h.sq2.integrable one_le_two
  rw [integral_add (i1.const_mul _) (i2.const_mul _), integral_const_mul, integral_const_mul, h.mean1, h.mean2]
  ring

theorem dxy_lin (s t z1 z2 : ℝ) : pdgDxy s t z1 z2 = s * t / sqrt 12 * z1 + s * t / 2 * z2 := by unfold pdgDxy; ring

/-- **C97: displacement.** The sideways displacement over a step `s` has mean zero and variance `s² t² / 3`, and its correlation with the
angle `t z2` is the PDG's (covariance `s t² / 2`), for every distribution of independent standard draws. -/
theorem displacement {Ω : Type} [MeasurableSpace Ω] (P : Measure Ω) [IsProbabilityMeasure P] (z1 z2 : Ω → ℝ) (h : Draws P z1 z2) (s t : ℝ) :
    ∫ ω, pdgDxy s t (z1 ω) (z2 ω) ∂P = 0 ∧ ∫ ω, pdgDxy s t (z1 ω) (z2 ω) ^ 2 ∂P = s ^ 2 * t ^ 2 / 3 ∧
      ∫ ω, pdgDxy s t (z1 ω) (z2 ω) * (t * z2 ω) ∂P = s * t ^ 2 / 2 := by
  have hq : sqrt 12 ^ 2 = 12 := sq_sqrt (by norm_num)
  refine ⟨?_, ?_, ?_⟩
  · simp_rw [dxy_lin]; exact lin P z1 z2 h _ _
  · simp_rw [dxy_lin, pow_two (_ * z1 _ + _)]
    rw [bilin P z1 z2 h, div_mul_div_comm, ← pow_two (sqrt 12), hq]
    ring
  · simp_rw [dxy_lin]
    have := bilin P z1 z2 h (s * t / sqrt 12) (s * t / 2) 0 t
    simp only [zero_mul, zero_add] at this
    rw [this]; ring

/-- **C97: angle.** As long as a draw is not cut, the angle is `t z2`: mean zero, variance `t²`. -/
theorem angle {Ω : Type} [MeasurableSpace Ω] (P : Measure Ω) [IsProbabilityMeasure P] (z1 z2 : Ω → ℝ) (h : Draws P z1 z2) (t : ℝ)
    (hcut : ∀ ω, z2 ω * t ≤ π / 2.2) : ∫ ω, pdgDtheta (z2 ω) t ∂P = 0 ∧ ∫ ω, pdgDtheta (z2 ω) t ^ 2 ∂P = t ^ 2 := by
  have e : (fun ω => pdgDtheta (z2 ω) t) = fun ω => 0 * z1 ω + t * z2 ω := by
    funext ω; unfold pdgDtheta; rw [min_eq_left (hcut ω)]; ring
  have e2 : (fun ω => pdgDtheta (z2 ω) t ^ 2) = fun ω => (0 * z1 ω + t * z2 ω) * (0 * z1 ω + t * z2 ω) := by
    funext ω; rw [← congrFun e ω, pow_two]
  rw [e, e2, lin P z1 z2 h, bilin P z1 z2 h]
  exact ⟨rfl, by ring⟩

/-- **C97, violated: the cut is one-sided.** Only large positive angles are cut, so whenever the cut can act the scattering has a preferred side: its mean is negative. -/
theorem one_sided_violated {Ω : Type} [MeasurableSpace Ω] (P : Measure Ω) [IsProbabilityMeasure P] (z : Ω → ℝ) (hz : Integrable z P) (h0 : ∫ ω, z ω ∂P = 0) (t : ℝ)
    (hcut : 0 < P {ω | π / 2.2 < z ω * t}) : ∫ ω, pdgDtheta (z ω) t ∂P < 0 := by
  have hi : Integrable (fun ω => z ω * t) P := hz.mul_const t
  have hm : Integrable (fun ω => pdgDtheta (z ω) t) P := hi.inf (integrable_const _)
  have hd : 0 < ∫ ω, (z ω * t - pdgDtheta (z ω) t) ∂P := by
    have hn : 0 ≤ fun ω => z ω * t - pdgDtheta (z ω) t := fun ω => sub_nonneg.2 (min_le_left _ _)
    rw [integral_pos_iff_support_of_nonneg hn (hi.sub hm)]
    refine lt_of_lt_of_le hcut (measure_mono fun ω hω => ?_)
    have hω : π / 2.2 < z ω * t := hω
    simp only [Function.mem_support, pdgDtheta, min_eq_right hω.le]
    exact (sub_pos.2 hω).ne'
  rw [integral_sub hi hm, integral_mul_const, h0] at hd
  linarith

/-- **C97, violated: the cut is one-sided.** With the normal draws of the simulation this is so for every width. -/
theorem normal_violated (t : ℝ) (ht : t ≠ 0) : ∫ z, pdgDtheta z t ∂(gaussianReal 0 1) < 0 := by
  apply one_sided_violated (gaussianReal 0 1) (fun z => z) ((memLp_id_gaussianReal 1).integrable le_rfl) integral_id_gaussianReal t
  have hac := gaussianReal_absolutelyContinuous' 0 (v := 1) one_ne_zero
  rw [pos_iff_ne_zero]
  intro h
  have hv := hac h
  have ho : IsOpen {z : ℝ | π / 2.2 < z * t} := isOpen_lt continuous_const (continuous_mul_const t)
  have hne : {z : ℝ | π / 2.2 < z * t}.Nonempty := ⟨(π / 2.2 + 1) / t, by
    show π / 2.2 < (π / 2.2 + 1) / t * t
    rw [div_mul_cancel₀ _ ht]; linarith⟩
  exact (ho.measure_pos volume hne).ne' hv

/-- The normal draws of the simulation are standard draws. -/
theorem normal_draws : Draws ((gaussianReal 0 1).prod (gaussianReal 0 1)) (fun ω : ℝ × ℝ => ω.1) fun ω => ω.2 := by
  have hs : MemLp (id : ℝ → ℝ) 2 (gaussianReal 0 1) := memLp_id_gaussianReal 2
  have hv : ∫ x : ℝ, x ^ 2 ∂(gaussianReal 0 1) = 1 := by
    have := variance_fun_id_gaussianReal (μ := 0) (v := 1)
    rw [variance_eq_integral (by fun_prop), integral_id_gaussianReal] at this
    simpa using this
  have hi : ∫ x : ℝ, x ∂(gaussianReal 0 1) = 0 := integral_id_gaussianReal
  refine ⟨hs.comp_fst _, hs.comp_snd _, ?_, ?_, ?_, ?_, ?_⟩
  · simp [integral_fun_fst (fun x : ℝ => x)]
  · simp [integral_fun_snd (fun x : ℝ => x)]
  · simpa [integral_fun_fst (fun x : ℝ => x ^ 2)] using hv
  · simpa [integral_fun_snd (fun x : ℝ => x ^ 2)] using hv
  · have := integral_prod_mul (μ := gaussianReal 0 1) (ν := gaussianReal 0 1) (fun x : ℝ => x) (fun x : ℝ => x)
    rw [this, hi, zero_mul]

/-- Draws of successive steps: those of one step are standard, those of different steps uncorrelated. -/
structure Steps {Ω : Type} [MeasurableSpace Ω] (P : Measure Ω) (z1 z2 : Nat → Ω → ℝ) : Prop where
  one : ∀ i, Draws P (z1 i) (z2 i)
  c11 : ∀ i j, i ≠ j → ∫ ω, z1 i ω * z1 j ω ∂P = 0
  c12 : ∀ i j, i ≠ j → ∫ ω, z1 i ω * z2 j ω ∂P = 0
  c22 : ∀ i j, i ≠ j → ∫ ω, z2 i ω * z2 j ω ∂P = 0

/-- Offset and slope, to first order in the angles, of a muon entering along the axis after `k` steps of length `s` and width `t`: each step it flies along
its slope, is displaced as drawn, and then bent as drawn, to the side it is displaced to (`σ = 1`, as in the PDG review) or to the other (`σ = -1`, as in the code). -/
def walk (σ s t : ℝ) (z1 z2 : Nat → ℝ) : Nat → ℝ × ℝ
  | 0 => (0, 0)
  | k + 1 => let (y, a) := walk σ s t z1 z2 k; (y + s * a + pdgDxy s t (z1 k) (z2 k), a + σ * t * z2 k)

theorem walk_memLp {Ω : Type} [MeasurableSpace Ω] (P : Measure Ω) (z1 z2 : Nat → Ω → ℝ) (h : Steps P z1 z2) (σ s t : ℝ) (k : Nat) :
    MemLp (fun ω => (walk σ s t (z1 · ω) (z2 · ω) k).1) 2 P ∧ MemLp (fun ω => (walk σ s t (z1 · ω) (z2 · ω) k).2) 2 P := by
  induction k with
  | zero => simp [walk]
  | succ k ih =>
    refine ⟨?_, ih.2.add ((h.one k).sq2.const_mul (σ * t))⟩
    have e : (fun ω => (walk σ s t (z1 · ω) (z2 · ω) (k + 1)).1) =
        fun ω => (walk σ s t (z1 · ω) (z2 · ω) k).1 + s * (walk σ s t (z1 · ω) (z2 · ω) k).2 + (s * t / sqrt 12 * z1 k ω + s * t / 2 * z2 k ω) := by
      funext ω; simp only [walk, dxy_lin]
    rw [e]
    exact (ih.1.add (ih.2.const_mul s)).add (((h.one k).sq1.const_mul _).add ((h.one k).sq2.const_mul _))

/-- mean of a product with a sum of four -/
theorem int4 {Ω : Type} [MeasurableSpace Ω] (P : Measure Ω) (f1 f2 f3 f4 g : Ω → ℝ) (h1 : MemLp f1 2 P) (h2 : MemLp f2 2 P) (h3 : MemLp f3 2 P) (h4 : MemLp f4 2 P)
    (hg : MemLp g 2 P) (a b c d : ℝ) : ∫ ω, (a * f1 ω + b * f2 ω + c * f3 ω + d * f4 ω) * g ω ∂P =
      a * ∫ ω, f1 ω * g ω ∂P + b * ∫ ω, f2 ω * g ω ∂P + c * ∫ ω, f3 ω * g ω ∂P + d * ∫ ω, f4 ω * g ω ∂P := by
  have i1 : Integrable (fun ω => f1 ω * g ω) P := h1.integrable_mul hg
  have i2 : Integrable (fun ω => f2 ω * g ω) P := h2.integrable_mul hg
  have i3 : Integrable (fun ω => f3 ω * g ω) P := h3.integrable_mul hg
  have i4 : Integrable (fun ω => f4 ω * g ω) P := h4.integrable_mul hg
  have j2 : Integrable (fun ω => a * (f1 ω * g ω) + b * (f2 ω * g ω)) P := (i1.const_mul a).add (i2.const_mul b)
  have j3 : Integrable (fun ω => a * (f1 ω * g ω) + b * (f2 ω * g ω) + c * (f3 ω * g ω)) P := j2.add (i3.const_mul c)
  have e : (fun ω => (a * f1 ω + b * f2 ω + c * f3 ω + d * f4 ω) * g ω) =
      fun ω => a * (f1 ω * g ω) + b * (f2 ω * g ω) + c * (f3 ω * g ω) + d * (f4 ω * g ω) := by funext ω; ring
  rw [e, integral_add j3 (i4.const_mul d), integral_add j2 (i3.const_mul c), integral_add (i1.const_mul a) (i2.const_mul b)]
  simp only [integral_const_mul]

/-- the walk so far is uncorrelated with later draws -/
theorem walk_fresh {Ω : Type} [MeasurableSpace Ω] (P : Measure Ω) (z1 z2 : Nat → Ω → ℝ) (h : Steps P z1 z2) (σ s t : ℝ) (k : Nat) : ∀ j, k ≤ j →
    ∫ ω, (walk σ s t (z1 · ω) (z2 · ω) k).1 * z1 j ω ∂P = 0 ∧ ∫ ω, (walk σ s t (z1 · ω) (z2 · ω) k).1 * z2 j ω ∂P = 0 ∧
    ∫ ω, (walk σ s t (z1 · ω) (z2 · ω) k).2 * z1 j ω ∂P = 0 ∧ ∫ ω, (walk σ s t (z1 · ω) (z2 · ω) k).2 * z2 j ω ∂P = 0 := by
  induction k with
  | zero => intro j _; simp [walk]
  | succ k ih =>
    intro j hj
    obtain ⟨m1, m2⟩ := walk_memLp P z1 z2 h σ s t k
    obtain ⟨a1, a2, a3, a4⟩ := ih j (by omega)
    have hkj : k ≠ j := by omega
    have e1 : ∀ ω, (walk σ s t (z1 · ω) (z2 · ω) (k + 1)).1 = 1 * (walk σ s t (z1 · ω) (z2 · ω) k).1 + s * (walk σ s t (z1 · ω) (z2 · ω) k).2 +
        s * t / sqrt 12 * z1 k ω + s * t / 2 * z2 k ω := by
      intro ω; simp only [walk, dxy_lin]; ring
    have e2 : ∀ ω, (walk σ s t (z1 · ω) (z2 · ω) (k + 1)).2 = 0 * (walk σ s t (z1 · ω) (z2 · ω) k).1 + 1 * (walk σ s t (z1 · ω) (z2 · ω) k).2 + 0 * z1 k ω + σ * t * z2 k ω := by
      intro ω; simp only [walk]; ring
    have c21 : ∫ ω, z2 k ω * z1 j ω ∂P = 0 := by
      rw [← h.c12 j k hkj.symm]; congr 1; funext ω; ring
    simp only [e1, e2]
    rw [int4 P _ _ _ _ _ m1 m2 (h.one k).sq1 (h.one k).sq2 (h.one j).sq1, int4 P _ _ _ _ _ m1 m2 (h.one k).sq1 (h.one k).sq2 (h.one j).sq2,
      int4 P _ _ _ _ _ m1 m2 (h.one k).sq1 (h.one k).sq2 (h.one j).sq1, int4 P _ _ _ _ _ m1 m2 (h.one k).sq1 (h.one k).sq2 (h.one j).sq2,
      a1, a2, a3, a4, h.c11 k j hkj, h.c12 k j hkj, h.c22 k j hkj, c21]
    simp

/-- moments of the walk, for either sign -/
theorem walk_moments {Ω : Type} [MeasurableSpace Ω] (P : Measure Ω) (z1 z2 : Nat → Ω → ℝ) (h : Steps P z1 z2) (σ s t : ℝ) (hσ : σ ^ 2 = 1) (k : Nat) :
    ∫ ω, (walk σ s t (z1 · ω) (z2 · ω) k).1 ^ 2 ∂P = s ^ 2 * t ^ 2 * ((k : ℝ) ^ 3 / 3 - k ^ 2 / 2 + k / 2 + σ * (k ^ 2 - k) / 2) ∧
    ∫ ω, (walk σ s t (z1 · ω) (z2 · ω) k).2 ^ 2 ∂P = k * t ^ 2 ∧
    ∫ ω, (walk σ s t (z1 · ω) (z2 · ω) k).1 * (walk σ s t (z1 · ω) (z2 · ω) k).2 ∂P = s * t ^ 2 * ((k : ℝ) * (k - 1) / 2 + σ * k / 2) := by
  induction k with
  | zero => simp [walk]
  | succ k ih =>
    obtain ⟨m1, m2⟩ := walk_memLp P z1 z2 h σ s t k
    obtain ⟨M1, M2⟩ := walk_memLp P z1 z2 h σ s t (k + 1)
    obtain ⟨f1, f2, f3, f4⟩ := walk_fresh P z1 z2 h σ s t k k le_rfl
    obtain ⟨g1, g2, g3⟩ := ih
    have e1 : ∀ ω, (walk σ s t (z1 · ω) (z2 · ω) (k + 1)).1 = 1 * (walk σ s t (z1 · ω) (z2 · ω) k).1 + s * (walk σ s t (z1 · ω) (z2 · ω) k).2 +
        s * t / sqrt 12 * z1 k ω + s * t / 2 * z2 k ω := by
      intro ω; simp only [walk, dxy_lin]; ring
    have e2 : ∀ ω, (walk σ s t (z1 · ω) (z2 · ω) (k + 1)).2 = 0 * (walk σ s t (z1 · ω) (z2 · ω) k).1 + 1 * (walk σ s t (z1 · ω) (z2 · ω) k).2 + 0 * z1 k ω + σ * t * z2 k ω := by
      intro ω; simp only [walk]; ring
    have d1 := (h.one k).sq1
    have d2 := (h.one k).sq2
    have cm : ∀ f g : Ω → ℝ, ∫ ω, f ω * g ω ∂P = ∫ ω, g ω * f ω ∂P := fun f g => by congr 1; funext ω; ring
    have v1 : ∫ ω, z1 k ω * z1 k ω ∂P = 1 := by rw [← (h.one k).var1]; congr 1; funext ω; ring
    have v2 : ∫ ω, z2 k ω * z2 k ω ∂P = 1 := by rw [← (h.one k).var2]; congr 1; funext ω; ring
    have v12 := (h.one k).cross
    have v21 : ∫ ω, z2 k ω * z1 k ω ∂P = 0 := by rw [cm]; exact v12
    simp only [pow_two] at g1 g2
    -- products of the new offset and slope with each of the four parts
    have p1 : ∫ ω, (walk σ s t (z1 · ω) (z2 · ω) (k + 1)).1 * (walk σ s t (z1 · ω) (z2 · ω) k).1 ∂P = s ^ 2 * t ^ 2 * ((k : ℝ) ^ 3 / 3 - k ^ 2 / 2 + k / 2 + σ * (k ^ 2 - k) / 2) + s * (s * t ^ 2 * ((k : ℝ) * (k - 1) / 2 + σ * k / 2)) := by
      simp only [e1]
      rw [int4 P _ _ _ _ _ m1 m2 d1 d2 m1, g1, cm (fun ω => (walk σ s t (z1 · ω) (z2 · ω) k).2), g3, cm (z1 k), f1, cm (z2 k), f2]; ring
    have p2 : ∫ ω, (walk σ s t (z1 · ω) (z2 · ω) (k + 1)).1 * (walk σ s t (z1 · ω) (z2 · ω) k).2 ∂P = s * t ^ 2 * ((k : ℝ) * (k - 1) / 2 + σ * k / 2) + s * (k * t ^ 2) := by
      simp only [e1]
      rw [int4 P _ _ _ _ _ m1 m2 d1 d2 m2, g3, g2, cm (z1 k), f3, cm (z2 k), f4]; ring
    have p3 : ∫ ω, (walk σ s t (z1 · ω) (z2 · ω) (k + 1)).1 * z1 k ω ∂P = s * t / sqrt 12 := by
      simp only [e1]
      rw [int4 P _ _ _ _ _ m1 m2 d1 d2 d1, f1, f3, v1, v21]; ring
    have p4 : ∫ ω, (walk σ s t (z1 · ω) (z2 · ω) (k + 1)).1 * z2 k ω ∂P = s * t / 2 := by
      simp only [e1]
      rw [int4 P _ _ _ _ _ m1 m2 d1 d2 d2, f2, f4, v12, v2]; ring
    have q2 : ∫ ω, (walk σ s t (z1 · ω) (z2 · ω) (k + 1)).2 * (walk σ s t (z1 · ω) (z2 · ω) k).2 ∂P = k * t ^ 2 := by
      simp only [e2]
      rw [int4 P _ _ _ _ _ m1 m2 d1 d2 m2, g2, cm (z2 k), f4]; ring
    have q4 : ∫ ω, (walk σ s t (z1 · ω) (z2 · ω) (k + 1)).2 * z2 k ω ∂P = σ * t := by
      simp only [e2]
      rw [int4 P _ _ _ _ _ m1 m2 d1 d2 d2, f4, v2]; ring
    have hq : sqrt 12 ^ 2 = 12 := sq_sqrt (by norm_num)
    refine ⟨?_, ?_, ?_⟩
    · simp only [pow_two (walk _ _ _ _ _ (k + 1)).1]
      conv_lhs => enter [2, ω, 1]; rw [e1 ω]
      rw [int4 P _ _ _ _ _ m1 m2 d1 d2 M1, cm, p1, cm (fun ω => (walk σ s t (z1 · ω) (z2 · ω) k).2), p2, cm (z1 k), p3, cm (z2 k), p4,
        div_mul_div_comm, ← pow_two (sqrt 12), hq]
      push_cast; ring
    · simp only [pow_two (walk _ _ _ _ _ (k + 1)).2]
      conv_lhs => enter [2, ω, 1]; rw [e2 ω]
      rw [int4 P _ _ _ _ _ m1 m2 d1 d2 M2, cm (fun ω => (walk σ s t (z1 · ω) (z2 · ω) k).2), q2, cm (z2 k), q4]
      push_cast; linear_combination t ^ 2 * hσ
    · rw [cm]
      conv_lhs => enter [2, ω, 1]; rw [e2 ω]
      rw [int4 P _ _ _ _ _ m1 m2 d1 d2 M1, cm (fun ω => (walk σ s t (z1 · ω) (z2 · ω) k).2), p2, cm (z2 k), p4]
      push_cast; ring

/-- **C97: subdividing.** To first order in the angles, `k` steps of length `s` and width `t` would give the displacement, the angle and their correlation of one step of
length `k s` and width `√k t`, if every step bent to the side it displaces to. -/
theorem subdivision {Ω : Type} [MeasurableSpace Ω] (P : Measure Ω) (z1 z2 : Nat → Ω → ℝ) (h : Steps P z1 z2) (s t : ℝ) (k : Nat) :
    ∫ ω, (walk 1 s t (z1 · ω) (z2 · ω) k).1 ^ 2 ∂P = (k * s) ^ 2 * (k * t ^ 2) / 3 ∧
    ∫ ω, (walk 1 s t (z1 · ω) (z2 · ω) k).2 ^ 2 ∂P = k * t ^ 2 ∧
    ∫ ω, (walk 1 s t (z1 · ω) (z2 · ω) k).1 * (walk 1 s t (z1 · ω) (z2 · ω) k).2 ∂P = (k * s) * (k * t ^ 2) / 2 := by
  obtain ⟨h1, h2, h3⟩ := walk_moments P z1 z2 h 1 s t (by norm_num) k
  refine ⟨?_, h2, ?_⟩
  · rw [h1]; ring
  · rw [h3]; ring

/-- **C97, violated: subdividing.** With the sign of the code the displacement over several steps is too small, the more so the fewer steps there are: its variance
is `s² t² (k³/3 - k² + k)` in place of `s² t² k³/3` (a quarter for two steps). -/
theorem subdivision_violated {Ω : Type} [MeasurableSpace Ω] (P : Measure Ω) (z1 z2 : Nat → Ω → ℝ) (h : Steps P z1 z2) (s t : ℝ) (hs : s ≠ 0) (ht : t ≠ 0) (k : Nat) (hk : 2 ≤ k) :
    ∫ ω, (walk (-1) s t (z1 · ω) (z2 · ω) k).1 ^ 2 ∂P = s ^ 2 * t ^ 2 * ((k : ℝ) ^ 3 / 3 - k ^ 2 + k) ∧
    ∫ ω, (walk (-1) s t (z1 · ω) (z2 · ω) k).1 ^ 2 ∂P < (k * s) ^ 2 * (k * t ^ 2) / 3 := by
  obtain ⟨h1, -, -⟩ := walk_moments P z1 z2 h (-1) s t (by norm_num) k
  have hk' : (2 : ℝ) ≤ k := by exact_mod_cast hk
  refine ⟨by rw [h1]; ring, ?_⟩
  rw [h1]
  have : 0 < s ^ 2 * t ^ 2 * ((k : ℝ) * (k - 1)) := by
    have : 0 < (k : ℝ) - 1 := by linarith
    positivity
  nlinarith

/-- The signs of the code, for a muon flying straight down: it is displaced by the drawn displacement and bent by minus the drawn angle (to the same axes). -/
theorem vertical (x0 ph p s : ℝ) (d : Draw) (hx : -(π / 2) < d.z2x * highland p (s / x0)) (hy : -(π / 2) < d.z2y * highland p (s / x0)) :
    let r := pdgScatter x0 0 ph (some 0) (some 0) p s d
    let t := highland p (s / x0)
    r.dx = s * t * (d.z1x / sqrt 12 + d.z2x / 2) ∧ r.dy = s * t * (d.z1y / sqrt 12 + d.z2y / 2) ∧ r.dz = 0 ∧
      r.dtx = some (-(min (d.z2x * t) (π / 2.2))) ∧ r.dty = some (-(min (d.z2y * t) (π / 2.2))) := by
  have hlt : π / 2.2 < π / 2 := by
    apply div_lt_div_of_pos_left pi_pos (by norm_num) (by norm_num)
  have at1 : ∀ z : ℝ, -(π / 2) < z → arctanDiv (tan (min z (π / 2.2))) (-1) = some (-(min z (π / 2.2))) := by
    intro z hz
    have h2 : min z (π / 2.2) < π / 2 := lt_of_le_of_lt (min_le_right _ _) hlt
    have h1 : -(π / 2) < min z (π / 2.2) := lt_min hz (by have h3 : 0 < π / 2.2 := (by positivity); have := pi_pos; linarith)
    simp [arctanDiv, div_neg, arctan_neg, arctan_tan h1 h2]
  intro r t
  refine ⟨?_, ?_, ?_, ?_, ?_⟩
  · simp [r, pdgScatter, pdgDxVol, pdgDxy, width, t]
  · simp [r, pdgScatter, pdgDyVol, pdgDxy, width, t]
  · simp [r, pdgScatter, pdgDzVol]
  · have := at1 _ hx
    simp [r, pdgScatter, pdgDOut, width, t, pdgDtheta]
    simpa using this
  · have := at1 _ hy
    simp [r, pdgScatter, pdgDOut, width, t, pdgDtheta]
    simpa using this

example : highland 0.0136 1 = 1 ∧ -(π / 2) < 1 * highland 0.0136 1 := by
  have : highland 0.0136 1 = 1 := by unfold highland; norm_num
  rw [this]
  exact ⟨rfl, by have := pi_pos; linarith⟩

/-- Variance of the angle after `n` radiation lengths crossed in `k` equal steps. -/
def total (p n : ℝ) (k : Nat) : ℝ := k * highland p (n / k) ^ 2

/-- **C97, violated: the step matters.** Because of the logarithm, the same material scatters less the finer it is stepped. -/
theorem steps_violated (p n : ℝ) (hp : 0 < p) (k l : Nat) (hk : 0 < k) (hkl : k < l) (hn : exp (-26) ≤ n / l) :
    total p n k = (0.0136 / p) ^ 2 * n * (1 + 0.038 * log (n / k)) ^ 2 ∧ total p n l < total p n k := by
  have hk' : (0 : ℝ) < k := by exact_mod_cast hk
  have hl' : (0 : ℝ) < l := by exact_mod_cast hk.trans hkl
  have hkl' : (k : ℝ) < l := by exact_mod_cast hkl
  have hn0 : 0 < n := by
    have := lt_of_lt_of_le (exp_pos _) hn
    exact (div_pos_iff_of_pos_right hl').1 this
  have ex : ∀ m : Nat, (0 : ℝ) < m → total p n m = (0.0136 / p) ^ 2 * n * (1 + 0.038 * log (n / m)) ^ 2 := by
    intro m hm
    unfold total highland
    rw [mul_pow, mul_pow, sq_sqrt (by positivity)]
    field_simp
  refine ⟨ex k hk', ?_⟩
  rw [ex k hk', ex l hl']
  have h1 := factor_pos _ hn
  have h2 : log (n / l) < log (n / k) := log_lt_log (by positivity) (div_lt_div_of_pos_left hn0 hk' hkl')
  apply mul_lt_mul_of_pos_left _ (by positivity)
  apply pow_lt_pow_left₀ _ h1.le (by norm_num)
  norm_num at h2 ⊢
  linarith

example : exp (-26) ≤ (1 : ℝ) / (10 : ℕ) := by
  have : exp (-26 : ℝ) ≤ 1 / 27 := by
    rw [exp_neg, ← one_div]
    apply one_div_le_one_div_of_le (by norm_num)
    have := add_one_le_exp (26 : ℝ)
    linarith
  norm_num at this ⊢
  linarith

/-- Uncorrelated standard draws for every number of steps exist: coordinates of the infinite product of normal distributions. -/
example : Steps (Measure.infinitePi fun _ : Nat × Bool => gaussianReal 0 1) (fun i ω => ω (i, true)) (fun i ω => ω (i, false)) := by
  have hs : ∀ q : Nat × Bool, MemLp (fun ω : Nat × Bool → ℝ => ω q) 2 (Measure.infinitePi fun _ => gaussianReal 0 1) := fun q =>
    (memLp_id_gaussianReal 2).comp_measurePreserving (measurePreserving_eval_infinitePi _ q)
  have hf : ∀ (q : Nat × Bool) (f : ℝ → ℝ), Continuous f → ∫ ω : Nat × Bool → ℝ, f (ω q) ∂(Measure.infinitePi fun _ => gaussianReal 0 1) = ∫ x, f x ∂(gaussianReal 0 1) := by
    intro q f hc
    have := (measurePreserving_eval_infinitePi (fun _ : Nat × Bool => gaussianReal 0 1) q).map_eq
    conv_rhs => rw [← this]
    rw [integral_map (measurable_pi_apply q).aemeasurable hc.aestronglyMeasurable]
  have hv : ∫ x : ℝ, x ^ 2 ∂(gaussianReal 0 1) = 1 := by
    have := variance_fun_id_gaussianReal (μ := 0) (v := 1)
    rw [variance_eq_integral (by fun_prop), integral_id_gaussianReal] at this
    simpa using this
  have hi : ∫ x : ℝ, x ∂(gaussianReal 0 1) = 0 := integral_id_gaussianReal
  have hind := iIndepFun_infinitePi (P := fun _ : Nat × Bool => gaussianReal 0 1) (X := fun _ x => x) (fun _ => measurable_id)
  have hc : ∀ q r : Nat × Bool, q ≠ r → ∫ ω : Nat × Bool → ℝ, ω q * ω r ∂(Measure.infinitePi fun _ => gaussianReal 0 1) = 0 := by
    intro q r hqr
    have := (hind.indepFun hqr).integral_fun_mul_eq_mul_integral (hs q).1 (hs r).1
    rw [this, hf q (fun x => x) continuous_id, hi, zero_mul]
  refine ⟨fun i => ⟨hs _, hs _, ?_, ?_, ?_, ?_, hc _ _ (by simp)⟩, fun i j h => hc _ _ (by simpa using h), fun i j h => hc _ _ (by simp), fun i j h => hc _ _ (by simpa using h)⟩
  · rw [hf (i, true) (fun x => x) continuous_id, hi]
  · rw [hf (i, false) (fun x => x) continuous_id, hi]
  · rw [hf (i, true) (fun x => x ^ 2) (by fun_prop), hv]
  · rw [hf (i, false) (fun x => x ^ 2) (by fun_prop), hv]

end C97
end
end Tomopt
