import Verif.Props.C26
import Verif.Lemmas.PerfectTracks
import Mathlib.Probability.Moments.Variance

/- Helper lemmas: the track fit as a linear function of the hits. -/
namespace Tomopt

noncomputable section
open Scatter MeasureTheory ProbabilityTheory

namespace C106

variable {n : Nat}

/-- the three sums over the hits that depend on heights and uncertainties only -/
def S0 (u : Fin n → ℝ) : ℝ := ∑ k, 1 / u k ^ 2
def S1 (z u : Fin n → ℝ) : ℝ := ∑ k, z k / u k ^ 2
def S2 (z u : Fin n → ℝ) : ℝ := ∑ k, z k ^ 2 / u k ^ 2
def Det (z u : Fin n → ℝ) : ℝ := S0 u * S2 z u - S1 z u ^ 2

/-- how much hit `k` counts in the position of the fitted line at height `h` -/
def share (z u : Fin n → ℝ) (h : ℝ) (k : Fin n) : ℝ := ((S2 z u - h * S1 z u) / Det z u + (h * S0 u - S1 z u) / Det z u * z k) / u k ^ 2

def points (x z u : Fin n → ℝ) : List FitPt := List.ofFn fun k => ⟨x k, z k, 1 / u k ^ 2⟩

theorem sums (x z u : Fin n → ℝ) : s0 (points x z u) = S0 u ∧ sz (points x z u) = S1 z u ∧ szz (points x z u) = S2 z u ∧
    sx (points x z u) = ∑ k, x k / u k ^ 2 ∧ sxz (points x z u) = ∑ k, x k * z k / u k ^ 2 := by
  simp only [s0, sz, szz, sx, sxz, points, List.map_ofFn, List.sum_ofFn, S0, S1, S2, Function.comp]
  refine ⟨trivial, ?_, ?_, ?_, ?_⟩ <;> refine Finset.sum_congr rfl fun k _ => ?_ <;> ring

theorem det_points (z u : Fin n → ℝ) (hu : ∀ k, 0 < u k) (i j : Fin n) (hz : z i ≠ z j) : 0 < S0 u ∧ 0 < S2 z u ∧ 0 < Det z u := by
  have h := det_pos (l := points z z u) (by
    intro h hh
    simp only [points, List.mem_ofFn] at hh
    obtain ⟨k, rfl⟩ := hh
    have := hu k
    positivity) ⟨z i, z i, 1 / u i ^ 2⟩ ⟨z j, z j, 1 / u j ^ 2⟩ (List.mem_ofFn.mpr ⟨i, rfl⟩) (List.mem_ofFn.mpr ⟨j, rfl⟩)
    (by have := hu i; positivity) (by have := hu j; positivity) hz
  obtain ⟨e1, e2, e3, -⟩ := sums z z u
  rw [e1, e2, e3] at h
  exact h

/-- The position of the fitted line at any height is a weighted sum of the hits, with weights that depend on heights and uncertainties only. -/
theorem fit_share (x z u : Fin n → ℝ) (hu : ∀ k, 0 < u k) (i j : Fin n) (hz : z i ≠ z j) :
    ∃ a b, fitAxis (points x z u) = some (a, b) ∧ ∀ h, a + b * h = ∑ k, share z u h k * x k := by
  obtain ⟨h0, h2, hd⟩ := det_points z u hu i j hz
  obtain ⟨e0, e1, e2, e3, e4⟩ := sums x z u
  obtain ⟨a, b, hf, n1, n2⟩ := fitAxis_normal (l := points x z u) (by rw [e0]; exact h0.ne') (by rw [e2]; exact h2.ne') (by rw [e0, e1, e2]; exact hd.ne')
  rw [e3, e0, e1] at n1
  rw [e4, e1, e2] at n2
  refine ⟨a, b, hf, fun h => ?_⟩
  have e : ∑ k, share z u h k * x k = (S2 z u - h * S1 z u) / Det z u * ∑ k, x k / u k ^ 2 + (h * S0 u - S1 z u) / Det z u * ∑ k, x k * z k / u k ^ 2 := by
    rw [Finset.mul_sum, Finset.mul_sum, ← Finset.sum_add_distrib]
    refine Finset.sum_congr rfl fun k _ => ?_
    unfold share
    ring
  rw [e, n1, n2, div_mul_eq_mul_div, div_mul_eq_mul_div, ← add_div, eq_div_iff hd.ne']
  unfold Det
  ring

/-- The weights reproduce straight lines. -/
theorem share_line (z u : Fin n → ℝ) (hu : ∀ k, 0 < u k) (i j : Fin n) (hz : z i ≠ z j) (h : ℝ) : ∑ k, share z u h k = 1 ∧ ∑ k, share z u h k * z k = h := by
  obtain ⟨_, _, hd⟩ := det_points z u hu i j hz
  have e : ∀ f : Fin n → ℝ, ∑ k, share z u h k * f k = (S2 z u - h * S1 z u) / Det z u * ∑ k, f k / u k ^ 2 + (h * S0 u - S1 z u) / Det z u * ∑ k, f k * z k / u k ^ 2 := by
    intro f
    rw [Finset.mul_sum, Finset.mul_sum, ← Finset.sum_add_distrib]
    refine Finset.sum_congr rfl fun k _ => ?_
    unfold share
    ring
  have e1 := e fun _ => 1
  have e2 := e z
  simp only [mul_one, one_mul] at e1
  rw [show ∑ k, z k * z k / u k ^ 2 = S2 z u from Finset.sum_congr rfl fun k _ => by ring] at e2
  rw [show ∑ k, (1 : ℝ) / u k ^ 2 = S0 u from rfl] at e1
  rw [show ∑ k, z k / u k ^ 2 = S1 z u from rfl] at e1 e2
  rw [e1, e2, div_mul_eq_mul_div, div_mul_eq_mul_div, ← add_div, div_mul_eq_mul_div, div_mul_eq_mul_div, ← add_div]
  constructor
  · rw [div_eq_one_iff_eq hd.ne']; unfold Det; ring
  · rw [div_eq_iff hd.ne']; unfold Det; ring

/-- the weighted spread of the position at height `h` -/
theorem share_var (z u : Fin n → ℝ) (hu : ∀ k, 0 < u k) (i j : Fin n) (hz : z i ≠ z j) (h : ℝ) :
    ∑ k, share z u h k ^ 2 * u k ^ 2 = 1 / S0 u + (h - S1 z u / S0 u) ^ 2 / ∑ k, (z k - S1 z u / S0 u) ^ 2 / u k ^ 2 := by
  obtain ⟨h0, _, hd⟩ := det_points z u hu i j hz
  obtain ⟨l1, l2⟩ := share_line z u hu i j hz h
  have e : ∑ k, share z u h k ^ 2 * u k ^ 2 = (S2 z u - h * S1 z u) / Det z u * ∑ k, share z u h k + (h * S0 u - S1 z u) / Det z u * ∑ k, share z u h k * z k := by
    rw [Finset.mul_sum, Finset.mul_sum, ← Finset.sum_add_distrib]
    refine Finset.sum_congr rfl fun k _ => ?_
    have hk := (hu k).ne'
    have : share z u h k * u k ^ 2 = (S2 z u - h * S1 z u) / Det z u + (h * S0 u - S1 z u) / Det z u * z k := by
      unfold share
      rw [div_mul_cancel₀ _ (pow_ne_zero 2 hk)]
    rw [pow_two (share z u h k), mul_assoc, this]
    ring
  have s : ∑ k, (z k - S1 z u / S0 u) ^ 2 / u k ^ 2 = Det z u / S0 u := by
    have : ∑ k, (z k - S1 z u / S0 u) ^ 2 / u k ^ 2 = S2 z u - 2 * (S1 z u / S0 u) * S1 z u + (S1 z u / S0 u) ^ 2 * S0 u := by
      unfold S2
      rw [show (2 * (S1 z u / S0 u) * S1 z u) = ∑ k, 2 * (S1 z u / S0 u) * (z k / u k ^ 2) from by rw [← Finset.mul_sum]; rfl,
        show (S1 z u / S0 u) ^ 2 * S0 u = ∑ k, (S1 z u / S0 u) ^ 2 * (1 / u k ^ 2) from by rw [← Finset.mul_sum]; rfl, ← Finset.sum_sub_distrib, ← Finset.sum_add_distrib]
      refine Finset.sum_congr rfl fun k _ => ?_
      ring
    rw [this]
    unfold Det
    field_simp
    ring
  rw [e, l1, l2, s]
  have h0' := h0.ne'
  have hd' := hd.ne'
  rw [div_div_eq_mul_div]
  field_simp
  unfold Det
  ring

/-- Gauss and Markov: no other weights that reproduce straight lines do better. -/
theorem share_best (z u : Fin n → ℝ) (hu : ∀ k, 0 < u k) (i j : Fin n) (hz : z i ≠ z j) (h : ℝ) (d : Fin n → ℝ) (d1 : ∑ k, d k = 1) (d2 : ∑ k, d k * z k = h) :
    ∑ k, share z u h k ^ 2 * u k ^ 2 ≤ ∑ k, d k ^ 2 * u k ^ 2 := by
  obtain ⟨l1, l2⟩ := share_line z u hu i j hz h
  have e : ∑ k, d k ^ 2 * u k ^ 2 = ∑ k, share z u h k ^ 2 * u k ^ 2 + ∑ k, (d k - share z u h k) ^ 2 * u k ^ 2 +
      2 * ((S2 z u - h * S1 z u) / Det z u * (∑ k, d k - ∑ k, share z u h k) + (h * S0 u - S1 z u) / Det z u * (∑ k, d k * z k - ∑ k, share z u h k * z k)) := by
    rw [← Finset.sum_sub_distrib, ← Finset.sum_sub_distrib, Finset.mul_sum, Finset.mul_sum, ← Finset.sum_add_distrib, ← Finset.sum_add_distrib, Finset.mul_sum,
      ← Finset.sum_add_distrib]
    refine Finset.sum_congr rfl fun k _ => ?_
    have hk := (hu k).ne'
    have : share z u h k * u k ^ 2 = (S2 z u - h * S1 z u) / Det z u + (h * S0 u - S1 z u) / Det z u * z k := by
      unfold share
      rw [div_mul_cancel₀ _ (pow_ne_zero 2 hk)]
    linear_combination (2 * (d k - share z u h k)) * this
  rw [e, l1, l2, d1, d2, sub_self, sub_self, mul_zero, mul_zero, add_zero, mul_zero, add_zero]
  have : 0 ≤ ∑ k, (d k - share z u h k) ^ 2 * u k ^ 2 := Finset.sum_nonneg fun k _ => mul_nonneg (sq_nonneg _) (sq_nonneg _)
  linarith

/-- variance of a weighted sum of independent variables -/
theorem variance_weighted {Ω : Type} [MeasurableSpace Ω] (P : Measure Ω) (X : Fin n → Ω → ℝ) (h2 : ∀ k, MemLp (X k) 2 P)
    (hind : Pairwise fun k l => IndepFun (X k) (X l) P) (d σ : Fin n → ℝ) (hvar : ∀ k, variance (X k) P = σ k ^ 2) :
    variance (fun ω => ∑ k, d k * X k ω) P = ∑ k, d k ^ 2 * σ k ^ 2 := by
  have h := IndepFun.variance_sum (μ := P) (X := fun k ω => d k * X k ω) (s := Finset.univ) (fun k _ => (h2 k).const_mul _)
    (fun k _ l _ hkl => (hind hkl).comp (measurable_const_mul _) (measurable_const_mul _))
  have he : (fun ω => ∑ k, d k * X k ω) = ∑ k, fun ω => d k * X k ω := by
    funext ω
    rw [Finset.sum_apply]
  rw [he, h]
  refine Finset.sum_congr rfl fun k _ => ?_
  rw [variance_const_mul, hvar]

/-- mean of a weighted sum of variables that scatter about a line -/
theorem mean_weighted {Ω : Type} [MeasurableSpace Ω] (P : Measure Ω) (X : Fin n → Ω → ℝ) (hi : ∀ k, Integrable (X k) P) (z d : Fin n → ℝ) (a b h : ℝ)
    (hm : ∀ k, ∫ ω, X k ω ∂P = a + b * z k) (d1 : ∑ k, d k = 1) (d2 : ∑ k, d k * z k = h) :
    Integrable (fun ω => ∑ k, d k * X k ω) P ∧ ∫ ω, ∑ k, d k * X k ω ∂P = a + b * h := by
  refine ⟨integrable_finsetSum _ fun k _ => (hi k).const_mul _, ?_⟩
  rw [integral_finsetSum _ fun k _ => (hi k).const_mul _]
  simp only [integral_const_mul, hm]
  calc ∑ k, d k * (a + b * z k) = a * ∑ k, d k + b * ∑ k, d k * z k := by
        rw [Finset.mul_sum, Finset.mul_sum, ← Finset.sum_add_distrib]
        exact Finset.sum_congr rfl fun k _ => by ring
    _ = a + b * h := by rw [d1, d2, mul_one]

end C106

end

end Tomopt
