import Verif.Model.Uncert
import Verif.Lemmas.Fit
import Mathlib.Probability.Moments.Variance
import Mathlib.Analysis.Calculus.Deriv.Add
import Mathlib.Analysis.Calculus.Deriv.Mul

/- C95: uncertainties of inferred variables. -/
namespace Tomopt

noncomputable section

open Uncert Scatter

namespace C95

variable {n : Nat} {κ ν : Type} [Fintype κ] [DecidableEq κ]

/-- First-order propagation of independent uncertainties `σ` of the coordinates `x` to `f`. -/
def propagated (f : (κ → ℝ) → ℝ) (x σ : κ → ℝ) : ℝ := Real.sqrt (∑ k, (pd f x k * σ k) ^ 2)

omit [Fintype κ] in
theorem pd_own (F : (κ → ℝ) → ℝ) (x : Fin n → κ → ℝ) (i : Fin n) (k : κ) :
    pd (fun y : Fin n × κ → ℝ => F fun k => y (i, k)) (fun p => x p.1 p.2) (i, k) = pd F (x i) k := by
  unfold pd
  have : (fun t : ℝ => (fun y : Fin n × κ → ℝ => F fun k => y (i, k)) (Function.update (fun p => x p.1 p.2) (i, k) t)) = fun t => F (Function.update (x i) k t) := by
    funext t
    show F _ = F _
    congr 1
    funext k'
    by_cases h : k' = k
    · subst h; simp
    · rw [Function.update_of_ne (by simp [h]), Function.update_of_ne h]
  rw [this]

omit [Fintype κ] in
theorem pd_other (F : (κ → ℝ) → ℝ) (x : Fin n → κ → ℝ) (i j : Fin n) (hij : j ≠ i) (k : κ) :
    pd (fun y : Fin n × κ → ℝ => F fun k => y (i, k)) (fun p => x p.1 p.2) (j, k) = 0 := by
  unfold pd
  have : (fun t : ℝ => (fun y : Fin n × κ → ℝ => F fun k => y (i, k)) (Function.update (fun p => x p.1 p.2) (j, k) t)) = fun _ => F (x i) := by
    funext t
    show F _ = F _
    congr 1
    funext k'
    rw [Function.update_of_ne (by simp [Ne.symm hij])]
  rw [this]
  simp

/-- **C95: propagation.** For every batch: if a variable of each muon is computed from its own hits and automatic differentiation gives the partial derivatives, its uncertainty is the
first-order propagation of the uncertainties of that muon's hits - no matter what the other muons of the batch are, and how many. -/
theorem propagation (big : ℝ) (F : ν → (κ → ℝ) → ℝ) (x : Fin n → κ → ℝ) (σ : Fin n → κ → ℝ) (jac : Fin n → ν → Fin n → κ → XF) (i : Fin n) (v : ν)
    (hjac : ∀ j k, jac i v j k = .num (pd (fun y : Fin n × κ → ℝ => F v fun k => y (i, k)) (fun p => x p.1 p.2) (j, k))) :
    ∃ u, outVarUnc big .hits jac (fun i k => .num (σ i k)) = .ok u ∧ u i v = some (propagated (F v) (x i) (σ i)) := by
  have hn : n ≠ 0 := by
    rintro rfl
    exact i.elim0
  refine ⟨_, if_neg hn, ?_⟩
  unfold row
  rw [if_neg (by simp [cleanUnc])]
  unfold propagated
  congr 3
  funext k
  congr 2
  rw [Finset.sum_eq_single i]
  · rw [hjac, pd_own]; rfl
  · intro j _ hj
    rw [hjac, pd_other _ _ _ _ hj]; rfl
  · simp

omit [DecidableEq κ] in
/-- Hits with an infinite uncertainty are left out; a NaN uncertainty makes the result NaN. -/
theorem special (big : ℝ) (jac : Fin n → ν → Fin n → κ → XF) (unc : Fin n → κ → XF) (i : Fin n) (v : ν) :
    ((∃ k, unc i k = .nan) → row big jac unc i v = none) ∧
    (∀ unc', (∀ k, unc' i k = unc i k ∨ (unc i k = .pinf ∨ unc i k = .ninf) ∧ unc' i k = .num 0) → row big jac unc' i v = row big jac unc i v) := by
  constructor
  · rintro ⟨k, hk⟩
    exact if_pos ⟨k, by rw [hk]; rfl⟩
  · intro unc' h'
    have : ∀ k, cleanUnc (unc' i k) = cleanUnc (unc i k) := by
      intro k
      rcases h' k with h | ⟨h | h, h0⟩
      · rw [h]
      · rw [h, h0]; rfl
      · rw [h, h0]; rfl
    simp only [row, this]

/-- What a derivative counts as: itself if it is a number, 0 if it is NaN, and the largest number of its sign if it is infinite. -/
inductive Counts (big : ℝ) : XF → XF → Prop
  | num (x : ℝ) : Counts big (.num x) (.num x)
  | nan : Counts big .nan (.num 0)
  | pinf : Counts big .pinf (.num big)
  | ninf : Counts big .ninf (.num (-big))

omit [DecidableEq κ] in
/-- **C95: derivatives that are not numbers.** NaN derivatives count as 0 and infinite ones as the largest number of their sign, for the variables of muons and for the predictions of
voxels. -/
theorem special_grad (big : ℝ) (g : Graph) (jac jac' : Fin n → ν → Fin n → κ → XF) (h : ∀ i v j k, Counts big (jac i v j k) (jac' i v j k)) (unc : Fin n → κ → XF)
    (J J' : ν → κ → XF) (H : ∀ v k, Counts big (J v k) (J' v k)) (U : κ → XF) :
    outVarUnc big g jac unc = outVarUnc big g jac' unc ∧ voxUnc big J U = voxUnc big J' U := by
  have hc : ∀ a b, Counts big a b → nanToNum big a = nanToNum big b := by
    intro a b h
    cases h <;> rfl
  have h1 : row big jac unc = row big jac' unc := by
    funext i v
    simp only [row, hc _ _ (h i v _ _)]
  refine ⟨by simp only [outVarUnc, h1], ?_⟩
  funext v
  simp only [voxUnc, hc _ _ (H v _)]

/-- **C95: predictions.** The uncertainty of a voxel's prediction is the first-order propagation of the uncertainties of all scatter variables of all muons. -/
theorem vox_propagation (big : ℝ) (F : ν → (κ → ℝ) → ℝ) (x σ : κ → ℝ) (jac : ν → κ → XF) (v : ν) (hjac : ∀ k, jac v k = .num (pd (F v) x k)) :
    voxUnc big jac (fun k => .num (σ k)) v = some (propagated (F v) x σ) := by
  unfold voxUnc
  rw [if_neg (by simp [cleanUnc])]
  simp only [hjac]
  rfl

/-- **C95: scale.** Hits that are `c` times less precise make everything `c` times less precise; exact hits give exact variables. -/
theorem scale (f : (κ → ℝ) → ℝ) (x σ : κ → ℝ) (c : ℝ) : propagated f x (fun k => c * σ k) = |c| * propagated f x σ ∧ propagated f x (fun _ => 0) = 0 := by
  constructor
  · unfold propagated
    rw [← Real.sqrt_sq_eq_abs, ← Real.sqrt_mul (sq_nonneg c), Finset.mul_sum]
    congr 2
    funext k
    ring
  · simp [propagated]

/-- **C95: monotone.** More precise hits never make a variable less precise. -/
theorem mono (f : (κ → ℝ) → ℝ) (x σ τ : κ → ℝ) (h0 : ∀ k, 0 ≤ σ k) (h : ∀ k, σ k ≤ τ k) : propagated f x σ ≤ propagated f x τ := by
  unfold propagated
  apply Real.sqrt_le_sqrt
  refine Finset.sum_le_sum fun k _ => ?_
  rw [mul_pow, mul_pow]
  exact mul_le_mul_of_nonneg_left (pow_le_pow_left₀ (h0 k) (h k) 2) (sq_nonneg _)

open MeasureTheory ProbabilityTheory in
/-- **C95: meaning.** If the hits have independent errors with standard deviations `σ`, the square of the uncertainty is the variance of the variable's change to first order. -/
theorem variance_linear {Ω : Type} [MeasurableSpace Ω] (P : Measure Ω) (f : (κ → ℝ) → ℝ) (x σ : κ → ℝ) (e : κ → Ω → ℝ) (h2 : ∀ k, MemLp (e k) 2 P)
    (hind : Pairwise fun k l => IndepFun (e k) (e l) P) (hvar : ∀ k, variance (e k) P = σ k ^ 2) :
    variance (fun ω => ∑ k, pd f x k * e k ω) P = propagated f x σ ^ 2 := by
  have h := IndepFun.variance_sum (μ := P) (X := fun k ω => pd f x k * e k ω) (s := Finset.univ) (fun k _ => (h2 k).const_mul _)
    (fun k _ l _ hkl => (hind hkl).comp (measurable_const_mul _) (measurable_const_mul _))
  have he : (fun ω => ∑ k, pd f x k * e k ω) = ∑ k, fun ω => pd f x k * e k ω := by
    funext ω
    simp
  rw [he, h, propagated, Real.sq_sqrt (Finset.sum_nonneg fun k _ => sq_nonneg _)]
  refine Finset.sum_congr rfl fun k _ => ?_
  rw [variance_const_mul, hvar]
  ring

/-- the partial derivatives of an affine function -/
theorem pd_affine (c : ℝ) (a : κ → ℝ) (x : κ → ℝ) (k : κ) : pd (fun y => c + ∑ l, a l * y l) x k = a k := by
  unfold pd
  have : (fun t : ℝ => c + ∑ l, a l * Function.update x k t l) = fun t => (c + ∑ l ∈ Finset.univ.erase k, a l * x l) + a k * t := by
    funext t
    rw [← Finset.add_sum_erase _ _ (Finset.mem_univ k), Function.update_self]
    have : ∑ l ∈ Finset.univ.erase k, a l * Function.update x k t l = ∑ l ∈ Finset.univ.erase k, a l * x l := by
      refine Finset.sum_congr rfl fun l hl => ?_
      rw [Function.update_of_ne (Finset.ne_of_mem_erase hl)]
    rw [this]
    ring
  rw [this]
  simp

open MeasureTheory ProbabilityTheory in
/-- **C95: exact for affine variables**: there the uncertainty is the standard deviation of the variable itself. -/
theorem variance_affine {Ω : Type} [MeasurableSpace Ω] (P : Measure Ω) [IsProbabilityMeasure P] (c : ℝ) (a x σ : κ → ℝ) (e : κ → Ω → ℝ) (h2 : ∀ k, MemLp (e k) 2 P)
    (hind : Pairwise fun k l => IndepFun (e k) (e l) P) (hvar : ∀ k, variance (e k) P = σ k ^ 2) :
    variance (fun ω => c + ∑ l, a l * (x l + e l ω)) P = propagated (fun y => c + ∑ l, a l * y l) x σ ^ 2 := by
  rw [← variance_linear P _ x σ e h2 hind hvar]
  have : (fun ω => c + ∑ l, a l * (x l + e l ω)) = fun ω => (c + ∑ l, a l * x l) + ∑ k, pd (fun y => c + ∑ l, a l * y l) x k * e k ω := by
    funext ω
    simp only [pd_affine, mul_add, Finset.sum_add_distrib]
    ring
  rw [this]
  have hs : MemLp (fun ω => ∑ k, pd (fun y => c + ∑ l, a l * y l) x k * e k ω) 2 P := memLp_finsetSum _ fun k _ => (h2 k).const_mul _
  rw [variance_const_add hs.aestronglyMeasurable]

/-! ### Fitted positions -/

section
variable {m : Nat}

/-- the points of a fit in one projection: measured coordinates `x` at heights `z`, weighted as the code does with the inverse squares of the uncertainties -/
def fitPts (z σ x : Fin m → ℝ) : List FitPt := List.ofFn fun i => ⟨x i, z i, 1 / σ i ^ 2⟩

/-- the fitted coordinate at height `h` (0 if there is none) -/
def fitted (z σ : Fin m → ℝ) (h : ℝ) (x : Fin m → ℝ) : ℝ :=
  match fitAxis (fitPts z σ x) with
  | some f => f.1 + f.2 * h
  | none => 0

def S0 (σ : Fin m → ℝ) : ℝ := ∑ i, 1 / σ i ^ 2
def S1 (z σ : Fin m → ℝ) : ℝ := ∑ i, z i * (1 / σ i ^ 2)
def S2 (z σ : Fin m → ℝ) : ℝ := ∑ i, z i * z i * (1 / σ i ^ 2)

/-- the weight of each hit in the fitted coordinate -/
def coef (z σ : Fin m → ℝ) (h : ℝ) (i : Fin m) : ℝ :=
  ((S2 z σ - h * S1 z σ) + (h * S0 σ - S1 z σ) * z i) * (1 / σ i ^ 2) / (S0 σ * S2 z σ - S1 z σ ^ 2)

theorem fit_linear (z σ : Fin m → ℝ) (h0 : S0 σ ≠ 0) (h1 : S2 z σ ≠ 0) (h2 : S0 σ * S2 z σ - S1 z σ ^ 2 ≠ 0) (h : ℝ) (x : Fin m → ℝ) :
    ∃ f, fitAxis (fitPts z σ x) = some f ∧ f.1 + f.2 * h = ∑ i, coef z σ h i * x i := by
  have e0 : s0 (fitPts z σ x) = S0 σ := by simp [s0, fitPts, S0, List.map_ofFn, List.sum_ofFn, Function.comp_def]
  have e1 : sz (fitPts z σ x) = S1 z σ := by simp [sz, fitPts, S1, List.map_ofFn, List.sum_ofFn, Function.comp_def]
  have e2 : szz (fitPts z σ x) = S2 z σ := by simp [szz, fitPts, S2, List.map_ofFn, List.sum_ofFn, Function.comp_def]
  have ex : sx (fitPts z σ x) = ∑ i, x i * (1 / σ i ^ 2) := by simp [sx, fitPts, List.map_ofFn, List.sum_ofFn, Function.comp_def]
  have exz : sxz (fitPts z σ x) = ∑ i, x i * z i * (1 / σ i ^ 2) := by simp [sxz, fitPts, List.map_ofFn, List.sum_ofFn, Function.comp_def]
  obtain ⟨a, b, hf, n1, n2⟩ := fitAxis_normal (l := fitPts z σ x) (by rw [e0]; exact h0) (by rw [e2]; exact h1) (by rw [e0, e1, e2]; exact h2)
  refine ⟨_, hf, ?_⟩
  have hs : ∑ i, coef z σ h i * x i =
      ((S2 z σ - h * S1 z σ) * sx (fitPts z σ x) + (h * S0 σ - S1 z σ) * sxz (fitPts z σ x)) / (S0 σ * S2 z σ - S1 z σ ^ 2) := by
    rw [ex, exz, Finset.mul_sum, Finset.mul_sum, ← Finset.sum_add_distrib, Finset.sum_div]
    refine Finset.sum_congr rfl fun i _ => ?_
    unfold coef
    ring
  rw [hs, n1, n2, e0, e1, e2, eq_div_iff h2]
  ring

/-- **C95: fitted positions.** The uncertainty of a track's fitted coordinate at any height `h` (in particular of its entry point) is the standard formula of the weighted straight-line
fit. -/
theorem position_unc (z σ : Fin m → ℝ) (hσ : ∀ i, σ i ≠ 0) (h0 : S0 σ ≠ 0) (h1 : S2 z σ ≠ 0) (h2 : S0 σ * S2 z σ - S1 z σ ^ 2 ≠ 0) (h : ℝ) (x : Fin m → ℝ) :
    propagated (fitted z σ h) x σ = Real.sqrt ((S2 z σ - 2 * h * S1 z σ + h ^ 2 * S0 σ) / (S0 σ * S2 z σ - S1 z σ ^ 2)) := by
  have hf : fitted z σ h = fun y => 0 + ∑ i, coef z σ h i * y i := by
    funext y
    obtain ⟨f, e, hv⟩ := fit_linear z σ h0 h1 h2 h y
    rw [fitted, e, zero_add]
    exact hv
  rw [hf, propagated]
  congr 1
  simp only [pd_affine]
  have hterm : ∀ i, (coef z σ h i * σ i) ^ 2 = ((S2 z σ - h * S1 z σ) ^ 2 * (1 / σ i ^ 2) + 2 * (S2 z σ - h * S1 z σ) * (h * S0 σ - S1 z σ) * (z i * (1 / σ i ^ 2)) +
      (h * S0 σ - S1 z σ) ^ 2 * (z i * z i * (1 / σ i ^ 2))) / (S0 σ * S2 z σ - S1 z σ ^ 2) ^ 2 := by
    intro i
    have := hσ i
    unfold coef
    field_simp
    ring
  rw [Finset.sum_congr rfl fun i _ => hterm i, ← Finset.sum_div, Finset.sum_add_distrib, Finset.sum_add_distrib, ← Finset.mul_sum, ← Finset.mul_sum, ← Finset.mul_sum]
  rw [show ∑ i, 1 / σ i ^ 2 = S0 σ from rfl, show ∑ i, z i * (1 / σ i ^ 2) = S1 z σ from rfl, show ∑ i, z i * z i * (1 / σ i ^ 2) = S2 z σ from rfl]
  rw [div_eq_div_iff (pow_ne_zero 2 h2) h2]
  ring

open MeasureTheory ProbabilityTheory in
/-- **C95: fitted positions, exactly.** With hits that are off by independent errors of standard deviations `σ`, the uncertainty of a fitted coordinate is its standard deviation -
not only to first order. -/
theorem position_std {Ω : Type} [MeasurableSpace Ω] (P : Measure Ω) [IsProbabilityMeasure P] (z σ : Fin m → ℝ) (h0 : S0 σ ≠ 0) (h1 : S2 z σ ≠ 0)
    (h2 : S0 σ * S2 z σ - S1 z σ ^ 2 ≠ 0) (h : ℝ) (x : Fin m → ℝ) (e : Fin m → Ω → ℝ) (hL : ∀ k, MemLp (e k) 2 P) (hind : Pairwise fun k l => IndepFun (e k) (e l) P)
    (hvar : ∀ k, variance (e k) P = σ k ^ 2) :
    variance (fun ω => fitted z σ h fun i => x i + e i ω) P = propagated (fitted z σ h) x σ ^ 2 := by
  have hf : fitted z σ h = fun y => 0 + ∑ i, coef z σ h i * y i := by
    funext y
    obtain ⟨f, e, hv⟩ := fit_linear z σ h0 h1 h2 h y
    rw [fitted, e, zero_add]
    exact hv
  rw [hf]
  exact variance_affine P 0 _ x σ e hL hind hvar

/-- **C95: no linear estimate is better.** Among all linear combinations of the hits that are right for every straight line, the fitted coordinate has the smallest uncertainty. -/
theorem best_linear (z σ : Fin m → ℝ) (hσ : ∀ i, σ i ≠ 0) (h0 : S0 σ ≠ 0) (h1 : S2 z σ ≠ 0) (h2 : S0 σ * S2 z σ - S1 z σ ^ 2 ≠ 0) (h : ℝ) (x : Fin m → ℝ) (c : Fin m → ℝ)
    (hc : ∀ a b : ℝ, ∑ i, c i * (a + b * z i) = a + b * h) :
    propagated (fitted z σ h) x σ ≤ propagated (fun y => ∑ i, c i * y i) x σ := by
  have hf : fitted z σ h = fun y => 0 + ∑ i, coef z σ h i * y i := by
    funext y
    obtain ⟨f, e, hv⟩ := fit_linear z σ h0 h1 h2 h y
    rw [fitted, e, zero_add]
    exact hv
  have hu : ∀ a b : ℝ, ∑ i, coef z σ h i * (a + b * z i) = a + b * h := by
    intro a b
    have e1 : ∑ i, coef z σ h i * (a + b * z i) = (∑ i, ((S2 z σ - h * S1 z σ) * a * (1 / σ i ^ 2) +
        ((S2 z σ - h * S1 z σ) * b + (h * S0 σ - S1 z σ) * a) * (z i * (1 / σ i ^ 2)) + (h * S0 σ - S1 z σ) * b * (z i * z i * (1 / σ i ^ 2)))) / (S0 σ * S2 z σ - S1 z σ ^ 2) := by
      rw [Finset.sum_div]
      refine Finset.sum_congr rfl fun i _ => ?_
      unfold coef
      ring
    rw [e1, Finset.sum_add_distrib, Finset.sum_add_distrib, ← Finset.mul_sum, ← Finset.mul_sum, ← Finset.mul_sum]
    rw [show ∑ i, 1 / σ i ^ 2 = S0 σ from rfl, show ∑ i, z i * (1 / σ i ^ 2) = S1 z σ from rfl, show ∑ i, z i * z i * (1 / σ i ^ 2) = S2 z σ from rfl]
    rw [div_eq_iff h2]
    ring
  have hg : (fun y : Fin m → ℝ => ∑ i, c i * y i) = fun y => 0 + ∑ i, c i * y i := by
    funext y
    rw [zero_add]
  rw [hf, hg, propagated, propagated]
  apply Real.sqrt_le_sqrt
  simp only [pd_affine]
  have horth : ∑ i, (c i - coef z σ h i) * coef z σ h i * σ i ^ 2 = 0 := by
    have e : ∀ i, (c i - coef z σ h i) * coef z σ h i * σ i ^ 2 =
        c i * ((S2 z σ - h * S1 z σ) / (S0 σ * S2 z σ - S1 z σ ^ 2) + (h * S0 σ - S1 z σ) / (S0 σ * S2 z σ - S1 z σ ^ 2) * z i) -
        coef z σ h i * ((S2 z σ - h * S1 z σ) / (S0 σ * S2 z σ - S1 z σ ^ 2) + (h * S0 σ - S1 z σ) / (S0 σ * S2 z σ - S1 z σ ^ 2) * z i) := by
      intro i
      rw [← sub_mul, mul_assoc]
      congr 1
      have := hσ i
      unfold coef
      field_simp
    rw [Finset.sum_congr rfl fun i _ => e i, Finset.sum_sub_distrib, hc, hu, sub_self]
  have e : ∀ i, (c i * σ i) ^ 2 = (coef z σ h i * σ i) ^ 2 + ((c i - coef z σ h i) * σ i) ^ 2 + 2 * ((c i - coef z σ h i) * coef z σ h i * σ i ^ 2) := by
    intro i
    ring
  rw [Finset.sum_congr rfl fun i _ => e i, Finset.sum_add_distrib, Finset.sum_add_distrib, ← Finset.mul_sum, horth, mul_zero, add_zero]
  exact le_add_of_nonneg_right (Finset.sum_nonneg fun i _ => sq_nonneg _)

end

/-! ### Batches that have no uncertainties -/

/-- **C95 (violated): batches without muons.** If all muons of a batch are filtered out, its uncertainties raise, and with them every prediction of an inferrer to which the batch
was added - however many muons the other batches have. Without any batch, the prediction is `None`. -/
theorem empty_batch_violated {α : Type} (as bs : List SBatch) (g : Graph) (rest : Except Err α) (hg : ∀ b ∈ as, b.g = .hits) :
    prediction (as ++ ⟨0, g⟩ :: bs) rest = .error .typeError ∧ prediction ([] : List SBatch) rest = .ok none := by
  refine ⟨?_, rfl⟩
  unfold prediction
  rw [if_neg (by simp)]
  have : combineUncs (as ++ ⟨0, g⟩ :: bs) = .error .typeError := by
    induction as with
    | nil => rfl
    | cons a as ih =>
      rw [List.cons_append, combineUncs]
      by_cases h0 : a.n = 0
      · simp only [outVarUnc, if_pos h0]
      · simp only [outVarUnc, if_neg h0, hg a (by simp)]
        exact ih fun b hb => hg b (by simp [hb])
  rw [this]

/-- **C95: batches with muons can be combined.** -/
theorem combine_ok (bs : List SBatch) (h : ∀ b ∈ bs, b.n ≠ 0 ∧ b.g = .hits) : combineUncs bs = .ok () := by
  induction bs with
  | nil => rfl
  | cons b bs ih =>
    obtain ⟨h0, hg⟩ := h b (by simp)
    simp only [combineUncs, outVarUnc, if_neg h0, hg]
    exact ih fun b hb => h b (by simp [hb])

omit [DecidableEq κ] in
/-- **C95 (violated): scatters from true hits.** Variables computed from the true hits have no uncertainties at all: asking for one raises. -/
theorem gen_violated (big : ℝ) (jac : Fin n → ν → Fin n → κ → XF) (unc : Fin n → κ → XF) (hn : n ≠ 0) :
    outVarUnc big .other jac unc = .error .attributeError ∧ outVarUnc big .none jac unc = .error .runtimeError := by
  simp [outVarUnc, hn]

/-! ### Non-vacuity -/

/-- three hits at heights 0, 1, 2 with uncertainty 1: the fit is not degenerate -/
example : S0 (fun _ : Fin 3 => (1 : ℝ)) ≠ 0 ∧ S2 (fun i : Fin 3 => (i : ℝ)) (fun _ => 1) ≠ 0 ∧
    S0 (fun _ : Fin 3 => (1 : ℝ)) * S2 (fun i : Fin 3 => (i : ℝ)) (fun _ => 1) - S1 (fun i : Fin 3 => (i : ℝ)) (fun _ => 1) ^ 2 ≠ 0 := by
  simp [S0, S1, S2, Fin.sum_univ_three]
  norm_num

/-- the mean of the hits is right for every straight line at height 1 -/
example (a b : ℝ) : ∑ i : Fin 3, (1 / 3 : ℝ) * (a + b * (i : ℝ)) = a + b * 1 := by
  simp [Fin.sum_univ_three]
  ring

/-- a batch of two muons with hypotheses of `propagation`: the variable is the sum of two coordinates -/
example : ∃ jac : Fin 2 → Unit → Fin 2 → Fin 2 → XF, ∀ j k, jac 0 () j k =
    .num (pd (fun y : Fin 2 × Fin 2 → ℝ => (fun x : Fin 2 → ℝ => x 0 + x 1) fun k => y (0, k)) (fun _ => 1) (j, k)) :=
  ⟨fun _ _ j k => .num (pd (fun y : Fin 2 × Fin 2 → ℝ => (fun x : Fin 2 → ℝ => x 0 + x 1) fun k => y (0, k)) (fun _ => 1) (j, k)), fun _ _ => rfl⟩

/-- and its uncertainty for coordinates with uncertainties 3 and 4 is 5 -/
example : propagated (fun x : Fin 2 → ℝ => 0 + ∑ l, (fun _ => 1 : Fin 2 → ℝ) l * x l) (fun _ => 1) ![3, 4] = 5 := by
  unfold propagated
  simp only [pd_affine]
  rw [Fin.sum_univ_two]
  norm_num
  rw [show (25 : ℝ) = 5 ^ 2 by norm_num, Real.sqrt_sq (by norm_num)]

/-- a NaN derivative next to one that is a number, and what they count as -/
example : ∀ v k, Counts 9 ((fun (_ : Unit) k => ![.nan, .num 2] k : Unit → Fin 2 → XF) v k) ((fun (_ : Unit) k => ![.num 0, .num 2] k : Unit → Fin 2 → XF) v k) := by
  intro v k
  fin_cases k
  · exact .nan
  · exact .num 2

example : prediction [⟨5, .hits⟩, ⟨0, .hits⟩, ⟨7, .hits⟩] (.ok (3 : Nat)) = .error .typeError :=
  (empty_batch_violated [⟨5, .hits⟩] [⟨7, .hits⟩] .hits (.ok 3) (by simp)).1

example : prediction [⟨5, .hits⟩, ⟨7, .hits⟩] (.ok (3 : Nat)) = .ok (some 3) := by
  have := combine_ok [⟨5, .hits⟩, ⟨7, .hits⟩] (by simp)
  simp [prediction, this]

end C95

end

end Tomopt
