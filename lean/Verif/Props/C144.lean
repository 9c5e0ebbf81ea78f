import Verif.Props.C19_21
import Mathlib.Analysis.SpecialFunctions.ExpDeriv
import Mathlib.Analysis.SpecialFunctions.Sqrt
import Mathlib.Analysis.Calculus.Deriv.Inv
import Mathlib.Analysis.Calculus.Deriv.Pi
import Mathlib.Analysis.Calculus.FDeriv.Pi
import Mathlib.Data.List.Permutation

/-
Property theorems: C144, learning how a budget is split.
-/
namespace Tomopt

noncomputable section

namespace C144

open Real

/-- After the budget is shared out, the panels - layer after layer, in each from the highest down - cost `cs`. -/
def Costs (argsort : List ℝ → List Nat) (V : Volume) (cs : List ℝ) : Prop :=
  ∃ V', V.assignBudget argsort = .ok V' ∧ List.Forall₂ SameLayer V.layers V'.layers ∧
    ∃ orders : List (List AnyPanel), List.Forall₂ TopDown V'.detectors orders ∧ orders.flatten.map AnyPanel.getCost = cs

/-- the volume with other budget weights -/
def withWeights (V : Volume) (w : List ℝ) : Volume := { V with weights := w }

/-- the part of budget `b` for weight number `i` -/
def share {n : Nat} (b : ℝ) (w : Fin n → ℝ) (i : Fin n) : ℝ := b * (exp (w i) / ∑ k, exp (w k))

/-! ### Helpers -/

theorem budgeted {V : Volume} {b : ℝ} (hB : V.Budgeted b) (w : List ℝ) (hw : w.length = V.weights.length) : (withWeights V w).Budgeted b :=
  ⟨hB.budget, hB.costs, by rw [show (withWeights V w).weights.length = w.length from rfl, hw]; exact hB.weights⟩

theorem sum_exp_pos {n : Nat} (w : Fin n → ℝ) (i : Fin n) : 0 < ∑ k, exp (w k) := Finset.sum_pos (fun k _ => exp_pos _) ⟨i, Finset.mem_univ i⟩

theorem softmax_shift (w : List ℝ) (c : ℝ) : softmax (w.map (· + c)) = softmax w := by
  have hs : ((w.map (· + c)).map exp).sum = exp c * (w.map exp).sum := by
    rw [List.map_map, ← List.sum_map_mul_left]
    congr 1
    apply List.map_congr_left
    intro x _
    simp only [Function.comp_apply, exp_add]
    ring
  unfold softmax
  rw [hs, List.map_map]
  apply List.map_congr_left
  intro x _
  simp only [Function.comp_apply, exp_add, mul_comm (exp x)]
  exact mul_div_mul_left _ _ (exp_pos c).ne'

theorem share_pos {n : Nat} (b : ℝ) (hb : 0 < b) (w : Fin n → ℝ) (i : Fin n) : 0 < share b w i :=
  mul_pos hb (div_pos (exp_pos _) (sum_exp_pos w i))

theorem sum_update {n : Nat} (w : Fin n → ℝ) (j : Fin n) (t : ℝ) : ∑ k, exp (Function.update w j t k) = (∑ k, exp (w k)) + (exp t - exp (w j)) := by
  have h1 : ∀ v : Fin n → ℝ, ∑ k, exp (v k) = exp (v j) + ∑ k ∈ Finset.univ.erase j, exp (v k) := fun v => (Finset.add_sum_erase _ _ (Finset.mem_univ j)).symm
  rw [h1, h1 w, Function.update_self]
  have : ∑ k ∈ Finset.univ.erase j, exp (Function.update w j t k) = ∑ k ∈ Finset.univ.erase j, exp (w k) :=
    Finset.sum_congr rfl fun k hk => by rw [Function.update_of_ne (Finset.ne_of_mem_erase hk)]
  rw [this]
  ring

/-! ### The property -/

/-- **C144: shares.** For any weights the panels cost their shares of the budget. -/
theorem costs (argsort : List ℝ → List Nat) (ha : IsArgsort argsort) (V : Volume) (b : ℝ) (hb : 0 ≤ b) (hB : V.Budgeted b) (hp : ∀ p ∈ V.panels, p.Priced) (n : Nat) (hn : V.panels.length = n) (w : Fin n → ℝ) :
    Costs argsort (withWeights V (List.ofFn w)) (List.ofFn (share b w)) := by
  have hB' := budgeted hB (List.ofFn w) (by rw [List.length_ofFn, hB.weights, hn])
  obtain ⟨V', h1, h2, -, -, -, o, h3, h4⟩ := C20.shares_in_order argsort ha _ b hb hB' hp
  refine ⟨V', h1, h2, o, h3, ?_⟩
  rw [h4]
  simp only [withWeights, List.map_ofFn, List.sum_ofFn]
  rfl

/-- **C144: only differences count.** Adding the same number to all weights leaves every panel as it is. -/
theorem shift (argsort : List ℝ → List Nat) (V : Volume) (c : ℝ) :
    ((withWeights V (V.weights.map (· + c))).assignBudget argsort).map (·.layers) = (V.assignBudget argsort).map (·.layers) := by
  unfold Volume.assignBudget withWeights
  simp only
  cases V.budget with
  | none => rfl
  | some b =>
    simp only [softmax_shift]
    cases Volume.assignLoop argsort ((softmax V.weights).map (b * ·)) V.nCosts 0 0 V.layers <;> rfl

/-- **C144: one against the others.** Raising one weight gives its panel more, at the cost of every other panel. -/
theorem raise {n : Nat} (b : ℝ) (hb : 0 < b) (w : Fin n → ℝ) (j : Fin n) (t : ℝ) (ht : w j < t) :
    (share b w j ≤ share b (Function.update w j t) j) ∧ (1 < n → share b w j < share b (Function.update w j t) j) ∧
      ∀ i, i ≠ j → share b (Function.update w j t) i < share b w i := by
  have hS := sum_exp_pos w j
  have he := exp_lt_exp.mpr ht
  have hS' : 0 < (∑ k, exp (w k)) + (exp t - exp (w j)) := by linarith
  have hle : exp (w j) ≤ ∑ k, exp (w k) := Finset.single_le_sum (f := fun k => exp (w k)) (fun k _ => (exp_pos _).le) (Finset.mem_univ j)
  refine ⟨?_, ?_, ?_⟩
  · unfold share
    rw [sum_update, Function.update_self]
    refine mul_le_mul_of_nonneg_left ?_ hb.le
    rw [div_le_div_iff₀ hS hS']
    nlinarith [exp_pos (w j)]
  · intro hn
    have hlt : exp (w j) < ∑ k, exp (w k) := by
      obtain ⟨k, hk⟩ : ∃ k : Fin n, k ≠ j := by
        by_cases h0 : j.val = 0
        · exact ⟨⟨1, hn⟩, fun h => by rw [← h] at h0; simp at h0⟩
        · exact ⟨⟨0, by omega⟩, fun h => h0 (by rw [← h])⟩
      have := Finset.add_le_sum (f := fun k => exp (w k)) (s := Finset.univ) (fun k _ => (exp_pos _).le) (Finset.mem_univ j) (Finset.mem_univ k) hk.symm
      linarith [exp_pos (w k)]
    unfold share
    rw [sum_update, Function.update_self]
    refine mul_lt_mul_of_pos_left ?_ hb
    rw [div_lt_div_iff₀ hS hS']
    nlinarith
  · intro i hi
    unfold share
    rw [sum_update, Function.update_of_ne hi]
    refine mul_lt_mul_of_pos_left ?_ hb
    exact div_lt_div_of_pos_left (exp_pos _) hS (by linarith)

/-- **C144: every split can be learnt.** For any positive amounts that add up to the budget there are weights under which the panels cost just these. -/
theorem reach (argsort : List ℝ → List Nat) (ha : IsArgsort argsort) (V : Volume) (b : ℝ) (hB : V.Budgeted b) (hp : ∀ p ∈ V.panels, p.Priced) (n : Nat) (hn : V.panels.length = n)
    (c : Fin n → ℝ) (hc : ∀ i, 0 < c i) (hs : ∑ i, c i = b) : ∃ w : Fin n → ℝ, Costs argsort (withWeights V (List.ofFn w)) (List.ofFn c) := by
  have hb : 0 ≤ b := hs ▸ Finset.sum_nonneg fun i _ => (hc i).le
  refine ⟨fun i => log (c i), ?_⟩
  have := costs argsort ha V b hb hB hp n hn fun i => log (c i)
  rwa [show share b (fun i => log (c i)) = c from ?_] at this
  funext i
  unfold share
  simp only [exp_log (hc _)]
  rw [hs]
  have : b ≠ 0 := by
    have := Finset.sum_pos (s := Finset.univ) (fun k _ => hc k) ⟨i, Finset.mem_univ i⟩
    rw [← hs]
    exact this.ne'
  field_simp

/-- **C144: gradients.** The share of panel `i` is differentiable in every weight. -/
theorem deriv_share {n : Nat} (b : ℝ) (w : Fin n → ℝ) (i j : Fin n) :
    HasDerivAt (fun t => share b (Function.update w j t) i) (share b w i * ((if i = j then 1 else 0) - share 1 w j)) (w j) := by
  have hS := sum_exp_pos w j
  have hd : HasDerivAt (fun t => (∑ k, exp (w k)) + (exp t - exp (w j))) (exp (w j)) (w j) := by
    simpa using ((hasDerivAt_exp (w j)).sub_const (exp (w j))).const_add (∑ k, exp (w k))
  have hv : (∑ k, exp (w k)) + (exp (w j) - exp (w j)) = ∑ k, exp (w k) := by ring
  by_cases hij : i = j
  · subst hij
    have := ((hasDerivAt_exp (w i)).div hd (by rw [hv]; exact hS.ne')).const_mul b
    unfold share
    simp only [sum_update, Function.update_self, if_true]
    refine this.congr_deriv ?_
    rw [hv]
    field_simp
  · have := ((hasDerivAt_const (w j) (exp (w i))).div hd (by rw [hv]; exact hS.ne')).const_mul b
    unfold share
    simp only [sum_update, Function.update_of_ne hij, if_neg hij]
    refine this.congr_deriv ?_
    rw [hv]
    field_simp
    ring

/-- **C144: gradients of sizes.** The width of a panel grows with its weight at the relative rate of half of what the others have: never faster than by half a unit per unit of weight, and ever more slowly as the panel takes all. -/
theorem deriv_size {n : Nat} (b : ℝ) (hb : 0 < b) (w : Fin n → ℝ) (i : Fin n) (p : Panel) (hp : 0 < p.m2cost * (p.span.1 * p.span.2)) :
    HasDerivAt (fun t => (p.assignBudget (some (share b (Function.update w i t) i))).scaledSpan.1) ((p.assignBudget (some (share b w i))).scaledSpan.1 * ((1 - share 1 w i) / 2)) (w i) := by
  have h1 := deriv_share b w i i
  have hs := share_pos b hb w i
  have h2 := (h1.div_const (p.m2cost * (p.span.1 * p.span.2))).sqrt (by rw [Function.update_eq_self]; exact (div_pos hs hp).ne')
  have h3 := h2.const_mul p.span.1
  have hf : (fun t => (p.assignBudget (some (share b (Function.update w i t) i))).scaledSpan.1) = fun t => p.span.1 * sqrt (share b (Function.update w i t) i / (p.m2cost * (p.span.1 * p.span.2))) := by
    funext t
    simp only [Panel.scaledSpan, Panel.assignBudget]
  rw [hf]
  refine h3.congr_deriv ?_
  simp only [Panel.scaledSpan, Panel.assignBudget, Function.update_eq_self, if_true]
  set q := share b w i / (p.m2cost * (p.span.1 * p.span.2)) with hq
  have hq0 : 0 < q := div_pos hs hp
  have e1 : share b w i * (1 - share 1 w i) / (p.m2cost * (p.span.1 * p.span.2)) = q * (1 - share 1 w i) := by rw [hq]; ring
  rw [e1]
  have e2 : q = sqrt q * sqrt q := (mul_self_sqrt hq0.le).symm
  have hsq : 0 < sqrt q := sqrt_pos.mpr hq0
  have e3 : q * (1 - share 1 w i) / (2 * sqrt q) = sqrt q * ((1 - share 1 w i) / 2) := by
    rw [div_eq_iff (by positivity)]
    calc q * (1 - share 1 w i) = sqrt q * sqrt q * (1 - share 1 w i) := by rw [← e2]
      _ = _ := by ring
  rw [e3]
  ring

theorem differentiable_share {n : Nat} (b : ℝ) (w : Fin n → ℝ) : DifferentiableAt ℝ (fun v : Fin n → ℝ => share b v) w := by
  rw [differentiableAt_pi]
  intro i
  have hS := sum_exp_pos w i
  have h1 : DifferentiableAt ℝ (fun v : Fin n → ℝ => exp (v i)) w := (differentiableAt_apply i w).exp
  have h2 : DifferentiableAt ℝ (fun v : Fin n → ℝ => ∑ k, exp (v k)) w := DifferentiableAt.fun_sum fun k _ => (differentiableAt_apply k w).exp
  have h3 := (h1.mul (h2.inv hS.ne')).const_mul b
  refine h3.congr_of_eventuallyEq (Filter.Eventually.of_forall fun v => ?_)
  simp only [share, div_eq_mul_inv, Pi.mul_apply, Pi.inv_apply]

/-- **C144: the mean weight is not learnt.** For any differentiable loss that depends on the weights through the shares only, the entries of its gradient add up to zero, so that steps down the gradient keep the sum of all weights - zero, as the
weights start - whatever the learning rate. -/
theorem descent {n : Nat} (b : ℝ) (w : Fin n → ℝ) (F : (Fin n → ℝ) → ℝ) (hF : DifferentiableAt ℝ F (share b w)) :
    let g := fun j => deriv (fun t => F (share b (Function.update w j t))) (w j)
    ∑ j, g j = 0 ∧ ∀ lr : ℝ, ∑ j, (w j - lr * g j) = ∑ j, w j := by
  intro g
  have hd : DifferentiableAt ℝ (fun v : Fin n → ℝ => F (share b v)) w := DifferentiableAt.comp w (g := F) (f := fun v : Fin n → ℝ => share b v) hF (differentiable_share b w)
  set L := fderiv ℝ (fun v : Fin n → ℝ => F (share b v)) w with hL
  have hg : ∀ j, g j = L (Pi.single j 1) := by
    intro j
    have hu : HasDerivAt (Function.update w j) (Pi.single j 1) (w j) := hasDerivAt_update w j (w j)
    have hd' : HasFDerivAt (fun v : Fin n → ℝ => F (share b v)) L (Function.update w j (w j)) := by
      rw [Function.update_eq_self]
      exact hd.hasFDerivAt
    exact (hd'.comp_hasDerivAt (w j) hu).deriv
  have hsum : ∑ j, g j = L (fun _ => 1) := by
    simp only [hg]
    rw [← map_sum]
    congr 1
    funext k
    simp [Finset.sum_apply, Pi.single_apply]
  have hone : HasDerivAt (fun s : ℝ => w + s • (fun _ : Fin n => (1 : ℝ))) (fun _ => 1) 0 := by
    simpa using ((hasDerivAt_id (0 : ℝ)).smul_const (fun _ : Fin n => (1 : ℝ))).const_add w
  have hd0 : HasFDerivAt (fun v : Fin n → ℝ => F (share b v)) L (w + (0 : ℝ) • fun _ : Fin n => (1 : ℝ)) := by
    rw [zero_smul, add_zero]
    exact hd.hasFDerivAt
  have h1 := hd0.comp_hasDerivAt (0 : ℝ) hone
  have hconst : ((fun v : Fin n → ℝ => F (share b v)) ∘ fun s : ℝ => w + s • (fun _ : Fin n => (1 : ℝ))) = fun _ => F (share b w) := by
    funext s
    simp only [Function.comp_apply]
    congr 1
    funext i
    unfold share
    simp only [Pi.add_apply, Pi.smul_apply, smul_eq_mul, mul_one, exp_add, ← Finset.sum_mul]
    congr 1
    exact mul_div_mul_right _ _ (exp_pos s).ne'
  rw [hconst] at h1
  have hz : L (fun _ => 1) = 0 := h1.unique (hasDerivAt_const _ _)
  have h0 : ∑ j, g j = 0 := hsum.trans hz
  refine ⟨h0, fun lr => ?_⟩
  rw [Finset.sum_sub_distrib, ← Finset.mul_sum, h0]
  ring

/-! ### What the code refutes -/

/-- a panel at height `z` -/
def panelAt (z : ℝ) : Panel := ⟨.gauss, 1000, 1, 1, (0.5, 0.5), z, (1, 1), 1, true, true⟩

/-- a volume with a layer of two panels at heights 1 and `z`, budget `b` and weights `u` and `v` -/
def two (b u v z : ℝ) : Volume := ⟨[.detector ⟨"above", (1, 1), 2, 2, [.panel (panelAt 1), .panel (panelAt z)]⟩], some b, [u, v], [2]⟩

/-- **C144 is refuted by the code.** Weights belong to places in the order of heights and not to panels: as the second panel is moved past the first, the two change their sizes at once, however small the move. -/
theorem cross_violated (argsort : List ℝ → List Nat) (ha : IsArgsort argsort) (b u v : ℝ) (hb : 0 ≤ b) :
    (∀ z < 1, ∃ V' s s', (two b u v z).assignBudget argsort = .ok V' ∧ V'.panels = [.panel { panelAt 1 with budgetScale := s }, .panel { panelAt z with budgetScale := s' }] ∧
      V'.panels.map AnyPanel.getCost = [b * (exp u / (exp u + exp v)), b * (exp v / (exp u + exp v))]) ∧
    (∀ z > 1, ∃ V' s s', (two b u v z).assignBudget argsort = .ok V' ∧ V'.panels = [.panel { panelAt 1 with budgetScale := s }, .panel { panelAt z with budgetScale := s' }] ∧
      V'.panels.map AnyPanel.getCost = [b * (exp v / (exp u + exp v)), b * (exp u / (exp u + exp v))]) := by
  have key : ∀ z, ∃ V' s s', (two b u v z).assignBudget argsort = .ok V' ∧ V'.panels = [.panel { panelAt 1 with budgetScale := s }, .panel { panelAt z with budgetScale := s' }] ∧
      ∃ o : List AnyPanel, o.Perm V'.panels ∧ o.Pairwise (fun p q => q.z ≤ p.z) ∧ o.map AnyPanel.getCost = [b * (exp u / (exp u + exp v)), b * (exp v / (exp u + exp v))] := by
    intro z
    obtain ⟨V', h1, h2, -, -, -, os, h3, h4⟩ := C20.shares_in_order argsort ha (two b u v z) b hb ⟨rfl, rfl, rfl⟩
      (by simp [Volume.panels, Volume.detectors, two, AnyPanel.Priced, panelAt])
    obtain ⟨ls, hls⟩ : ∃ ls, V'.layers = ls := ⟨_, rfl⟩
    rw [hls] at h2
    simp only [two] at h2
    cases h2 with
    | @cons _ l _ ls' ha' hb' =>
      cases hb'
      cases l with
      | passive L => exact ha'.elim
      | detector D =>
        obtain ⟨hpan, -⟩ := ha'
        have hdets : V'.detectors = [D] := by simp [Volume.detectors, hls]
        have hpans : V'.panels = D.panels := by simp [Volume.panels, hdets]
        obtain ⟨ps, hps⟩ : ∃ ps, D.panels = ps := ⟨_, rfl⟩
        rw [hps] at hpan
        cases hpan with
        | @cons _ a _ as ha1 hr =>
          cases hr with
          | @cons _ a' _ as' ha2 hr2 =>
            cases hr2
            obtain ⟨x, s, hx, rfl⟩ := ha1
            obtain ⟨y, s', hy, rfl⟩ := ha2
            simp only [AnyPanel.panel.injEq] at hx hy
            subst hx hy
            refine ⟨V', s, s', h1, by rw [hpans, hps], ?_⟩
            rw [hdets] at h3
            cases h3 with
            | @cons _ o _ os' ho hos =>
              cases hos
              refine ⟨o, by rw [hpans]; exact ho.1, ho.2, ?_⟩
              simpa [two] using h4
  constructor
  · intro z hz
    obtain ⟨V', s, s', h1, h2, o, h3, h4, h5⟩ := key z
    refine ⟨V', s, s', h1, h2, ?_⟩
    rw [h2] at h3 ⊢
    rcases List.perm_pair.mp h3 with rfl | rfl
    · exact h5
    · have := (List.pairwise_cons.mp h4).1 _ (List.mem_singleton.mpr rfl)
      simp only [AnyPanel.z, panelAt] at this
      linarith
  · intro z hz
    obtain ⟨V', s, s', h1, h2, o, h3, h4, h5⟩ := key z
    refine ⟨V', s, s', h1, h2, ?_⟩
    rw [h2] at h3 ⊢
    rcases List.perm_pair.mp h3 with rfl | rfl
    · have := (List.pairwise_cons.mp h4).1 _ (List.mem_singleton.mpr rfl)
      simp only [AnyPanel.z, panelAt] at this
      linarith
    · simp only [List.map_cons, List.map_nil, List.cons.injEq, and_true] at h5 ⊢
      exact ⟨h5.2, h5.1⟩

/-! ### The hypotheses can be met -/

example : ∃ argsort, IsArgsort argsort ∧ ∃ w : Fin 2 → ℝ, Costs argsort (withWeights (two 10 0 0 3) (List.ofFn w)) (List.ofFn ![1, 9]) := by
  obtain ⟨argsort, ha⟩ := C13.argsort_exists
  refine ⟨argsort, ha, reach argsort ha (two 10 0 0 3) 10 ⟨rfl, rfl, rfl⟩ (by simp [Volume.panels, Volume.detectors, two, AnyPanel.Priced, panelAt]) 2 rfl ![1, 9] ?_ ?_⟩
  · intro i
    fin_cases i <;> norm_num
  · rw [Fin.sum_univ_two]
    norm_num

example : share 1 ![0, 0, 0] 2 < share 1 (Function.update ![0, 0, 0] 1 5) 1 ∧ share 1 (Function.update ![0, 0, 0] 1 5) 2 < share 1 ![0, 0, 0] 2 := by
  obtain ⟨-, h1, h2⟩ := raise 1 one_pos ![0, 0, 0] 1 5 (by norm_num)
  refine ⟨?_, h2 2 (by decide)⟩
  have := h1 (by norm_num)
  simpa [share] using this

example : ∑ j : Fin 2, deriv (fun t => (fun s : Fin 2 → ℝ => s 0) (share 1 (Function.update ![0, 1] j t))) (![0, 1] j) = 0 :=
  (descent 1 ![0, 1] (fun s => s 0) (differentiableAt_apply 0 _)).1

end C144

end

end Tomopt
