import Verif.Lemmas.Budget
import Verif.Props.C13_14

/- C19-C21: budgets. -/
namespace Tomopt

noncomputable section
open Real

namespace C20

/-- **C20.** For every arrangement of layers and panels, every weight vector and every budget: the assignment succeeds, changes nothing but the scales
of the panels, and the costs of the panels read layer after layer, in each layer from the highest panel down, are exactly the shares
`budget * exp w / (sum of all exp w)` of the weights read left to right: none skipped, none reused, none left over. -/
theorem shares_in_order (argsort : List ℝ → List Nat) (ha : IsArgsort argsort) (V : Volume) (b : ℝ) (hb : 0 ≤ b) (hB : V.Budgeted b)
    (hp : ∀ p ∈ V.panels, p.Priced) :
    ∃ V', V.assignBudget argsort = .ok V' ∧ List.Forall₂ SameLayer V.layers V'.layers ∧
      V'.budget = V.budget ∧ V'.weights = V.weights ∧ V'.nCosts = V.nCosts ∧
      ∃ orders : List (List AnyPanel), List.Forall₂ TopDown V'.detectors orders ∧
        orders.flatten.map AnyPanel.getCost = V.weights.map fun w => b * (exp w / (V.weights.map exp).sum) := by
  have hshare : (softmax V.weights).map (b * ·) = V.weights.map fun w => b * (exp w / (V.weights.map exp).sum) := by
    simp [softmax, Function.comp_def]
  have hnn : ∀ v ∈ (softmax V.weights).map (b * ·), 0 ≤ v := by
    intro v hv
    obtain ⟨x, hx, rfl⟩ := List.mem_map.mp hv
    exact mul_nonneg hb (softmax_nonneg _ x hx)
  obtain ⟨ls', h1, h2, orders, h3, h4⟩ := volume_assignLoop ha ((softmax V.weights).map (b * ·)) hnn V.nCosts V.layers 0 0
    (by rw [List.drop_zero]; exact hB.costs) (by rw [List.drop_zero]; simp only [softmax, List.length_map]; exact hB.weights)
    (fun D hD p hpp => hp p (List.mem_flatMap.mpr ⟨D, hD, hpp⟩))
  refine ⟨{ V with layers := ls' }, ?_, h2, rfl, rfl, rfl, orders, h3, ?_⟩
  · simp [Volume.assignBudget, hB.budget, h1]
  · rw [h4, List.drop_zero, hshare]

/-- A volume as built by the constructor with a budget is arranged as the theorem requires. -/
theorem constructed_budgeted (argsort : List ℝ → List Nat) (ha : IsArgsort argsort) (layers : List AnyLayer) (devices : List String) (b : ℝ)
    (hb : 0 ≤ b) (V : Volume) (hp : ∀ D, AnyLayer.detector D ∈ layers → ∀ p ∈ D.panels, p.Priced)
    (h : Volume.make argsort layers devices (some b) = .ok V) : V.Budgeted b ∧ ∀ p ∈ V.panels, p.Priced := by
  unfold Volume.make at h
  cases hd : Volume.getDevice devices with
  | error e => rw [hd] at h; simp at h
  | ok d =>
    rw [hd] at h
    simp only at h
    cases hc : Volume.checkPassives none none (Volume.passives ⟨layers, some b, [], []⟩) with
    | error e => rw [hc] at h; simp at h
    | ok u =>
      rw [hc] at h
      simp only [Volume.configureBudget] at h
      split at h
      · simp at h
      · set W : Volume := ⟨layers, some b, List.replicate ((Volume.detectors ⟨layers, some b, [], []⟩).map fun D => D.panels.length).sum 0,
          (Volume.detectors ⟨layers, some b, [], []⟩).map fun D => D.panels.length⟩ with hW
        have hBW : W.Budgeted b := ⟨rfl, rfl, by
          simp only [hW, List.length_replicate, Volume.panels, List.length_flatMap]; rfl⟩
        have hpW : ∀ p ∈ W.panels, p.Priced := by
          intro p hpp
          obtain ⟨D, hD, hpD⟩ := List.mem_flatMap.mp hpp
          simp only [hW, Volume.detectors, List.mem_filterMap] at hD
          obtain ⟨l, hl, hlD⟩ := hD
          cases l with
          | passive L => simp at hlD
          | detector E => simp at hlD; subst hlD; exact hp E hl p hpD
        obtain ⟨V', h1, h2, h3, h4, h5, _⟩ := shares_in_order argsort ha W b hb hBW hpW
        rw [h1] at h
        simp only [Except.ok.injEq] at h
        subst h
        have hdet : ∀ {ls ls' : List AnyLayer}, List.Forall₂ SameLayer ls ls' →
            List.Forall₂ (fun D D' : DetLayer => List.Forall₂ SamePanel D.panels D'.panels) (detsOf ls) (detsOf ls') := by
          intro ls ls' hf
          induction hf with
          | nil => exact .nil
          | @cons a c as cs hac _ ih =>
            cases a <;> cases c
            · simpa [detsOf] using ih
            · exact hac.elim
            · exact hac.elim
            · exact .cons hac.1 ih
        have hdd := hdet h2
        have hlens : (V'.detectors.map fun D => D.panels.length) = W.detectors.map fun D => D.panels.length := by
          have : ∀ {a c : List DetLayer}, List.Forall₂ (fun D D' : DetLayer => List.Forall₂ SamePanel D.panels D'.panels) a c →
              c.map (fun D => D.panels.length) = a.map fun D => D.panels.length := by
            intro a c hf
            induction hf with
            | nil => rfl
            | cons hac _ ih => simp [ih, hac.length_eq]
          exact this hdd
        refine ⟨⟨h3, by rw [h5, hlens]; exact hBW.costs, ?_⟩, ?_⟩
        · rw [h4, hBW.weights]
          simp only [Volume.panels, List.length_flatMap, hlens]
        · intro p hpp
          obtain ⟨D', hD', hpD⟩ := List.mem_flatMap.mp hpp
          have : ∀ {a c : List DetLayer}, List.Forall₂ (fun D D' : DetLayer => List.Forall₂ SamePanel D.panels D'.panels) a c →
              (∀ D ∈ a, ∀ p ∈ D.panels, p.Priced) → ∀ D ∈ c, ∀ p ∈ D.panels, p.Priced := by
            intro a c hf hall
            induction hf with
            | nil => simp
            | @cons D E _ _ hac _ ih =>
              intro F hF q hq
              simp only [List.mem_cons] at hF
              rcases hF with rfl | hF
              · obtain ⟨i, hi, rfl⟩ := List.mem_iff_getElem.mp hq
                have hi' : i < D.panels.length := by rw [hac.length_eq]; exact hi
                obtain ⟨a, s, ea, es⟩ := (List.forall₂_iff_get.mp hac).2 i hi' hi
                simp only [List.get_eq_getElem] at ea es
                rw [es]
                have := hall D (by simp) D.panels[i] (List.getElem_mem hi')
                rw [ea] at this
                exact this
              · exact ih (fun D hD => hall D (by simp [hD])) F hF q hq
          exact this hdd (fun D hD p hpd => hpW p (List.mem_flatMap.mpr ⟨D, hD, hpd⟩)) D' hD' p hpD

end C20

namespace C19

/-- **C19.** After assignment all panel costs are non-negative and sum to the budget, whatever the weights and the arrangement. -/
theorem budget_spent (argsort : List ℝ → List Nat) (ha : IsArgsort argsort) (V : Volume) (b : ℝ) (hb : 0 ≤ b) (hB : V.Budgeted b)
    (hp : ∀ p ∈ V.panels, p.Priced) (hne : V.panels ≠ []) :
    ∃ V', V.assignBudget argsort = .ok V' ∧ (∀ p ∈ V'.panels, 0 ≤ p.getCost) ∧ (V'.panels.map AnyPanel.getCost).sum = b ∧
      V'.getCost = .ok b := by
  obtain ⟨V', h1, _, h3, _, _, orders, h4, h5⟩ := C20.shares_in_order argsort ha V b hb hB hp
  have hperm : ∀ {Ds : List DetLayer} {os : List (List AnyPanel)}, List.Forall₂ TopDown Ds os → os.flatten.Perm (Ds.flatMap (·.panels)) := by
    intro Ds os hf
    induction hf with
    | nil => simp
    | cons h _ ih => simpa using h.1.append ih
  have hP := hperm h4
  have hsum := (hP.map AnyPanel.getCost).sum_eq
  have hw : V.weights ≠ [] := by
    intro h
    apply hne
    have := hB.weights
    rw [h] at this
    exact List.length_eq_zero_iff.mp this.symm
  refine ⟨V', h1, ?_, ?_, ?_⟩
  · intro p hpp
    have hm : p.getCost ∈ orders.flatten.map AnyPanel.getCost := List.mem_map.mpr ⟨p, hP.mem_iff.mpr hpp, rfl⟩
    rw [h5, List.mem_map] at hm
    obtain ⟨w, _, hwe⟩ := hm
    rw [← hwe]
    have : 0 ≤ (V.weights.map exp).sum := List.sum_nonneg (by intro a ha; obtain ⟨c, _, rfl⟩ := List.mem_map.mp ha; exact (exp_pos c).le)
    positivity
  · have h6 : (V'.panels.map AnyPanel.getCost).sum = (orders.flatten.map AnyPanel.getCost).sum := hsum.symm
    rw [h6, h5]
    have := softmax_sum V.weights hw
    unfold softmax at this
    rw [List.sum_map_mul_left, this, mul_one]
  · simp [Volume.getCost, h3, hB.budget]

/-- **C19, without a budget.** The cost of the volume is the sum of the costs of all its panels, if every detector layer has panels. -/
theorem cost_is_sum (V : Volume) (hb : V.budget = none) (hne : ∀ D ∈ V.detectors, D.panels ≠ []) : V.getCost = .ok ((V.panels.map AnyPanel.getCost).sum) := by
  have hd : ∀ (f : Option ℝ → AnyPanel → Option ℝ), (∀ c p, f (some c) p = some (c + p.getCost)) → ∀ (ps : List AnyPanel) (c : ℝ),
      ps.foldl f (some c) = some (c + (ps.map AnyPanel.getCost).sum) := by
    intro f hf ps
    induction ps with
    | nil => simp
    | cons p ps ih => intro c; simp only [List.foldl_cons, hf, ih, List.map_cons, List.sum_cons]; rw [add_assoc]
  have hD : ∀ D : DetLayer, D.panels ≠ [] → D.getCost = some ((D.panels.map AnyPanel.getCost).sum) := by
    intro D h
    unfold DetLayer.getCost
    cases hp : D.panels with
    | nil => exact absurd hp h
    | cons p ps => exact hd _ (fun _ _ => rfl) ps p.getCost
  have hL : ∀ (Ds : List DetLayer) (c : ℝ), (∀ D ∈ Ds, D.panels ≠ []) →
      Volume.costLoop (some c) Ds = .ok (some (c + ((Ds.flatMap (·.panels)).map AnyPanel.getCost).sum)) := by
    intro Ds
    induction Ds with
    | nil => intro c _; simp [Volume.costLoop]
    | cons D Ds ih =>
      intro c h
      simp only [Volume.costLoop, hD D (h D (by simp)), ih _ fun E hE => h E (by simp [hE]), List.flatMap_cons, List.map_append, List.sum_append]
      rw [add_assoc]
  unfold Volume.getCost Volume.panels
  rw [hb]
  cases hV : V.detectors with
  | nil => simp [Volume.costLoop]
  | cons D Ds =>
    rw [hV] at hne
    simp only [Volume.costLoop, hD D (hne D (by simp)), hL Ds _ fun E hE => hne E (by simp [hE]), List.flatMap_cons, List.map_append, List.sum_append]

/-- **C19, error.** A detector layer without panels below one with panels makes the cost fail. -/
theorem no_panels_error (V : Volume) (hb : V.budget = none) (D E : DetLayer) (Ds : List DetLayer) (hV : V.detectors = D :: E :: Ds) (hD : D.panels ≠ []) (hE : E.panels = []) :
    V.getCost = .error .typeError := by
  have h1 : ∃ c, D.getCost = some c := by
    unfold DetLayer.getCost
    cases hp : D.panels with
    | nil => exact absurd hp hD
    | cons p ps =>
      have : ∀ (f : Option ℝ → AnyPanel → Option ℝ), (∀ c p, f (some c) p = some (c + p.getCost)) → ∀ (ps : List AnyPanel) (c : ℝ), ∃ d, ps.foldl f (some c) = some d := by
        intro f hf ps
        induction ps with
        | nil => intro c; exact ⟨c, rfl⟩
        | cons p ps ih => intro c; rw [List.foldl_cons, hf]; exact ih _
      exact this _ (fun _ _ => rfl) ps p.getCost
  obtain ⟨c, hc⟩ := h1
  have h2 : E.getCost = none := by simp [DetLayer.getCost, hE]
  simp [Volume.getCost, hb, hV, Volume.costLoop, hc, h2]

/-- Non-vacuity (C19, C20): a constructed volume of two detector layers with three panels. -/
example : ∃ argsort V, IsArgsort argsort ∧ Volume.make argsort
      [.detector ⟨"above", (1, 1), 3, 1, [.panel ⟨.gauss, 1000, 1, 1, (0.5, 0.5), 2.2, (1, 2), 1, true, true⟩,
        .panel ⟨.gauss, 1000, 1, 2, (0.5, 0.5), 2.8, (1, 1), 1, true, true⟩]⟩,
       .passive ⟨(1, 1), 2, 1, 0.1, "pdg", none⟩,
       .detector ⟨"below", (1, 1), 1, 1, [.panel ⟨.gauss, 1000, 1, 1, (0.5, 0.5), 0.5, (1, 1), 1, true, true⟩]⟩] ["cpu", "cpu", "cpu"] (some 10) = .ok V ∧
      V.panels.length = 3 ∧ (V.panels.map AnyPanel.getCost).sum = 10 := by
  obtain ⟨argsort, ha⟩ := C13.argsort_exists
  set ls : List AnyLayer := [.detector ⟨"above", (1, 1), 3, 1, [.panel ⟨.gauss, 1000, 1, 1, (0.5, 0.5), 2.2, (1, 2), 1, true, true⟩,
        .panel ⟨.gauss, 1000, 1, 2, (0.5, 0.5), 2.8, (1, 1), 1, true, true⟩]⟩,
       .passive ⟨(1, 1), 2, 1, 0.1, "pdg", none⟩,
       .detector ⟨"below", (1, 1), 1, 1, [.panel ⟨.gauss, 1000, 1, 1, (0.5, 0.5), 0.5, (1, 1), 1, true, true⟩]⟩] with hls
  set W : Volume := ⟨ls, some 10, [0, 0, 0], [2, 1]⟩ with hW
  obtain ⟨V, h1, _, h3, _⟩ := budget_spent argsort ha W 10 (by norm_num) ⟨rfl, rfl, rfl⟩
    (by simp [Volume.panels, Volume.detectors, hW, hls, AnyPanel.Priced]) (by simp [Volume.panels, Volume.detectors, hW, hls])
  have hm : Volume.make argsort ls ["cpu", "cpu", "cpu"] (some 10) = .ok V := by
    rw [← h1]
    simp [Volume.make, Volume.getDevice, Volume.passives, hls, Volume.checkPassives, Volume.checkPassives.checkSize, Volume.configureBudget,
      Volume.detectors, hW, List.replicate]
  refine ⟨argsort, V, ha, hm, ?_, h3⟩
  have := (C20.constructed_budgeted argsort ha ls _ 10 (by norm_num) V (by simp [hls, AnyPanel.Priced]) hm).1.weights
  obtain ⟨V', e1, _, _, e4, _⟩ := C20.shares_in_order argsort ha W 10 (by norm_num) ⟨rfl, rfl, rfl⟩
    (by simp [Volume.panels, Volume.detectors, hW, hls, AnyPanel.Priced])
  rw [h1] at e1
  simp only [Except.ok.injEq] at e1
  subst e1
  rw [← this, e4]; rfl

end C19

namespace C21

/-- **C21.** Assigning a budget makes the cost equal to it and keeps centre, height and aspect ratio (the scaled span is the nominal
span times one non-negative factor); nothing else changes. -/
theorem panel_budget (p : Panel) (b : ℝ) (hb : 0 ≤ b) (hc : 0 < p.m2cost) (h1 : 0 < p.span.1) (h2 : 0 < p.span.2) :
    (p.assignBudget (some b)).getCost = b ∧ (p.assignBudget (some b)).xy = p.xy ∧ (p.assignBudget (some b)).z = p.z ∧
    (p.assignBudget (some b)).span = p.span ∧
    ∃ s : ℝ, 0 ≤ s ∧ (p.assignBudget (some b)).scaledSpan = (s * p.span.1, s * p.span.2) := by
  refine ⟨p.cost_assign b hb (by positivity), rfl, rfl, rfl, _, Real.sqrt_nonneg (b / (p.m2cost * (p.span.1 * p.span.2))), ?_⟩
  simp [Panel.scaledSpan, Panel.assignBudget, mul_comm]

/-- Without a budget nothing changes; a fresh panel costs its nominal area times the rate. -/
theorem panel_no_budget (p : Panel) : p.assignBudget none = p := rfl

theorem fresh_nominal (kind : PanelKind) (res eff : ℝ) (xyz : ℝ × ℝ × ℝ) (span : ℝ × ℝ) (c : ℝ) (r : Bool) (p : Panel)
    (h : Panel.make kind res eff xyz span c none r = .ok p) : p.getCost = c * (span.1 * span.2) ∧ p.scaledSpan = span := by
  unfold Panel.make at h
  split at h
  · simp at h
  · split at h
    · simp at h
    · split at h
      · simp at h
      · simp only [Panel.assignBudget, Except.ok.injEq] at h
        subst h
        simp [Panel.getCost, Panel.scaledSpan]

/-- Re-assigning depends only on the last budget: the scale is set, not multiplied. -/
theorem reassign (p : Panel) (a b : ℝ) : (p.assignBudget (some a)).assignBudget (some b) = p.assignBudget (some b) := rfl

example : ((⟨.gauss, 1000, 1, 2, (0.5, 0.5), 2.2, (1, 2), 1, true, true⟩ : Panel).assignBudget (some 16)).scaledSpan = (2, 4) := by
  have : sqrt (16 / (2 * (1 * 2))) = 2 := by
    rw [show (16 : ℝ) / (2 * (1 * 2)) = 2 ^ 2 by norm_num]; exact sqrt_sq (by norm_num)
  simp only [Panel.scaledSpan, Panel.assignBudget, this]; norm_num

end C21

end

end Tomopt
