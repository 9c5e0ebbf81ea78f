import Verif.Lemmas.Detector

/- Helper lemmas for budgets. -/
namespace Tomopt

noncomputable section
open Real

/-- cost after assignment -/
theorem Panel.cost_assign (p : Panel) (v : ℝ) (hv : 0 ≤ v) (hp : 0 < p.m2cost * (p.span.1 * p.span.2)) :
    (p.assignBudget (some v)).getCost = v := by
  simp only [Panel.getCost, Panel.assignBudget, Panel.scaledSpan]
  have h : sqrt (v / (p.m2cost * (p.span.1 * p.span.2))) ^ 2 = v / (p.m2cost * (p.span.1 * p.span.2)) := sq_sqrt (by positivity)
  have : p.m2cost * (p.span.1 * sqrt (v / (p.m2cost * (p.span.1 * p.span.2))) * (p.span.2 * sqrt (v / (p.m2cost * (p.span.1 * p.span.2)))))
      = p.m2cost * (p.span.1 * p.span.2) * sqrt (v / (p.m2cost * (p.span.1 * p.span.2))) ^ 2 := by ring
  rw [this, h]
  exact mul_div_cancel₀ v hp.ne'

theorem assignLoop_ok (budget : List ℝ) : ∀ (js : List Nat) (i : Nat) (ps : List AnyPanel), js.Nodup → (∀ j ∈ js, j < ps.length) →
    (∀ p ∈ ps, p.Priced) → i + js.length ≤ budget.length → ∃ ps', DetLayer.assignLoop budget js i ps = .ok ps' ∧
      ps'.length = ps.length ∧ (∀ j, j ∉ js → ps'[j]? = ps[j]?) ∧
      ∀ k j, js[k]? = some j → ∃ p v, ps[j]? = some (.panel p) ∧ budget[i + k]? = some v ∧
        ps'[j]? = some (.panel (p.assignBudget (some v)))
  | [], i, ps, _, _, _, _ => ⟨ps, rfl, rfl, fun _ _ => rfl, by simp⟩
  | j :: js, i, ps, hn, hj, hp, hl => by
    have hj0 : j < ps.length := hj j (by simp)
    simp only [List.nodup_cons] at hn
    simp only [List.length_cons] at hl
    have hi : i < budget.length := by omega
    obtain ⟨p, hpj⟩ : ∃ p, ps[j] = .panel p := by
      have := hp ps[j] (List.getElem_mem hj0)
      cases h : ps[j] with
      | panel p => exact ⟨p, rfl⟩
      | heatmap _ => rw [h] at this; exact this.elim
    have hps : ps[j]? = some (.panel p) := by rw [List.getElem?_eq_getElem hj0, hpj]
    unfold DetLayer.assignLoop
    rw [hps, List.getElem?_eq_getElem hi]
    simp only [AnyPanel.assignBudget]
    obtain ⟨ps', h1, h2, h3, h4⟩ := assignLoop_ok budget js (i + 1) (ps.set j (.panel (p.assignBudget (some budget[i])))) hn.2
      (by intro k hk; simpa using hj k (by simp [hk]))
      (by
        intro q hq
        rcases List.mem_or_eq_of_mem_set hq with h | h
        · exact hp q h
        · subst h
          have : (AnyPanel.panel p).Priced := hpj ▸ hp ps[j] (List.getElem_mem hj0)
          exact this)
      (by omega)
    refine ⟨ps', h1, by simpa using h2, ?_, ?_⟩
    · intro k hk
      simp only [List.mem_cons, not_or] at hk
      rw [h3 k hk.2, List.getElem?_set_ne (by omega)]
    · intro k j' hk
      cases k with
      | zero =>
        simp at hk; subst hk
        refine ⟨p, budget[i], hps, by simp [hi], ?_⟩
        rw [h3 j hn.1, List.getElem?_set_self hj0]
      | succ k =>
        simp only [List.getElem?_cons_succ] at hk
        obtain ⟨q, v, e1, e2, e3⟩ := h4 k j' hk
        have hne : j ≠ j' := by
          rintro rfl
          exact hn.1 (List.mem_of_getElem? hk)
        rw [List.getElem?_set_ne hne] at e1
        exact ⟨q, v, e1, by rw [← e2]; congr 1; omega, e3⟩

theorem assignBudget_layer {argsort : List ℝ → List Nat} (ha : IsArgsort argsort) (D : DetLayer) (shares : List ℝ)
    (hp : ∀ p ∈ D.panels, p.Priced) (hs : ∀ v ∈ shares, 0 ≤ v) (hl : shares.length = D.panels.length) :
    ∃ D', D.assignBudget argsort (some shares) = .ok D' ∧ SameLayer (.detector D) (.detector D') ∧
      ∃ order, TopDown D' order ∧ order.map AnyPanel.getCost = shares := by
  have hperm := zorder_perm ha D
  have hlen : (D.zorder argsort).length = D.panels.length := by simpa using hperm.length_eq
  have hn : (D.zorder argsort).Nodup := hperm.nodup_iff.mpr List.nodup_range
  have hlt : ∀ j ∈ D.zorder argsort, j < D.panels.length := fun j hj => List.mem_range.mp (hperm.mem_iff.mp hj)
  obtain ⟨ps', h1, h2, h3, h4⟩ := assignLoop_ok shares (D.zorder argsort) 0 D.panels hn hlt hp (by omega)
  refine ⟨{ D with panels := ps' }, by simp [DetLayer.assignBudget, h1], ?_, ?_⟩
  · refine ⟨?_, rfl⟩
    rw [List.forall₂_iff_get]
    refine ⟨h2.symm, ?_⟩
    intro j hj hj'
    have hmem : j ∈ D.zorder argsort := hperm.mem_iff.mpr (List.mem_range.mpr hj)
    obtain ⟨k, hk⟩ := List.mem_iff_getElem?.mp hmem
    obtain ⟨p, v, e1, _, e3⟩ := h4 k j hk
    have e1' : D.panels[j] = .panel p := by
      rw [List.getElem?_eq_getElem hj] at e1; simpa using e1
    have e3' : ps'[j]'(by omega) = .panel (p.assignBudget (some v)) := by
      rw [List.getElem?_eq_getElem (by omega)] at e3; simpa using e3
    simp only [List.get_eq_getElem]
    exact ⟨p, _, e1', e3'⟩
  · have hz : ps'.map AnyPanel.z = D.panels.map AnyPanel.z := by
      apply List.ext_getElem?
      intro j
      by_cases hj : j < D.panels.length
      · have hmem : j ∈ D.zorder argsort := hperm.mem_iff.mpr (List.mem_range.mpr hj)
        obtain ⟨k, hk⟩ := List.mem_iff_getElem?.mp hmem
        obtain ⟨p, v, e1, _, e3⟩ := h4 k j hk
        simp [e1, e3, AnyPanel.z, Panel.assignBudget]
      · simp [hj, h2]
    have hzo : ({ D with panels := ps' } : DetLayer).zorder argsort = D.zorder argsort := by
      simp only [DetLayer.zorder, hz]
    refine ⟨(({ D with panels := ps' } : DetLayer).zpanels argsort).map (·.2), ⟨zpanels_perm ha _, ?_⟩, ?_⟩
    · rw [List.pairwise_map]
      exact zpanels_sorted ha _
    · have hz' : (({ D with panels := ps' } : DetLayer).zpanels argsort).map (·.2) = (D.zorder argsort).filterMap fun j => ps'[j]? := by
        unfold DetLayer.zpanels
        rw [hzo, List.map_filterMap]
        apply List.filterMap_congr
        intro j _
        simp [Function.comp_def]
      rw [hz', List.map_filterMap]
      have key : ∀ k, k < D.panels.length → ∀ j, (D.zorder argsort)[k]? = some j →
          (ps'[j]?).map AnyPanel.getCost = shares[k]? := by
        intro k _ j hk
        obtain ⟨p, v, e1, e2, e3⟩ := h4 k j hk
        rw [Nat.zero_add] at e2
        rw [e3, e2]
        have hpr : (AnyPanel.panel p).Priced := hp _ (List.mem_of_getElem? e1)
        simp only [Option.map_some, AnyPanel.getCost]
        rw [p.cost_assign v (hs v (List.mem_of_getElem? e2)) hpr]
      -- compare element by element
      have gen : ∀ (js : List Nat) (sh : List ℝ), js.length = sh.length →
          (∀ (k j : Nat), js[k]? = some j → (ps'[j]?).map AnyPanel.getCost = sh[k]?) →
          js.filterMap (fun j => (ps'[j]?).map AnyPanel.getCost) = sh := by
        intro js
        induction js with
        | nil => intro sh h _; simpa using (List.length_eq_zero_iff.mp h.symm).symm
        | cons j js ih =>
          intro sh hl hk
          cases sh with
          | nil => simp at hl
          | cons s sh =>
            have h0 := hk 0 j (by simp)
            simp only [List.getElem?_cons_zero] at h0
            simp only [List.filterMap_cons, h0]
            rw [ih sh (by simpa using hl) (fun k j' h' => by simpa using hk (k + 1) j' (by simpa using h'))]
      refine gen _ _ (by omega) ?_
      intro k j hk
      have hkl : k < (D.zorder argsort).length := (List.getElem?_eq_some_iff.mp hk).1
      exact key k (by omega) j hk

/-- detector layers of a list of layers -/
def detsOf (ls : List AnyLayer) : List DetLayer := ls.filterMap fun l => match l with | .detector D => some D | _ => none

theorem volume_assignLoop {argsort : List ℝ → List Nat} (ha : IsArgsort argsort) (shares : List ℝ) (hs : ∀ v ∈ shares, 0 ≤ v)
    (nCosts : List Nat) : ∀ (ls : List AnyLayer) (bi li : Nat), nCosts.drop li = (detsOf ls).map (fun D => D.panels.length) →
    (shares.drop bi).length = ((detsOf ls).flatMap (·.panels)).length → (∀ D ∈ detsOf ls, ∀ p ∈ D.panels, p.Priced) →
    ∃ ls', Volume.assignLoop argsort shares nCosts bi li ls = .ok ls' ∧ List.Forall₂ SameLayer ls ls' ∧
      ∃ orders, List.Forall₂ TopDown (detsOf ls') orders ∧ orders.flatten.map AnyPanel.getCost = shares.drop bi
  | [], bi, li, _, hl, _ => by
    refine ⟨[], rfl, .nil, [], .nil, ?_⟩
    simp only [detsOf, List.filterMap_nil, List.flatMap_nil, List.length_nil] at hl
    rw [List.length_eq_zero_iff.mp hl]; rfl
  | .passive L :: ls, bi, li, hn, hl, hp => by
    obtain ⟨ls', h1, h2, orders, h3, h4⟩ := volume_assignLoop ha shares hs nCosts ls bi li (by simpa [detsOf] using hn)
      (by simpa [detsOf] using hl) (by simpa [detsOf] using hp)
    refine ⟨.passive L :: ls', by simp [Volume.assignLoop, h1], .cons rfl h2, orders, by simpa [detsOf] using h3, h4⟩
  | .detector D :: ls, bi, li, hn, hl, hp => by
    have hdet : detsOf (.detector D :: ls) = D :: detsOf ls := rfl
    rw [hdet] at hn hl hp
    simp only [List.map_cons, List.flatMap_cons, List.length_append, List.length_drop] at hn hl
    have hli : nCosts[li]? = some D.panels.length := by
      have := congrArg (fun l => l[0]?) hn
      simpa using this
    have hn' : nCosts.drop (li + 1) = (detsOf ls).map (fun D => D.panels.length) := by
      have := congrArg List.tail hn
      simpa using this
    obtain ⟨D', e1, e2, order, e3, e4⟩ := assignBudget_layer ha D ((shares.drop bi).take D.panels.length) (hp D (by simp))
      (fun v hv => hs v (List.mem_of_mem_drop (List.mem_of_mem_take hv))) (by simp; omega)
    obtain ⟨ls', h1, h2, orders, h3, h4⟩ := volume_assignLoop ha shares hs nCosts ls (bi + D.panels.length) (li + 1) hn'
      (by simp only [List.length_drop]; omega) (fun E hE => hp E (by simp [hE]))
    refine ⟨.detector D' :: ls', by simp [Volume.assignLoop, hli, e1, h1], .cons e2 h2, order :: orders, .cons e3 h3, ?_⟩
    rw [List.flatten_cons, List.map_append, e4, h4]
    rw [← List.drop_drop, List.take_append_drop]

theorem softmax_sum (w : List ℝ) (h : w ≠ []) : (softmax w).sum = 1 := by
  have hpos : 0 < (w.map exp).sum := by
    apply List.sum_pos
    · intro x hx
      obtain ⟨y, _, rfl⟩ := List.mem_map.mp hx
      exact exp_pos y
    · simpa using h
  have : softmax w = (w.map exp).map (· / (w.map exp).sum) := by simp [softmax, List.map_map, Function.comp_def]
  rw [this]
  simp only [div_eq_mul_inv]
  rw [List.sum_map_mul_right]
  simp only [List.map_id']
  field_simp

theorem softmax_nonneg (w : List ℝ) : ∀ x ∈ softmax w, 0 ≤ x := by
  intro x hx
  simp only [softmax, List.mem_map] at hx
  obtain ⟨y, _, rfl⟩ := hx
  have : 0 ≤ (w.map exp).sum := List.sum_nonneg (by intro a ha; obtain ⟨c, _, rfl⟩ := List.mem_map.mp ha; exact (exp_pos c).le)
  positivity

end

end Tomopt
