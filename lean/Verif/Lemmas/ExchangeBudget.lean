import Verif.Spec.ExchangeHits

/- Lemmas for C152: budgets and costs with the horizontal axes exchanged. -/
namespace Tomopt

noncomputable section
open Real

namespace Exchange

theorem panel_budget (b : Option ℝ) (p : AnyPanel) : (exPanel p).assignBudget b = (p.assignBudget b).map exPanel := by
  cases p with
  | panel p =>
    cases b with
    | none => rfl
    | some v =>
      simp only [exPanel, AnyPanel.assignBudget, Panel.assignBudget, Except.map]
      rw [mul_comm p.span.2 p.span.1]
  | heatmap h => cases b <;> rfl

theorem panels_budget (budget : List ℝ) : ∀ (js : List Nat) (i : Nat) (ps : List AnyPanel),
    DetLayer.assignLoop budget js i (ps.map exPanel) = (DetLayer.assignLoop budget js i ps).map (·.map exPanel)
  | [], _, _ => rfl
  | j :: js, i, ps => by
    simp only [DetLayer.assignLoop, List.getElem?_map]
    cases ps[j]? with
    | none => rfl
    | some p =>
      cases budget[i]? with
      | none => rfl
      | some v =>
        simp only [Option.map_some, panel_budget]
        cases p.assignBudget (some v) with
        | error e => rfl
        | ok p' =>
          simp only [Except.map]
          rw [← List.map_set, panels_budget budget js (i + 1) (ps.set j p')]
          rfl

theorem exPanel_z (p : AnyPanel) : (exPanel p).z = p.z := by cases p <;> rfl

/-- a detector layer with the axes exchanged -/
def exDet (D : DetLayer) : DetLayer := { D with lw := (D.lw.2, D.lw.1), panels := D.panels.map exPanel }

theorem det_budget (argsort : List ℝ → List Nat) (D : DetLayer) (b : Option (List ℝ)) : (exDet D).assignBudget argsort b = (D.assignBudget argsort b).map exDet := by
  cases b with
  | none => rfl
  | some budget =>
    have hz : (exDet D).zorder argsort = D.zorder argsort := by
      simp only [DetLayer.zorder, exDet, List.map_map]
      congr 2
      exact List.map_congr_left fun p _ => exPanel_z p
    simp only [DetLayer.assignBudget, hz]
    rw [show (exDet D).panels = D.panels.map exPanel from rfl, panels_budget]
    cases DetLayer.assignLoop budget (D.zorder argsort) 0 D.panels <;> rfl

theorem layers_budget (argsort : List ℝ → List Nat) (shares : List ℝ) (ns : List Nat) {ls ls' : List AnyLayer} (h : List.Forall₂ ExD ls ls') : ∀ bi li,
    (∃ e, Volume.assignLoop argsort shares ns bi li ls = .error e ∧ Volume.assignLoop argsort shares ns bi li ls' = .error e) ∨
      ∃ ks ks', Volume.assignLoop argsort shares ns bi li ls = .ok ks ∧ Volume.assignLoop argsort shares ns bi li ls' = .ok ks' ∧ List.Forall₂ ExD ks ks' := by
  induction h with
  | nil => exact fun _ _ => Or.inr ⟨[], [], rfl, rfl, .nil⟩
  | cons hd _ ih =>
    intro bi li
    cases hd with
    | passive L L' hL h0 =>
      rcases ih bi li with ⟨e, e1, e2⟩ | ⟨ks, ks', e1, e2, e3⟩
      · exact Or.inl ⟨e, by simp only [Volume.assignLoop, e1], by simp only [Volume.assignLoop, e2]⟩
      · exact Or.inr ⟨_, _, by simp only [Volume.assignLoop, e1], by simp only [Volume.assignLoop, e2], .cons (.passive L L' hL h0) e3⟩
    | detector D =>
      simp only [Volume.assignLoop]
      cases ns[li]? with
      | none => exact Or.inl ⟨_, rfl, rfl⟩
      | some n =>
        have hd := det_budget argsort D (some ((shares.drop bi).take n))
        unfold exDet at hd
        simp only [hd]
        cases D.assignBudget argsort (some ((shares.drop bi).take n)) with
        | error e => exact Or.inl ⟨e, rfl, rfl⟩
        | ok D' =>
          simp only [Except.map]
          rcases ih (bi + n) (li + 1) with ⟨e, e1, e2⟩ | ⟨ks, ks', e1, e2, e3⟩
          · exact Or.inl ⟨e, by simp only [e1], by simp only [e2]⟩
          · exact Or.inr ⟨_, _, by simp only [e1], by simp only [e2], .cons (.detector D') e3⟩

/-- assigning the budget commutes with the exchange -/
theorem budget_sw (argsort : List ℝ → List Nat) {V W : Volume} (h : SwVolume V W) :
    (∃ e, V.assignBudget argsort = .error e ∧ W.assignBudget argsort = .error e) ∨
      ∃ V₁ W₁ : Volume, V.assignBudget argsort = .ok V₁ ∧ W.assignBudget argsort = .ok W₁ ∧ SwVolume V₁ W₁ := by
  obtain ⟨hx, hb, hw, hn⟩ := h
  cases hv : V.budget with
  | none => exact Or.inr ⟨V, W, by simp only [Volume.assignBudget, hv], by simp only [Volume.assignBudget, hb, hv], hx, hb, hw, hn⟩
  | some b =>
    have hv' : W.budget = some b := hb.trans hv
    rcases layers_budget argsort ((softmax V.weights).map (b * ·)) V.nCosts hx 0 0 with ⟨e, e1, e2⟩ | ⟨ks, ks', e1, e2, e3⟩
    · exact Or.inl ⟨e, by simp only [Volume.assignBudget, hv, e1], by simp only [Volume.assignBudget, hv', hw, hn, e2]⟩
    · exact Or.inr ⟨{ V with layers := ks }, { W with layers := ks' }, by simp only [Volume.assignBudget, hv, e1], by simp only [Volume.assignBudget, hv', hw, hn, e2], e3, hb, hw, hn⟩

theorem panel_cost (p : AnyPanel) : (exPanel p).getCost = p.getCost := by
  cases p with
  | panel p =>
    simp only [exPanel, AnyPanel.getCost, Panel.getCost, Panel.scaledSpan]
    ring
  | heatmap h =>
    simp only [exPanel, AnyPanel.getCost, Heatmap.getCost, List.map_map, List.length_map, Function.comp_def, mul_comm]

theorem det_cost (D : DetLayer) : (exDet D).getCost = D.getCost := by
  simp only [DetLayer.getCost, exDet, List.foldl_map, panel_cost]

theorem detectors_sw {ls ls' : List AnyLayer} (h : List.Forall₂ ExD ls ls') :
    (ls'.filterMap fun l => match l with | .detector D => some D | _ => none) = (ls.filterMap fun l => match l with | .detector D => some D | _ => none).map exDet := by
  induction h with
  | nil => rfl
  | cons hd _ ih =>
    cases hd with
    | passive => simpa only [List.filterMap_cons] using ih
    | detector D => simp only [List.filterMap_cons, List.map_cons, ih]; rfl

theorem costLoop_sw : ∀ (Ds : List DetLayer) (c : Option ℝ), Volume.costLoop c (Ds.map exDet) = Volume.costLoop c Ds
  | [], c => by cases c <;> rfl
  | D :: Ds, none => by simp only [List.map_cons, Volume.costLoop, det_cost, costLoop_sw Ds]
  | D :: Ds, some c => by
    simp only [List.map_cons, Volume.costLoop, det_cost]
    cases D.getCost with
    | none => rfl
    | some d => exact costLoop_sw Ds _

theorem cost_sw {V W : Volume} (h : SwVolume V W) : W.getCost = V.getCost := by
  have e : W.detectors = V.detectors.map exDet := detectors_sw h.layers
  simp only [Volume.getCost, h.budget, e, costLoop_sw]

end Exchange

end

end Tomopt
