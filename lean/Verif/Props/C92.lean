import Verif.Model.Optims
import Verif.Lemmas.SaveLoad
import Mathlib.Data.List.Nodup
import Mathlib.Data.List.Count

/- C92: which optimiser drives which parameter. -/
namespace Tomopt

noncomputable section

open Optims

namespace C92

/-- the parameters an optimiser drives -/
def driven (o : Opts) (k : String) : List Nat := ((o.get? k).getD []).flatMap (·.params)

/-- all parameters that are driven, each as often as it is -/
def all (o : Opts) : List Nat := o.flatMap fun kv => kv.2.flatMap (·.params)

/-- a detector with panels only -/
structure PanelIds where
  xy : Nat
  z : Nat
  span : Nat

def PanelIds.det (p : PanelIds) : Det := .panel p.xy p.z p.span

/-- a detector with heat maps only -/
structure HeatIds where
  mu : Nat
  norm : Nat
  sig : Nat
  z : Nat

def HeatIds.det (p : HeatIds) : Det := .heat p.mu p.norm p.sig p.z

theorem mapE_map {α β γ : Type} (g : β → Except Err γ) (f : α → β) (h : α → γ) (hg : ∀ a, g (f a) = .ok (h a)) (l : List α) : mapE g (l.map f) = .ok (l.map h) := by
  induction l with
  | nil => rfl
  | cons a l ih => simp [mapE, hg, ih]

theorem mapE_error {α γ : Type} (g : α → Except Err γ) (e : Err) (hg : ∀ a x, g a = .error x → x = e) (l : List α) (h : ∃ a ∈ l, ∀ y, g a ≠ .ok y) : mapE g l = .error e := by
  induction l with
  | nil => simp at h
  | cons a l ih =>
    cases hv : g a with
    | error x => simp [mapE, hv, hg a x hv]
    | ok y =>
      have : ∃ a ∈ l, ∀ y, g a ≠ .ok y := by
        obtain ⟨b, hb, h⟩ := h
        rcases List.mem_cons.mp hb with rfl | hb
        · exact absurd hv (h y)
        · exact ⟨b, hb, h⟩
      simp [mapE, hv, ih this]

theorem mkOpt_ok (d : Dict String Hyper) (l : List Nat) (h : l ≠ []) : mkOpt d (.ok l) = .ok [⟨l, d⟩] := by
  cases l with
  | nil => exact absurd rfl h
  | cons a l => rfl

theorem panel_opts_dets (v : Vol) (ps : List PanelIds) (hv : v.dets = ps.map PanelIds.det) (hne : ps ≠ []) (xy z span : Dict String Hyper) (budget : Option (Dict String Hyper))
    (hb : budget ≠ none → v.budget ≠ none) :
    ∃ o, buildPanel v xy z span budget = .ok o ∧ o.get? "xy_pos_opt" = some [⟨ps.map (·.xy), xy⟩] ∧ o.get? "z_pos_opt" = some [⟨ps.map (·.z), z⟩] ∧
      o.get? "xy_span_opt" = some [⟨ps.map (·.span), span⟩] ∧ (∀ d w, budget = some d → v.budget = some w → o.get? "budget_opt" = some [⟨[w], d⟩]) ∧
      (all o).Perm (ps.flatMap (fun p => [p.xy, p.z, p.span]) ++ if budget.isSome then v.budget.toList else []) := by
  have h1 := mapE_map Det.xy PanelIds.det (·.xy) (fun _ => rfl) ps
  have h2 := mapE_map Det.z PanelIds.det (·.z) (fun _ => rfl) ps
  have h3 := mapE_map Det.span PanelIds.det (·.span) (fun _ => rfl) ps
  have n1 : ps.map (·.xy) ≠ [] := by simp [hne]
  have n2 : ps.map (·.z) ≠ [] := by simp [hne]
  have n3 : ps.map (·.span) ≠ [] := by simp [hne]
  have hperm : (ps.map (·.xy) ++ (ps.map (·.z) ++ ps.map (·.span))).Perm (ps.flatMap (fun p => [p.xy, p.z, p.span])) := by
    clear hv hne h1 h2 h3 n1 n2 n3
    induction ps with
    | nil => exact .nil
    | cons p ps ih =>
      simp only [List.map_cons, List.flatMap_cons, List.cons_append, List.nil_append]
      refine .cons _ ?_
      refine (List.perm_middle).trans (.cons _ ?_)
      rw [← List.append_assoc]
      refine (List.perm_middle).trans (.cons _ ?_)
      rw [List.append_assoc]
      exact ih
  unfold buildPanel
  rw [hv, h1, h2, h3, mkOpt_ok _ _ n1, mkOpt_ok _ _ n2, mkOpt_ok _ _ n3]
  simp only
  cases budget with
  | none =>
    refine ⟨_, rfl, rfl, rfl, rfl, by simp, ?_⟩
    simpa [all] using hperm
  | some d =>
    cases hw : v.budget with
    | none => exact absurd hw (hb (by simp))
    | some w =>
      refine ⟨_, rfl, rfl, rfl, rfl, ?_, ?_⟩
      · intro d' w' h4 h5
        obtain rfl := Option.some.inj h4
        obtain rfl := Option.some.inj h5
        rfl
      · simp only [Dict.set, Dict.modify, all, Option.isSome_some, if_true, Option.toList_some]
        rw [if_neg (by decide), if_neg (by decide), if_neg (by decide)]
        simp only [List.flatMap_cons, List.flatMap_nil, List.append_nil]
        rw [← List.append_assoc, ← List.append_assoc, List.append_assoc (ps.map (·.xy))]
        exact hperm.append_right _

theorem panel_once_dets (v : Vol) (ps : List PanelIds) (hv : v.dets = ps.map PanelIds.det) (hne : ps ≠ []) (xy z span : Dict String Hyper) (budget : Option (Dict String Hyper))
    (hb : budget ≠ none → v.budget ≠ none) (hnd : (ps.flatMap (fun p => [p.xy, p.z, p.span]) ++ v.budget.toList).Nodup) :
    ∃ o, buildPanel v xy z span budget = .ok o ∧ (∀ p ∈ ps, (all o).count p.xy = 1 ∧ (all o).count p.z = 1 ∧ (all o).count p.span = 1) ∧
      ∀ w, v.budget = some w → (all o).count w = if budget.isSome then 1 else 0 := by
  obtain ⟨o, h1, -, -, -, -, h2⟩ := panel_opts_dets v ps hv hne xy z span budget hb
  refine ⟨o, h1, ?_, ?_⟩
  · have hd : (ps.flatMap (fun p => [p.xy, p.z, p.span]) ++ if budget.isSome then v.budget.toList else []).Nodup := by
      cases budget with
      | none => simpa using (List.nodup_append.mp hnd).1
      | some d => simpa using hnd
    intro p hp
    have hc : ∀ i, i ∈ [p.xy, p.z, p.span] → (all o).count i = 1 := by
      intro i hi
      rw [h2.count_eq]
      exact List.count_eq_one_of_mem hd (List.mem_append_left _ (List.mem_flatMap.mpr ⟨p, hp, hi⟩))
    exact ⟨hc _ (by simp), hc _ (by simp), hc _ (by simp)⟩
  · intro w hw
    rw [h2.count_eq, List.count_append]
    have h0 : (ps.flatMap (fun p => [p.xy, p.z, p.span])).count w = 0 := by
      rw [List.count_eq_zero]
      intro hm
      rw [hw] at hnd
      exact (List.disjoint_of_nodup_append hnd) hm (by simp)
    rw [h0, hw]
    cases budget <;> simp

theorem heat_opts_dets (v : Vol) (ps : List HeatIds) (hv : v.dets = ps.map HeatIds.det) (hne : ps ≠ []) (mu norm sig z : Dict String Hyper) :
    buildHeat v mu norm sig z = .ok [("mu_opt", [⟨ps.map (·.mu), mu⟩]), ("norm_opt", [⟨ps.map (·.norm), norm⟩]), ("sig_opt", [⟨ps.map (·.sig), sig⟩]),
      ("z_pos_opt", [⟨ps.map (·.z), z⟩])] := by
  have h1 := mapE_map Det.mu HeatIds.det (·.mu) (fun _ => rfl) ps
  have h2 := mapE_map Det.norm HeatIds.det (·.norm) (fun _ => rfl) ps
  have h3 := mapE_map Det.sig HeatIds.det (·.sig) (fun _ => rfl) ps
  have h4 := mapE_map Det.z HeatIds.det (·.z) (fun _ => rfl) ps
  unfold buildHeat
  rw [hv, h1, h2, h3, h4, mkOpt_ok _ _ (by simp [hne]), mkOpt_ok _ _ (by simp [hne]), mkOpt_ok _ _ (by simp [hne]), mkOpt_ok _ _ (by simp [hne])]

theorem unsuitable_dets (v : Vol) (xy z span mu norm sig zz : Dict String Hyper) (budget : Option (Dict String Hyper)) :
    (v.dets = [] → buildPanel v xy z span budget = .error .valueError ∧ buildHeat v mu norm sig zz = .error .valueError) ∧
    ((∃ p : HeatIds, p.det ∈ v.dets) → buildPanel v xy z span budget = .error .attributeError) ∧
    ((∃ p : PanelIds, p.det ∈ v.dets) → buildHeat v mu norm sig zz = .error .attributeError) ∧
    (∀ ps : List PanelIds, v.dets = ps.map PanelIds.det → ps ≠ [] → v.budget = none → budget ≠ none → buildPanel v xy z span budget = .error .attributeError) := by
  refine ⟨?_, ?_, ?_, ?_⟩
  · intro h
    simp [buildPanel, buildHeat, h, mapE, mkOpt]
  · rintro ⟨p, hp⟩
    have : mapE Det.xy v.dets = .error .attributeError := by
      refine mapE_error _ _ ?_ _ ⟨_, hp, by intro y; simp [HeatIds.det, Det.xy]⟩
      intro a x hx
      cases a <;> simp [Det.xy] at hx
      exact hx.symm
    simp [buildPanel, this, mkOpt]
  · rintro ⟨p, hp⟩
    have : mapE Det.mu v.dets = .error .attributeError := by
      refine mapE_error _ _ ?_ _ ⟨_, hp, by intro y; simp [PanelIds.det, Det.mu]⟩
      intro a x hx
      cases a <;> simp [Det.mu] at hx
      exact hx.symm
    simp [buildHeat, this, mkOpt]
  · intro ps hv hne hb hbud
    have h1 := mapE_map Det.xy PanelIds.det (·.xy) (fun _ => rfl) ps
    have h2 := mapE_map Det.z PanelIds.det (·.z) (fun _ => rfl) ps
    have h3 := mapE_map Det.span PanelIds.det (·.span) (fun _ => rfl) ps
    cases budget with
    | none => exact absurd rfl hbud
    | some d =>
      unfold buildPanel
      rw [hv, h1, h2, h3, mkOpt_ok _ _ (by simp [hne]), mkOpt_ok _ _ (by simp [hne]), mkOpt_ok _ _ (by simp [hne]), hb]

theorem dets_map {α : Type} (det : α → Det) (v : Vol) (ls : List (Option (List α))) (hv : v.layers = ls.map (Option.map (List.map det))) :
    v.dets = (ls.filterMap id).flatten.map det := by
  unfold Vol.dets
  rw [hv]
  clear hv
  induction ls with
  | nil => rfl
  | cons l ls ih => cases l <;> simp [ih]

theorem mem_dets {v : Vol} {d : Det} {l : List Det} (hl : some l ∈ v.layers) (hd : d ∈ l) : d ∈ v.dets := List.mem_flatMap.mpr ⟨_, hl, hd⟩

/-- **C92, panels.** For every volume with at least one panel and with panels only in its panel layers (`ls`; `none`: another detector layer): each optimiser drives exactly the
parameter of its name, of all panels from the top to the bottom (other detector layers are ignored), with the settings it was given; the budget weights are driven iff an optimiser for
them is given. -/
theorem panel_opts (v : Vol) (ls : List (Option (List PanelIds))) (hv : v.layers = ls.map (Option.map (List.map PanelIds.det))) (ps : List PanelIds)
    (hps : ps = (ls.filterMap id).flatten) (hne : ps ≠ []) (xy z span : Dict String Hyper) (budget : Option (Dict String Hyper)) (hb : budget ≠ none → v.budget ≠ none) :
    ∃ o, buildPanel v xy z span budget = .ok o ∧ o.get? "xy_pos_opt" = some [⟨ps.map (·.xy), xy⟩] ∧ o.get? "z_pos_opt" = some [⟨ps.map (·.z), z⟩] ∧
      o.get? "xy_span_opt" = some [⟨ps.map (·.span), span⟩] ∧ (∀ d w, budget = some d → v.budget = some w → o.get? "budget_opt" = some [⟨[w], d⟩]) ∧
      (all o).Perm (ps.flatMap (fun p => [p.xy, p.z, p.span]) ++ if budget.isSome then v.budget.toList else []) :=
  panel_opts_dets v ps (hps ▸ dets_map _ v ls hv) hne xy z span budget hb

/-- **C92: exactly one optimiser per parameter.** If the tensors are different from each other, each position, height and size of every panel (and the budget weights) is
driven exactly once. -/
theorem panel_once (v : Vol) (ls : List (Option (List PanelIds))) (hv : v.layers = ls.map (Option.map (List.map PanelIds.det))) (ps : List PanelIds)
    (hps : ps = (ls.filterMap id).flatten) (hne : ps ≠ []) (xy z span : Dict String Hyper) (budget : Option (Dict String Hyper))
    (hb : budget ≠ none → v.budget ≠ none) (hnd : (ps.flatMap (fun p => [p.xy, p.z, p.span]) ++ v.budget.toList).Nodup) :
    ∃ o, buildPanel v xy z span budget = .ok o ∧
      (∀ l ∈ ls, ∀ qs, l = some qs → ∀ p ∈ qs, (all o).count p.xy = 1 ∧ (all o).count p.z = 1 ∧ (all o).count p.span = 1) ∧
      ∀ w, v.budget = some w → (all o).count w = if budget.isSome then 1 else 0 := by
  obtain ⟨o, h1, h2, h3⟩ := panel_once_dets v ps (hps ▸ dets_map _ v ls hv) hne xy z span budget hb hnd
  refine ⟨o, h1, ?_, h3⟩
  rintro l hl qs rfl p hp
  refine h2 p ?_
  rw [hps]
  exact List.mem_flatten.mpr ⟨qs, List.mem_filterMap.mpr ⟨_, hl, rfl⟩, hp⟩

/-- **C92, heat maps.** The same for heat-map detectors; the budget weights are never driven by this wrapper. -/
theorem heat_opts (v : Vol) (ls : List (Option (List HeatIds))) (hv : v.layers = ls.map (Option.map (List.map HeatIds.det))) (ps : List HeatIds)
    (hps : ps = (ls.filterMap id).flatten) (hne : ps ≠ []) (mu norm sig z : Dict String Hyper) :
    buildHeat v mu norm sig z = .ok [("mu_opt", [⟨ps.map (·.mu), mu⟩]), ("norm_opt", [⟨ps.map (·.norm), norm⟩]), ("sig_opt", [⟨ps.map (·.sig), sig⟩]),
      ("z_pos_opt", [⟨ps.map (·.z), z⟩])] :=
  heat_opts_dets v ps (hps ▸ dets_map _ v ls hv) hne mu norm sig z

/-- **C92: unsuitable volumes fail when the wrapper is built**: without panels, with heat maps among the panels of a panel wrapper or panels in a heat-map wrapper, and with an
optimiser for budget weights of a volume without a budget. -/
theorem unsuitable (v : Vol) (xy z span mu norm sig zz : Dict String Hyper) (budget : Option (Dict String Hyper)) :
    ((∀ l, some l ∈ v.layers → l = []) → buildPanel v xy z span budget = .error .valueError ∧ buildHeat v mu norm sig zz = .error .valueError) ∧
    ((∃ (p : HeatIds) (l : List Det), some l ∈ v.layers ∧ p.det ∈ l) → buildPanel v xy z span budget = .error .attributeError) ∧
    ((∃ (p : PanelIds) (l : List Det), some l ∈ v.layers ∧ p.det ∈ l) → buildHeat v mu norm sig zz = .error .attributeError) ∧
    (∀ (ls : List (Option (List PanelIds))), v.layers = ls.map (Option.map (List.map PanelIds.det)) → (ls.filterMap id).flatten ≠ [] → v.budget = none → budget ≠ none →
      buildPanel v xy z span budget = .error .attributeError) := by
  obtain ⟨h1, h2, h3, h4⟩ := unsuitable_dets v xy z span mu norm sig zz budget
  refine ⟨?_, ?_, ?_, ?_⟩
  · intro h
    apply h1
    unfold Vol.dets
    rw [List.flatMap_eq_nil_iff]
    intro l hl
    cases l with
    | none => rfl
    | some l => exact h l hl
  · rintro ⟨p, l, hl, hp⟩
    exact h2 ⟨p, mem_dets hl hp⟩
  · rintro ⟨p, l, hl, hp⟩
    exact h3 ⟨p, mem_dets hl hp⟩
  · intro ls hv hne hb hbud
    exact h4 _ (dets_map _ v ls hv) hne hb hbud

/-- two layers of panels with another detector between them -/
example : (⟨[some [.panel 0 1 2, .panel 3 4 5], none, some [.panel 6 7 8]], some 9⟩ : Vol).layers =
    ([some [⟨0, 1, 2⟩, ⟨3, 4, 5⟩], none, some [⟨6, 7, 8⟩]] : List (Option (List PanelIds))).map (Option.map (List.map PanelIds.det)) := rfl
example : (([⟨0, 1, 2⟩, ⟨3, 4, 5⟩, ⟨6, 7, 8⟩] : List PanelIds).flatMap (fun p => [p.xy, p.z, p.span]) ++ (some 9 : Option Nat).toList).Nodup := by decide

end C92

end

end Tomopt
