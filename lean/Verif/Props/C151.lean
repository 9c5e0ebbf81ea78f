import Verif.Lemmas.Reopen

/- C151: opening a saved detector. Property theorems; what is restored and when volumes are alike is in Spec/Reopen.lean, the lemmas are in Lemmas/Reopen.lean. -/
namespace Tomopt

noncomputable section

namespace C151

open Reopen

variable {S : Type}

/-- **C151: strict.** A saved volume can be loaded into another exactly if that has panels of the same kinds in the same places, and as many weights; anything else is refused. -/
theorem strict (V W : Volume) : ((loadVol (stateDict V) W).1 = .ok () ↔ Alike V W) ∧ (¬ Alike V W → (loadVol (stateDict V) W).1 = .error .runtimeError) := by
  rw [← sizes_iff V W]
  simp only [loadVol]
  constructor
  · split <;> simp_all
  · intro h
    rw [if_neg h]

/-- **C151: restored.** Into such a volume everything of every panel is restored but its share of the budget and its modes, and for heat maps their width; so are the weights. The rest of the volume, such as its material and budget, is left alone. -/
theorem restored (V W : Volume) (h : Alike V W) : ∃ W', loadVol (stateDict V) W = (.ok (), W') ∧ (∀ i j p q, panelAt V i j = some p → panelAt W i j = some q → panelAt W' i j = some (reopen p q)) ∧
    (∀ i j, panelAt V i j = none → panelAt W' i j = none) ∧ (V.budget.isSome → W'.weights = V.weights) ∧ stateDict W' = stateDict V ∧
    W'.budget = W.budget ∧ W'.nCosts = W.nCosts ∧ W'.passives = W.passives ∧ W'.detectors.map (fun D => (D.pos, D.lw, D.z, D.size)) = W.detectors.map (fun D => (D.pos, D.lw, D.z, D.size)) := by
  have hs := (sizes_iff V W).mpr h
  have hp : ∀ i j p q, panelAt V i j = some p → panelAt W i j = some q → panelAt (loadVol (stateDict V) W).2 i j = some (reopen p q) := by
    intro i j p q hp hq
    rw [panelAt_load, hq, Option.map_some]
    congr 1
    refine loadDet_reopen _ p q ?_ fun f => by rw [stateDict_part, hp]; rfl
    rcases h.panels i j with ⟨h1, -⟩ | ⟨p', q', h1, h2, h3⟩
    · rw [h1] at hp; simp at hp
    · rw [h1] at hp; rw [h2] at hq
      rw [← Option.some.inj hp, ← Option.some.inj hq]
      exact h3
  have hn : ∀ i j, panelAt V i j = none → panelAt (loadVol (stateDict V) W).2 i j = none := by
    intro i j hv
    rw [panelAt_load]
    rcases h.panels i j with ⟨-, h2⟩ | ⟨p', q', h1, -, -⟩
    · rw [h2]; rfl
    · rw [h1] at hv; simp at hv
  have hw : V.budget.isSome → (loadVol (stateDict V) W).2.weights = V.weights := by
    intro hb
    have h1 := h.budget
    have h2 := h.weights hb
    simp only [loadVol, loadWeights, stateDict, hb, if_true, h2]
    rw [if_pos (by rw [← h1]; exact hb)]
  have hd : ∀ (ls : List AnyLayer) (i : Nat), (loadLayers (stateDict V) i ls).filterMap (fun l => match l with | .passive L => some L | _ => none) = ls.filterMap (fun l => match l with | .passive L => some L | _ => none) ∧
      ((loadLayers (stateDict V) i ls).filterMap (fun l => match l with | .detector D => some D | _ => none)).map (fun D => (D.pos, D.lw, D.z, D.size)) =
        (ls.filterMap (fun l => match l with | .detector D => some D | _ => none)).map (fun D => (D.pos, D.lw, D.z, D.size)) := by
    intro ls
    induction ls with
    | nil => intro i; exact ⟨rfl, rfl⟩
    | cons l ls ih =>
      intro i
      cases l with
      | passive L => simp only [loadLayers, List.filterMap_cons]; exact ⟨by rw [(ih (i + 1)).1], (ih (i + 1)).2⟩
      | detector D => simp only [loadLayers, List.filterMap_cons, List.map_cons]; exact ⟨(ih (i + 1)).1, by rw [(ih (i + 1)).2]⟩
  refine ⟨(loadVol (stateDict V) W).2, ?_, hp, hn, hw, ?_, rfl, rfl, (hd W.layers 0).1, (hd W.layers 0).2⟩
  · simp only [loadVol, hs, if_true]
  · funext k
    cases k with
    | part i j f =>
      rw [stateDict_part, stateDict_part]
      rcases h.panels i j with ⟨h1, -⟩ | ⟨p, q, h1, h2, h3⟩
      · rw [hn i j h1, h1]
      · rw [hp i j p q h1 h2, h1]
        simp only [Option.bind_some]
        cases h3 <;> rfl
    | budget =>
      have h1 := h.budget
      simp only [stateDict]
      cases hb : V.budget.isSome with
      | true =>
        rw [hw hb, if_pos rfl, if_pos]
        change W.budget.isSome = true
        rw [← h1, hb]
      | false =>
        have hb' : (loadVol (stateDict V) W).2.budget.isSome = false := by
          change W.budget.isSome = false
          rw [← h1, hb]
        rw [hb', if_neg (by simp), if_neg (by simp)]

/-- **C151: behaves.** A detector is saved and opened in a volume built alike, with the same budget and material but panels at any other places, of any sizes, resolutions, efficiencies and costs: it then does with any muons, for whatever random numbers,
exactly what the saved one did. -/
theorem behaves (V W : Volume) (h : Built V W) (argsort : List ℝ → List Nat) (ha : IsArgsort argsort) : ∃ W', loadVol (stateDict V) W = (.ok (), W') ∧
    ∀ (rng : Nat → Nat → Nat → Draw) (noise : Nat → Nat → Nat → ℝ × ℝ) (fuel : Nat) (b : Batch Row), (V.budget = none → W.weights = V.weights) → W'.forward argsort rng noise fuel b = V.forward argsort rng noise fuel b := by
  have hl : ∀ i : Nat, (V.layers[i]? = none ∧ W.layers[i]? = none) ∨ ∃ l m, V.layers[i]? = some l ∧ W.layers[i]? = some m ∧ BuiltL (V.budget = none) l m := by
    intro i
    have h0 := List.forall₂_iff_get.mp h.layers
    by_cases hi : i < V.layers.length
    · have hi' : i < W.layers.length := h0.1 ▸ hi
      exact .inr ⟨_, _, List.getElem?_eq_getElem hi, List.getElem?_eq_getElem hi', by simpa using h0.2 i hi hi'⟩
    · exact .inl ⟨List.getElem?_eq_none (not_lt.mp hi), List.getElem?_eq_none (by rw [← h0.1]; exact not_lt.mp hi)⟩
  have hal : Alike V W := by
    refine ⟨fun i j => ?_, by rw [h.budget], fun _ => h.weights.symm⟩
    simp only [panelAt]
    rcases hl i with ⟨h1, h2⟩ | ⟨l, m, h1, h2, h3⟩
    · rw [h1, h2]; exact .inl ⟨rfl, rfl⟩
    · rw [h1, h2]
      simp only [Option.bind_some]
      cases h3 with
      | passive L => exact .inl ⟨rfl, rfl⟩
      | detector D E _ _ _ _ h5 =>
        have h0 := List.forall₂_iff_get.mp h5
        simp only [dets]
        by_cases hj : j < D.panels.length
        · have hj' : j < E.panels.length := h0.1 ▸ hj
          exact .inr ⟨_, _, List.getElem?_eq_getElem hj, List.getElem?_eq_getElem hj', built_alike (by simpa using h0.2 j hj hj')⟩
        · exact .inl ⟨List.getElem?_eq_none (not_lt.mp hj), List.getElem?_eq_none (by rw [← h0.1]; exact not_lt.mp hj)⟩
  have hs := (sizes_iff V W).mpr hal
  refine ⟨(loadVol (stateDict V) W).2, by simp only [loadVol, hs, if_true], ?_⟩
  intro rng noise fuel b hw
  have hL := loadLayers_built h.layers (stateDict V) 0 fun k l hk j p hp f => by
    rw [Nat.zero_add, stateDict_part, panelAt, hk]
    simp only [Option.bind_some, hp]
  have heq : (loadVol (stateDict V) W).2.assignBudget argsort = V.assignBudget argsort := by
    cases hb : V.budget with
    | none =>
      have e1 := uptoL_eq hb hL
      have e2 : (loadVol (stateDict V) W).2 = V := by
        have hwb : W.budget = none := by rw [h.budget, hb]
        have e3 : (loadVol (stateDict V) W).2 = ⟨loadLayers (stateDict V) 0 W.layers, W.budget, W.weights, W.nCosts⟩ := by
          simp [loadVol, loadWeights, hwb]
        rw [e3, ← e1, h.budget, hw hb, h.nCosts]
      rw [e2]
    | some a =>
      have hwb : W.budget = some a := by rw [h.budget, hb]
      have e2 : (loadVol (stateDict V) W).2.weights = V.weights := by
        simp [loadVol, loadWeights, hwb, stateDict, hb, h.weights]
      have e3 := assignLayers_upto ha ((softmax V.weights).map (a * ·)) V.nCosts hL 0 0
      simp only [Volume.assignBudget, hb]
      have e4 : (loadVol (stateDict V) W).2.budget = some a := hwb
      have e5 : (loadVol (stateDict V) W).2.nCosts = V.nCosts := h.nCosts
      have e6 : (loadVol (stateDict V) W).2.layers = loadLayers (stateDict V) 0 W.layers := rfl
      rw [e4, e2, e5, e6]
      simp only
      rw [e3]
  simp only [Volume.forward, heq]

/-- **C151: optimisers.** Saved together with optimisers and opened with others for the same parameters: settings, such as learning rates, and all that was remembered about every parameter are those saved. What was set for the new ones does not matter. -/
theorem optimisers (V W : Volume) (h : Alike V W) (a b : Dict String (Opt S)) (hab : SameParams a b) (hp : ∀ x ∈ a, Proper x.2) (ho : ∀ x ∈ a, SaveLoad.isOpt x.1 = true) (hn : (a.map (·.1)).Nodup) :
    (fromSave (.ok b) W (save V a)).1 = .ok a := by
  obtain ⟨W', h1, -⟩ := restored V W h
  simp only [fromSave, save, h1]
  have := loadOpts_save a b hab hp ho [] (by simpa using hn)
  simpa using this

/-- **C151: panels.** So it is with a volume of panels, for whatever settings the optimisers are made with when it is opened: they are for the same parameters. -/
theorem panel_wrapper (V W : Volume) (h : Alike V W) (hl : V.layers.length = W.layers.length) (xy z span xy' z' span' : Dict String Optims.Hyper) (bud : Option (Dict String Optims.Hyper × Dict String Optims.Hyper)) (a₀ a : Dict String (Opt S))
    (h₀ : buildPanel V xy z span (bud.map (·.1)) = .ok a₀) (ha : SameParams a₀ a) (hp : ∀ x ∈ a, Proper x.2) :
    ∃ W', fromSave (buildPanel W xy' z' span' (bud.map (·.2))) W (save V a) = (.ok a, W') ∧ loadVol (stateDict V) W = (.ok (), W') := by
  obtain ⟨W', h1, -⟩ := restored V W h
  have hr : List.Forall₂ (fun x y : String × Dict String Optims.Hyper × Except Err (List Key) => x.1 = y.1 ∧ x.2.2 = y.2.2)
      ([("xy_pos_opt", xy, field "xy" false V), ("z_pos_opt", z, heights V), ("xy_span_opt", span, field "xy_span" false V)] ++
        match bud.map (·.1) with
        | none => []
        | some d => [("budget_opt", d, if V.budget.isSome then .ok [.budget] else .error .attributeError)])
      ([("xy_pos_opt", xy', field "xy" false W), ("z_pos_opt", z', heights W), ("xy_span_opt", span', field "xy_span" false W)] ++
        match bud.map (·.2) with
        | none => []
        | some d => [("budget_opt", d, if W.budget.isSome then .ok [.budget] else .error .attributeError)]) := by
    refine .cons ⟨rfl, field_rel V W h hl _ _⟩ (.cons ⟨rfl, heights_rel V W h hl⟩ (.cons ⟨rfl, field_rel V W h hl _ _⟩ ?_))
    cases bud with
    | none => exact .nil
    | some d => exact .cons ⟨rfl, by rw [h.budget]⟩ .nil
  obtain ⟨b, h2, h3, h4⟩ := newOpts_rel _ _ hr a₀ h₀
  have hnames := ha.names.symm.trans h4
  have hno : (∀ x ∈ a.map (·.1), SaveLoad.isOpt x = true) ∧ (a.map (·.1)).Nodup := by
    rw [hnames]
    cases bud with
    | none => simp; decide
    | some d => simp; decide
  have := optimisers V W h a b (SameParams.trans' ha h3) hp (fun x hx => hno.1 _ (List.mem_map_of_mem hx)) hno.2
  refine ⟨W', ?_, h1⟩
  have h5 : buildPanel W xy' z' span' (bud.map (·.2)) = .ok b := h2
  rw [h5]
  simp only [fromSave, save, h1] at this ⊢
  rw [this]

/-- **C151: heat maps.** The same for a volume of heat maps. -/
theorem heat_wrapper (V W : Volume) (h : Alike V W) (hl : V.layers.length = W.layers.length) (mu norm sig z mu' norm' sig' z' : Dict String Optims.Hyper) (a₀ a : Dict String (Opt S))
    (h₀ : buildHeat V mu norm sig z = .ok a₀) (ha : SameParams a₀ a) (hp : ∀ x ∈ a, Proper x.2) :
    ∃ W', fromSave (buildHeat W mu' norm' sig' z') W (save V a) = (.ok a, W') ∧ loadVol (stateDict V) W = (.ok (), W') := by
  obtain ⟨W', h1, -⟩ := restored V W h
  have hr : List.Forall₂ (fun x y : String × Dict String Optims.Hyper × Except Err (List Key) => x.1 = y.1 ∧ x.2.2 = y.2.2)
      [("mu_opt", mu, field "mu" true V), ("norm_opt", norm, field "norm" true V), ("sig_opt", sig, field "sig" true V), ("z_pos_opt", z, heights V)]
      [("mu_opt", mu', field "mu" true W), ("norm_opt", norm', field "norm" true W), ("sig_opt", sig', field "sig" true W), ("z_pos_opt", z', heights W)] :=
    .cons ⟨rfl, field_rel V W h hl _ _⟩ (.cons ⟨rfl, field_rel V W h hl _ _⟩ (.cons ⟨rfl, field_rel V W h hl _ _⟩ (.cons ⟨rfl, heights_rel V W h hl⟩ .nil)))
  obtain ⟨b, h2, h3, h4⟩ := newOpts_rel _ _ hr a₀ h₀
  have hnames := ha.names.symm.trans h4
  have hno : (∀ x ∈ a.map (·.1), SaveLoad.isOpt x = true) ∧ (a.map (·.1)).Nodup := by
    rw [hnames]
    simp
    decide
  have := optimisers V W h a b (SameParams.trans' ha h3) hp (fun x hx => hno.1 _ (List.mem_map_of_mem hx)) hno.2
  refine ⟨W', ?_, h1⟩
  have h5 : buildHeat W mu' norm' sig' z' = .ok b := h2
  rw [h5]
  simp only [fromSave, save, h1] at this ⊢
  rw [this]

/-- **C151 is refuted by the code: failures.** If a file is refused, the volume it was to be loaded into has been changed all the same: every panel with its like in the file is overwritten. -/
theorem refused_violated (V W : Volume) (h : ¬ Alike V W) (i j : Nat) (p q : AnyPanel) (hp : panelAt V i j = some p) (hq : panelAt W i j = some q) (hpq : AlikeP p q) (b a : Dict String (Opt S)) :
    ∃ W', fromSave (.ok b) W (save V a) = (.error .runtimeError, W') ∧ panelAt W' i j = some (reopen p q) := by
  have h1 := (strict V W).2 h
  refine ⟨(loadVol (stateDict V) W).2, ?_, ?_⟩
  · simp only [fromSave, save]
    have : loadVol (stateDict V) W = (.error .runtimeError, (loadVol (stateDict V) W).2) := Prod.ext h1 rfl
    rw [this]
  · rw [panelAt_load, hq, Option.map_some]
    congr 1
    exact loadDet_reopen _ p q hpq fun f => by rw [stateDict_part, hp]; rfl

/-- **C151 is refuted by the code: optimisers.** So it is if the file has an optimiser that was not given, as when the budget was learnt: an exception is raised, after the whole volume has been overwritten. -/
theorem optimiser_violated (V W : Volume) (h : Alike V W) (a b : Dict String (Opt S)) (k : String) (hk : SaveLoad.isOpt k = true) (hka : k ∈ a.map (·.1)) (hkb : b.get? k = none) :
    ∃ e W', fromSave (.ok b) W (save V a) = (.error e, W') ∧ stateDict W' = stateDict V := by
  obtain ⟨W', h1, -, -, -, h2, -⟩ := restored V W h
  obtain ⟨e, he⟩ := loadOpts_missing k hk (a.mapVals saveOpt) b (by simpa [Dict.mapVals, Function.comp_def] using hka) hkb
  exact ⟨e, W', by simp only [fromSave, save, h1, he], h2⟩

/-- **C151 is refuted by the code: heat maps.** The width of a heat map is not saved. Opened in one of smaller width, in realistic evaluation, there are muons that the saved one sees with its efficiency and this one not at all. -/
theorem width_violated (h g : Heatmap) (hr : g.realistic = true) (ht : g.training = false) (hr' : h.realistic = true) (ht' : h.training = false) (h0 : 0 < g.deltaXy) (hlt : g.deltaXy < h.deltaXy) (noise : Nat → ℝ × ℝ) :
    ∃ (g' : Heatmap) (m : Muon), reopen (.heatmap h) (.heatmap g) = .heatmap g' ∧ (∀ b : Batch Row, b.muons = [m] → Dict.get? (h.getHits noise b) "eff" = some [[.num h.eff]] ∧ Dict.get? (g'.getHits noise b) "eff" = some [[.num 0]]) := by
  refine ⟨_, ⟨0, h.xyFix.1 + rangeMult * g.deltaXy, h.xyFix.2, 0, 1, 0, 0⟩, rfl, ?_⟩
  intro b hb
  have hr1 : (0 : ℝ) < rangeMult := by norm_num [rangeMult]
  have h1 : 0 < rangeMult * g.deltaXy := by positivity
  have h2 : rangeMult * g.deltaXy < rangeMult * h.deltaXy := mul_lt_mul_of_pos_left hlt hr1
  have e1 : Batch.inWindow (some (h.xyFix.1 - rangeMult * h.deltaXy, h.xyFix.2 - rangeMult * h.deltaXy)) (some (h.xyFix.1 + rangeMult * h.deltaXy, h.xyFix.2 + rangeMult * h.deltaXy))
      (⟨0, h.xyFix.1 + rangeMult * g.deltaXy, h.xyFix.2, 0, 1, 0, 0⟩ : Muon) = true := by
    simp only [Batch.inWindow, Bool.and_eq_true, decide_eq_true_eq]
    refine ⟨⟨⟨?_, ?_⟩, ?_⟩, ?_⟩ <;> linarith
  have e2 : Batch.inWindow (some (h.xyFix.1 - rangeMult * g.deltaXy, h.xyFix.2 - rangeMult * g.deltaXy)) (some (h.xyFix.1 + rangeMult * g.deltaXy, h.xyFix.2 + rangeMult * g.deltaXy))
      (⟨0, h.xyFix.1 + rangeMult * g.deltaXy, h.xyFix.2, 0, 1, 0, 0⟩ : Muon) = false := by
    simp [Batch.inWindow]
  constructor
  · simp [Heatmap.getHits, Dict.get?, hb, Heatmap.effAt, Heatmap.continuous, hr', ht', e1]
  · simp [Heatmap.getHits, Dict.get?, hb, Heatmap.effAt, Heatmap.continuous, hr, ht, e2]

/-- **C151: counts.** The number of parameters is that of all that can be learnt: five of each panel, four for each Gaussian of a heat map and two more, and the weights of the budget. -/
theorem count (V : Volume) (grad : Key → Bool) (trainable : Bool) (h : trainable = false ∨ ∀ k, grad k = true) :
    paramCount V grad trainable = (if V.budget.isSome then V.weights.length else 0) + ((V.layers.flatMap dets).map learnable).sum := by
  have hf : ((parameters V).filter fun k => grad k || !trainable) = parameters V := by
    rw [List.filter_eq_self]
    intro k _
    rcases h with h | h <;> simp [h]
  have hpl : (places V).map (·.2.2) = V.layers.flatMap dets := by
    have : ∀ (ls : List AnyLayer) (n : Nat), ((ls.zipIdx n).flatMap fun l => (dets l.1).zipIdx.map fun p => (l.2, p.2, p.1)).map (·.2.2) = ls.flatMap dets := by
      intro ls
      induction ls with
      | nil => intro n; rfl
      | cons l ls ih =>
        intro n
        have hz : ((dets l).zipIdx.map fun p => (n, p.2, p.1)).map (·.2.2) = dets l := by
          rw [List.map_map]
          exact List.zipIdx_map_fst 0 (dets l)
        simp only [List.zipIdx_cons, List.flatMap_cons, List.map_append, ih, hz]
    exact this V.layers 0
  have hsum : ∀ l : List (Nat × Nat × AnyPanel), (∀ x ∈ l, panelAt V x.1 x.2.1 = some x.2.2) →
      ((l.flatMap fun x => (paramNames x.2.2).map fun f => Key.part x.1 x.2.1 f).map fun k => ((stateDict V k).getD []).length).sum = ((l.map (·.2.2)).map learnable).sum := by
    intro l
    induction l with
    | nil => intro _; rfl
    | cons x l ih =>
      intro hx
      have h1 := hx x (by simp)
      rw [List.flatMap_cons, List.map_append, List.sum_append, ih fun y hy => hx y (List.mem_cons_of_mem _ hy), List.map_cons, List.map_cons, List.sum_cons]
      congr 1
      obtain ⟨i, j, p⟩ := x
      simp only at h1
      cases p with
      | panel p => simp [paramNames, stateDict_part, h1, fields, panelFields, learnable]
      | heatmap g =>
        simp [paramNames, stateDict_part, h1, fields, heatFields, learnable, flat_length]
        omega
  rw [paramCount, hf, parameters, List.map_append, List.sum_append, hsum _ fun x hx => place_at V x hx, hpl]
  congr 1
  split
  · rename_i hb
    simp [stateDict, hb]
  · simp

/-! ### The hypotheses can be met -/

def near : Panel := ⟨.gauss, 1, 1, 1, (0, 0), 1, (1, 1), 1, true, false⟩
def far : Panel := ⟨.gauss, 2, 0.5, 3, (5, 5), 2, (4, 2), 1, true, false⟩
def vol (p : Panel) : Volume := ⟨[.detector ⟨"above", (1, 1), 3, 3, [.panel p]⟩], none, [], []⟩

/-- the same volume with its panel somewhere else and worse -/
example : Built (vol near) (vol far) :=
  ⟨.cons (.detector _ _ rfl rfl rfl rfl (.cons (.panel _ _ (.gauss _ _ rfl rfl) rfl rfl fun _ => rfl) .nil)) .nil, rfl, rfl, rfl⟩

/-- another with two panels: not alike, but the first panels are -/
example : ¬ Alike (vol near) ⟨[.detector ⟨"above", (1, 1), 3, 3, [.panel far, .panel near]⟩], none, [], []⟩ := by
  intro h
  rcases h.panels 0 1 with ⟨-, h2⟩ | ⟨p, q, h1, -, -⟩
  · simp [panelAt, dets] at h2
  · simp [panelAt, dets, vol] at h1

/-- its optimisers -/
example : ∃ a : Dict String (Opt Nat), buildPanel (vol near) [] [] [] none = .ok a ∧ SameParams a a ∧ ∀ x ∈ a, Proper x.2 := by
  refine ⟨_, rfl, ?_, ?_⟩
  · refine .cons ⟨rfl, rfl⟩ (.cons ⟨rfl, rfl⟩ (.cons ⟨rfl, rfl⟩ .nil))
  · intro x hx
    simp only [List.mem_cons, List.not_mem_nil, or_false] at hx
    rcases hx with rfl | rfl | rfl <;> exact ⟨by simp [Opt.params, places, vol, dets], fun _ _ => rfl⟩

example : SaveLoad.isOpt "budget_opt" = true := by decide

/-- heat maps of different widths -/
example : ∃ h g : Heatmap, g.realistic = true ∧ g.training = false ∧ h.realistic = true ∧ h.training = false ∧ 0 < g.deltaXy ∧ g.deltaXy < h.deltaXy :=
  ⟨⟨1, 1, 1, (0, 0), (1, 1), 2, [], [], 1, 1, true, false⟩, ⟨1, 1, 1, (0, 0), (1, 1), 1, [], [], 1, 1, true, false⟩, rfl, rfl, rfl, rfl, by norm_num, by norm_num⟩

example : paramCount (vol near) (fun _ => true) true = 5 := by
  rw [count _ _ _ (.inr fun _ => rfl)]
  simp [vol, dets, learnable]

end C151

end

end Tomopt
