import Verif.Lemmas.Budget
import Verif.Lemmas.Layer
import Verif.Model.Loss

/- C61: unsupported settings raise. -/
namespace Tomopt

noncomputable section
open Real

namespace C61

theorem pass_error {α : Type} (L : PassiveLayer) (cube : List (List ℝ)) (hc : L.radLength = some cube) (hm : L.scatterModel ≠ "pdg") (draw : Nat → Draw)
    (b : Batch α) (mask : List Bool) : ∃ e, L.pass draw b mask = .error e ∧ (e = .notImplemented ↔ L.scatterModel = "pgeant") := by
  unfold PassiveLayer.pass
  rw [hc]
  by_cases hp : L.scatterModel = "pgeant"
  · exact ⟨.notImplemented, by simp only [PassiveLayer.checkModel, if_neg hm, if_pos hp]; rfl, by simp [hp]⟩
  · exact ⟨.valueError, by simp only [PassiveLayer.checkModel, if_neg hm, if_neg hp]; rfl, by simp [hp]⟩

/-- A passive layer that is loaded with material and does not use the PDG model raises for every batch that still has muons, whatever the muons are. -/
theorem model_rejected {α : Type} (L : PassiveLayer) (cube : List (List ℝ)) (hc : L.radLength = some cube) (hm : L.scatterModel ≠ "pdg")
    (rng : Nat → Nat → Draw) (fuel : Nat) (b : Batch α) (hb : b.muons ≠ []) :
    ∃ e, L.forward rng (fuel + 1) b = .error e ∧ (e = .notImplemented ↔ L.scatterModel = "pgeant") := by
  have h1 : b.propagateDz (.vec (b.muons.map fun m => m.z - L.z)) none =
      .ok { b with muons := maskedUpd (List.replicate b.muons.length true) b.muons (b.muons.map fun m => m.z - L.z) Batch.propDzRow } := by
    have : (b.muons.map fun m => m.z - L.z).length = countTrue (List.replicate b.muons.length true) := by
      rw [List.length_map, countTrue_replicate]
    simp only [Batch.propagateDz, resolveMask, Arg.expand, bind, Except.bind, this, if_true]
  generalize hb1 : ({ b with muons := maskedUpd (List.replicate b.muons.length true) b.muons (b.muons.map fun m => m.z - L.z) Batch.propDzRow } : Batch α) = b1 at h1
  have hlen : b1.muons.length ≠ 0 := by
    rw [← hb1]
    simp only [maskedUpd, put_length]
    exact fun h => hb (List.eq_nil_of_length_eq_zero h)
  obtain ⟨e, he, hiff⟩ := pass_error L cube hc hm (rng 0) b1 (List.replicate b1.muons.length true)
  refine ⟨e, ?_, hiff⟩
  have hany : (List.replicate b1.muons.length true).any id = true := by
    cases hn : b1.muons.length with
    | zero => exact absurd hn hlen
    | succ n => simp [List.replicate_succ]
  simp only [PassiveLayer.forward, h1, bind, Except.bind]
  rw [PassiveLayer.loop, if_pos hany]
  simp only [he, bind, Except.bind]

example : ∃ e, (⟨(1, 1), 1, 1, 1, "pgeant", some [[1]]⟩ : PassiveLayer).forward (fun _ _ => ⟨0, 0, 0, 0⟩) 1
    (⟨[⟨0, 0, 0, 1, 1, 0, 0⟩], [], [], []⟩ : Batch Unit) = .error e ∧ e = .notImplemented := by
  obtain ⟨e, h1, h2⟩ := model_rejected (⟨(1, 1), 1, 1, 1, "pgeant", some [[1]]⟩ : PassiveLayer) [[1]] rfl (by decide) (fun _ _ => ⟨0, 0, 0, 0⟩) 0
    (⟨[⟨0, 0, 0, 1, 1, 0, 0⟩], [], [], []⟩ : Batch Unit) (by simp)
  exact ⟨e, h1, h2.2 rfl⟩

/-- A panel is built exactly if resolution and efficiency are positive, and for the sigmoid panel also the smoothness; otherwise ValueError. -/
theorem panel_built_iff (kind : PanelKind) (res eff : ℝ) (xyz : ℝ × ℝ × ℝ) (span : ℝ × ℝ) (m2cost : ℝ) (budget : Option ℝ) (realistic : Bool) :
    ((∃ p, Panel.make kind res eff xyz span m2cost budget realistic = .ok p) ↔ 0 < res ∧ 0 < eff ∧ ∀ s, kind = .sigmoid s → 0 < s) ∧
    (∀ e, Panel.make kind res eff xyz span m2cost budget realistic = .error e → e = .valueError) := by
  by_cases h1 : res ≤ 0
  · simp [Panel.make, h1, not_lt.2 h1]
  by_cases h2 : eff ≤ 0
  · simp [Panel.make, h1, h2, not_lt.2 h2]
  cases kind with
  | gauss => simp [Panel.make, h1, h2, Panel.checkSmooth, not_le.1 h1, not_le.1 h2]
  | sigmoid s =>
    by_cases h3 : s > 0
    · simp [Panel.make, h1, h2, Panel.checkSmooth, h3, not_le.1 h1, not_le.1 h2]
    · simp [Panel.make, h1, h2, Panel.checkSmooth, h3, not_le.1 h1, not_le.1 h2]

/-- A heat map is built only with positive resolution and efficiency and without a budget. -/
theorem heatmap_rejected (res eff : ℝ) (xyz : ℝ × ℝ × ℝ) (span : ℝ × ℝ) (m2cost : ℝ) (budget : Option ℝ) (realistic : Bool) (um us : List (ℝ × ℝ))
    (h : res ≤ 0 ∨ eff ≤ 0 ∨ budget ≠ none) : ∃ e, Heatmap.make res eff xyz span m2cost budget realistic um us = .error e := by
  unfold Heatmap.make
  by_cases h1 : res ≤ 0
  · exact ⟨.valueError, by rw [if_pos h1]⟩
  by_cases h2 : eff ≤ 0
  · exact ⟨.valueError, by rw [if_neg h1, if_pos h2]⟩
  rw [if_neg h1, if_neg h2]
  cases budget with
  | none => simp [h1, h2] at h
  | some b =>
    generalize (if span.2 < span.1 then (span.2, span.1) else span) = sp
    dsimp only
    split <;> exact ⟨_, rfl⟩

theorem assignLoop_heatmap (budget : List ℝ) : ∀ (js : List Nat) (i : Nat) (ps : List AnyPanel) (j : Nat) (h : Heatmap), j ∈ js → ps[j]? = some (.heatmap h) →
    ∃ e, DetLayer.assignLoop budget js i ps = .error e
  | [], _, _, _, _, hj, _ => by simp at hj
  | k :: js, i, ps, j, h, hj, hp => by
    unfold DetLayer.assignLoop
    cases hk : ps[k]? with
    | none => exact ⟨_, rfl⟩
    | some p =>
      cases hb : budget[i]? with
      | none => exact ⟨_, rfl⟩
      | some v =>
        by_cases hjk : k = j
        · subst hjk
          rw [hk] at hp
          obtain rfl := Option.some.inj hp
          exact ⟨.notImplemented, rfl⟩
        · have hj' : j ∈ js := by simpa [Ne.symm hjk] using hj
          cases p with
          | heatmap h' => exact ⟨.notImplemented, rfl⟩
          | panel p =>
            simp only [AnyPanel.assignBudget]
            exact assignLoop_heatmap budget js (i + 1) _ j h hj' (by rw [List.getElem?_set_ne hjk]; exact hp)

theorem layer_heatmap {argsort : List ℝ → List Nat} (ha : IsArgsort argsort) (D : DetLayer) (shares : List ℝ) (h : Heatmap) (hm : AnyPanel.heatmap h ∈ D.panels) :
    ∃ e, D.assignBudget argsort (some shares) = .error e := by
  obtain ⟨j, hj, he⟩ := List.mem_iff_getElem.1 hm
  have hmem : j ∈ D.zorder argsort := by
    rw [DetLayer.zorder, List.mem_reverse, (ha _).1.mem_iff, List.mem_range, List.length_map]; exact hj
  obtain ⟨e, h1⟩ := assignLoop_heatmap shares (D.zorder argsort) 0 D.panels j h hmem (by rw [List.getElem?_eq_getElem hj, he])
  exact ⟨e, by simp only [DetLayer.assignBudget, h1]⟩

theorem loop_heatmap {argsort : List ℝ → List Nat} (ha : IsArgsort argsort) (shares : List ℝ) (nCosts : List Nat) (D : DetLayer) (h : Heatmap)
    (hm : AnyPanel.heatmap h ∈ D.panels) : ∀ (ls : List AnyLayer) (bi li : Nat), .detector D ∈ ls → ∃ e, Volume.assignLoop argsort shares nCosts bi li ls = .error e
  | [], _, _, hl => by simp at hl
  | .passive L :: ls, bi, li, hl => by
    obtain ⟨e, he⟩ := loop_heatmap ha shares nCosts D h hm ls bi li (by simpa using hl)
    exact ⟨e, by simp only [Volume.assignLoop, he]⟩
  | .detector D' :: ls, bi, li, hl => by
    unfold Volume.assignLoop
    cases nCosts[li]? with
    | none => exact ⟨_, rfl⟩
    | some n =>
      dsimp only
      by_cases hD : D' = D
      · subst hD
        obtain ⟨e, he⟩ := layer_heatmap ha D' ((shares.drop bi).take n) h hm
        exact ⟨e, by rw [he]⟩
      · cases D'.assignBudget argsort (some ((shares.drop bi).take n)) with
        | error e => exact ⟨e, rfl⟩
        | ok D'' =>
          have : AnyLayer.detector D ∈ ls := by
            rcases List.mem_cons.1 hl with h' | h'
            · exact absurd (AnyLayer.detector.inj h').symm hD
            · exact h'
          obtain ⟨e, he⟩ := loop_heatmap ha shares nCosts D h hm ls (bi + n) (li + 1) this
          exact ⟨e, by simp only [he]⟩

/-- No volume with a budget can be built with a heat map anywhere among its detectors. -/
theorem heatmap_budget_rejected (argsort : List ℝ → List Nat) (ha : IsArgsort argsort) (layers : List AnyLayer) (devices : List String) (b : ℝ)
    (D : DetLayer) (hD : .detector D ∈ layers) (h : Heatmap) (hm : AnyPanel.heatmap h ∈ D.panels) :
    ∃ e, Volume.make argsort layers devices (some b) = .error e := by
  unfold Volume.make
  cases Volume.getDevice devices with
  | error e => exact ⟨e, rfl⟩
  | ok d =>
    dsimp only
    cases Volume.checkPassives none none (Volume.passives ⟨layers, some b, [], []⟩) with
    | error e => exact ⟨e, rfl⟩
    | ok u =>
      simp only [Volume.configureBudget]
      split
      · exact ⟨_, rfl⟩
      · simp only [Volume.assignBudget]
        obtain ⟨e, he⟩ := loop_heatmap ha _ _ D h hm layers 0 0 hD
        exact ⟨e, by rw [he]⟩

/-- Reductions are `mean`, `sum` or `none`; everything else is a ValueError. -/
theorem reduction_iff (x : List (List ℝ)) (r : String) :
    ((∃ y, Loss.reduce x r = .ok y) ↔ r = "mean" ∨ r = "sum" ∨ r = "none") ∧ (∀ e, Loss.reduce x r = .error e → e = .valueError) := by
  unfold Loss.reduce
  by_cases h1 : r = "mean"
  · simp [h1]
  by_cases h2 : r = "sum"
  · simp [h2]
  by_cases h3 : r = "none"
  · simp [h3]
  simp [h1, h2, h3]

end C61

end

end Tomopt
