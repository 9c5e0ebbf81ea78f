import Verif.Lemmas.ExchangeScatter
import Verif.Lemmas.ExchangePredict
import Verif.Lemmas.ExchangeBudget
import Verif.Lemmas.ExchangeLoss
import Verif.Props.C105
import Verif.Props.C149

/- C152: neither detectors nor reconstruction have a preferred horizontal axis, except heat maps.  Property theorems; what exchanging the axes means is in Spec/ExchangeHits.lean, the lemmas are in Lemmas/ExchangeHits.lean and
Lemmas/ExchangeScatter.lean. For predictions: Spec/ExchangePredict.lean and Lemmas/ExchangePredict.lean. -/
namespace Tomopt

noncomputable section
open Real Scatter

namespace C152

open Exchange

theorem flight (argsort : List ℝ → List Nat) (ha : IsArgsort argsort) (rng : Nat → Nat → Nat → Draw) (noise : Nat → Nat → Nat → ℝ × ℝ) (fuel : Nat) (V V₁ W : Volume)
    (hx : SwVolume V W) (b b' c : Batch Row) (hn : b.ids.Nodup) (hbc : List.Forall₂ Sw b.muons c.muons) (hb0 : b.hits = []) (hc0 : c.hits = [])
    (hfree : ∀ L, .passive L ∈ V.layers → ∀ i k j, Free L (b.muons.map (·.p)) (rng i k j)) (hf : V.forward argsort rng noise fuel b = .ok (V₁, some b')) :
    ∃ rng', (∀ i k j, Mirrored (rng i k j) (rng' i k j)) ∧ ∃ W₁ c', SwVolume V₁ W₁ ∧ W.forward argsort rng' (swNoise noise) fuel c = .ok (W₁, some c') ∧ List.Forall₂ Sw b'.muons c'.muons ∧
      (∀ pos var, c'.tensors pos var = (b'.tensors pos var).map fun t => t.map (swRow var)) ∧ HitsOk b'.muons.length b'.hits ∧ HitsOk c'.muons.length c'.hits := by
  obtain ⟨W₁, hV, hW, hX⟩ : ∃ W₁, V.assignBudget argsort = .ok V₁ ∧ W.assignBudget argsort = .ok W₁ ∧ SwVolume V₁ W₁ := by
    rcases budget_sw argsort hx with ⟨e, e1, -⟩ | ⟨U, W₁, e1, e2, e3⟩
    · simp [Volume.forward, e1] at hf
    · have : U = V₁ := by
        unfold Volume.forward at hf
        rw [e1] at hf
        simp only at hf
        cases h : Volume.runLayers argsort rng noise fuel 0 U.layers b with
        | error e => rw [h] at hf; simp at hf
        | ok r => rw [h] at hf; simp at hf; exact hf.1
      subst this
      exact ⟨W₁, e1, e2, e3⟩
  have hm : ∀ L, .passive L ∈ V₁.layers → .passive L ∈ V.layers := by
    intro L hL
    have : L ∈ V₁.passives := List.mem_filterMap.mpr ⟨_, hL, rfl⟩
    rw [passives_budget argsort V V₁ hV] at this
    obtain ⟨l, h1, h2⟩ := List.mem_filterMap.mp this
    cases l <;> simp at h2
    subst h2
    exact h1
  have h2 : Volume.runLayers argsort rng noise fuel 0 V₁.layers b = .ok (some b') := by
    unfold Volume.forward at hf
    rw [hV] at hf
    simp only at hf
    cases h : Volume.runLayers argsort rng noise fuel 0 V₁.layers b with
    | error e => rw [h] at hf; simp at hf
    | ok r => rw [h] at hf; simp at hf; rw [hf]
  have t0 : ∀ a : Batch Row, a.hits = [] → ∀ pos var, a.tensors pos var = [] := by
    intro a h pos var
    simp [Batch.tensors, h, Dict.get?]
  obtain ⟨rng', h0, c', h1, h3, h4, h5, h6, -⟩ := runLayers_hits argsort ha (b.muons.map (·.p)) rng noise fuel _ _ hX.layers 0 b b' c (fun L hL => hfree L (hm L hL)) (fun m hm => List.mem_map_of_mem hm) hn hbc
    (fun pos var => ⟨[], by simp [C01.Inv, t0 b hb0], by simp [C01.Inv, t0 c hc0]⟩) (by rw [hb0]; simp [HitsOk]) (by rw [hc0]; simp [HitsOk]) h2
  exact ⟨rng', h0, W₁, c', hX, by simp only [Volume.forward, hW, h1], h3, fun pos var => (h4 pos var).tensors (ids_sw h3), h5, h6⟩

/-- **C152: hits.** Muons pass a stack of layers. Exchange the horizontal axes of everything: of the voxels, of the panels (centre, span, centres and widths of heat maps), of the entering muons and of the noise of the measurements.
Then there are random numbers for the passage, each just as probable as the given one, for which every panel records for every muon that comes out exactly what it recorded before, with x and y exchanged: measured and true positions and
uncertainties; efficiencies are the same. -/
theorem hits (argsort : List ℝ → List Nat) (ha : IsArgsort argsort) (rng : Nat → Nat → Nat → Draw) (noise : Nat → Nat → Nat → ℝ × ℝ) (fuel : Nat) (V V₁ W : Volume)
    (hx : SwVolume V W) (b b' c : Batch Row) (hn : b.ids.Nodup) (hbc : List.Forall₂ Sw b.muons c.muons) (hb0 : b.hits = []) (hc0 : c.hits = [])
    (hfree : ∀ L, .passive L ∈ V.layers → ∀ i k j, Free L (b.muons.map (·.p)) (rng i k j)) (hf : V.forward argsort rng noise fuel b = .ok (V₁, some b')) :
    ∃ rng', (∀ i k j, Mirrored (rng i k j) (rng' i k j)) ∧ ∃ W₁ c', SwVolume V₁ W₁ ∧ W.forward argsort rng' (swNoise noise) fuel c = .ok (W₁, some c') ∧ List.Forall₂ Sw b'.muons c'.muons ∧
      ∀ pos var, c'.tensors pos var = (b'.tensors pos var).map fun t => t.map (swRow var) := by
  obtain ⟨rng', h0, W₁, c', hX, h1, h2, h3, -⟩ := flight argsort ha rng noise fuel V V₁ W hx b b' c hn hbc hb0 hc0 hfree hf
  exact ⟨rng', h0, W₁, c', hX, h1, h2, h3⟩

/-- **C152: scatterings.** If scatterings can be reconstructed from what was recorded, from the measured or from the true hits, then they can be for the exchanged muons: the same muons are kept, in the same order, and each is
reconstructed with the exchanged tracks, the exchanged place, the exchanged distances and the same angle of scattering. -/
theorem scatters (gen : Bool) (argsort : List ℝ → List Nat) (ha : IsArgsort argsort) (rng : Nat → Nat → Nat → Draw) (noise : Nat → Nat → Nat → ℝ × ℝ) (fuel : Nat) (V V₁ W : Volume)
    (hx : SwVolume V W) (b b' c : Batch Row) (hn : b.ids.Nodup) (hbc : List.Forall₂ Sw b.muons c.muons) (hb0 : b.hits = []) (hc0 : c.hits = [])
    (hfree : ∀ L, .passive L ∈ V.layers → ∀ i k j, Free L (b.muons.map (·.p)) (rng i k j)) (hf : V.forward argsort rng noise fuel b = .ok (V₁, some b'))
    (s : SB) (cs : List (Track × Track × (ℝ × ℝ × ℝ))) (hs : build gen V₁ b' = .ok (s, cs)) :
    ∃ rng', (∀ i k j, Mirrored (rng i k j) (rng' i k j)) ∧ ∃ (W₁ : Volume) (c' : Batch Row) (s' : SB) (cs' : List (Track × Track × (ℝ × ℝ × ℝ))), SwVolume V₁ W₁ ∧ W.forward argsort rng' (swNoise noise) fuel c = .ok (W₁, some c') ∧
      build gen W₁ c' = .ok (s', cs') ∧ List.Forall₂ Sw s.mu.muons s'.mu.muons ∧ List.Forall₂ SwScatter cs cs' := by
  obtain ⟨rng', h0, W₁, c', hX, h1, h2, h3, h4, h5⟩ := flight argsort ha rng noise fuel V V₁ W hx b b' c hn hbc hb0 hc0 hfree hf
  have hp : List.Forall₂ ExL V₁.passives W₁.passives := passives_sw hX.layers
  obtain ⟨s', e1, e2⟩ := build_sw (lw_sw hp) (zRange_sw hp) h2 h4 h5 (C105.build_recorded hs) h3 hs
  refine ⟨rng', h0, W₁, c', s', _, hX, h1, e1, e2, ?_⟩
  rw [List.forall₂_map_right_iff]
  exact List.forall₂_same.mpr fun k _ => ⟨⟨rfl, rfl⟩, poca_sw k, dxy_sw k, thetaMsc_sw _ _⟩

/-- **C152: budget and cost.** Assigning the budget to a volume with exchanged axes gives the volume with assigned budget with exchanged axes - or raises the same error -, and the cost is the same. -/
theorem budget (argsort : List ℝ → List Nat) {V W : Volume} (h : SwVolume V W) : W.getCost = V.getCost ∧
    ((∃ e, V.assignBudget argsort = .error e ∧ W.assignBudget argsort = .error e) ∨ ∃ V₁ W₁ : Volume, V.assignBudget argsort = .ok V₁ ∧ W.assignBudget argsort = .ok W₁ ∧ SwVolume V₁ W₁) :=
  ⟨cost_sw h, budget_sw argsort h⟩

/-- **C152: loss.** Predictions and true radiation lengths of voxels with the axes exchanged have the same error, the mean of the squares of their differences, as before. -/
theorem loss (f g : Nat → Nat → Nat → ℝ) (nz nx ny : Nat) :
    Loss.mse (flat3 (fun k j i => f k i j) nz ny nx) (flat3 (fun k j i => g k i j) nz ny nx) = Loss.mse (flat3 f nz nx ny) (flat3 g nz nx ny) :=
  mse_sw f g nz nx ny

/-- **C152: predictions.** Two volumes have grids of cubic voxels of the same size and height, one `nx` by `ny` and the other `ny` by `nx`. Whatever scatter batches a panel inferrer of the first is given and whatever it is asked in
between: if one of the second is given the same batches with the axes of the places of closest approach (and of their uncertainties) exchanged, the predictions are the same with the axes exchanged; if one raises an error, the other
raises the same. -/
theorem prediction {V W : Volume} {s zb : ℝ} {nx ny nz : Nat} {mat mat' : Nat → Nat → Nat → ℝ} (hV : Block V s zb nx ny nz mat) (hW : Block W s zb ny nx nz mat') (n : ℤ) (hz : zb = n * s) (cdf : ℝ → ℝ → ℝ → ℝ)
    (big : ℝ) (c d : Infer.Conf) (hc : Infer.confOf V cdf big Infer.panelEff = .ok c) (hd : Infer.confOf W cdf big Infer.panelEff = .ok d) (ops ops' : List Infer.Op) (cs : List (List C107.Mu)) (hne : cs ≠ [])
    (ha : C107.added ops = cs.map C107.batchOf) (ha' : C107.added ops' = (cs.map (·.map swMu)).map C107.batchOf) (h2 : ∀ ms ∈ cs, ∀ m ∈ ms, 2 ≤ m.above.length ∧ 2 ≤ m.below.length)
    (h3 : ∀ ms ∈ cs, ∀ m ∈ ms, (m.vals .poca).length = 3 ∧ (m.uncs .poca).length = 3) :
    (∃ e, C107.answer c ops .prediction = some (.pred (.error e)) ∧ C107.answer d ops' .prediction = some (.pred (.error e))) ∨
      ∃ p p', C107.answer c ops .prediction = some (.pred (.ok (some p))) ∧ C107.answer d ops' .prediction = some (.pred (.ok (some p'))) ∧ ∀ k i j, entry3 p' k j i = entry3 p k i j := by
  classical
  obtain ⟨-, -, -, -, ce, -⟩ := block_conf hV n hz hc
  obtain ⟨-, -, -, -, de, -⟩ := block_conf hW n hz hd
  have hu : ∀ cs : List (List C107.Mu), C107.usable (cs.map C107.entry) = (cs.flatten.filter fun m => decide m.Usable).map C107.Mu.rec' := by
    intro cs
    rw [C107.usable, C107.allMuons_entry, List.filter_map]
    congr 2
    funext m
    rw [Bool.eq_iff_iff, Function.comp, C107.finite_iff, decide_eq_true_iff]
  have hs : (((cs.map (·.map swMu)).flatten).filter fun m => decide m.Usable) = (cs.flatten.filter fun m => decide m.Usable).map swMu := by
    rw [← List.map_flatten, List.filter_map]
    congr 2
    funext m
    simp only [Function.comp, usable_sw]
  have g1 : C36.Good c.eff (cs.map C107.entry) := by rw [ce]; exact C107.good_entry cs h2
  have g2 : C36.Good d.eff ((cs.map (·.map swMu)).map C107.entry) := by
    rw [de]
    refine C107.good_entry _ fun ms hms m hm => ?_
    obtain ⟨ms', hms', rfl⟩ := List.mem_map.mp hms
    obtain ⟨m', hm', rfl⟩ := List.mem_map.mp hm
    exact h2 ms' hms' m' hm'
  have n1 : cs.map C107.entry ≠ [] := by simpa using hne
  have n2 : (cs.map (·.map swMu)).map C107.entry ≠ [] := by simpa using hne
  rw [C107.answer_want c ops _ (by simp) _ g1 (by rw [ha, List.map_map]; rfl), C107.answer_want d ops' _ (by simp) _ g2 (by rw [ha', List.map_map (f := C107.entry)]; rfl)]
  have e1 : ((cs.map C107.entry).map (·.1)).length ≠ 0 := by simpa using hne
  have e2 : (((cs.map (·.map swMu)).map C107.entry).map (·.1)).length ≠ 0 := by simpa using hne
  simp only [C35.want, C35.wantPrediction, if_neg e1, if_neg e2]
  rw [C107.want_from c _ g1 n1, C107.want_from d _ g2 n2, hu, hu, hs]
  rcases fromMuons_sw hV hW n hz hc hd (cs.flatten.filter fun m => decide m.Usable) (fun m hm => by simpa using (List.mem_filter.mp hm).2) (fun m hm => by
      obtain ⟨ms, hms, hm'⟩ := List.mem_flatten.mp (List.mem_filter.mp hm).1
      exact h3 ms hms m hm') with ⟨e, h1, h2⟩ | ⟨p, p', h1, h2, h3⟩
  · exact Or.inl ⟨e, by rw [h1]; rfl, by rw [h2]; rfl⟩
  · exact Or.inr ⟨p, p', by rw [h1]; rfl, by rw [h2]; rfl, h3⟩

/-- **C152 is refuted by the code for heat maps that are evaluated realistically.** Take any heat map as it is made, centred at x = y, a muon through its centre and the same large noise in x and y: nothing changes when the axes are
exchanged. Yet the recorded x and y differ: x is cut off at the first and y at the second number of the span, of which the second is larger. -/
theorem heatmap_violated (res eff c z m2cost n : ℝ) (span : ℝ × ℝ) (budget : Option ℝ) (um us : List (ℝ × ℝ)) (hus : us ≠ []) (h : Heatmap) (hm : Heatmap.make res eff (c, c, z) span m2cost budget true um us = .ok h) (m : Muon) (hx : m.x = c)
    (hy : m.y = c) (hn : 0 ≤ n / res ∧ span.1 ≤ n / res ∧ span.2 ≤ n / res) :
    ∃ u v w : XF, Dict.get? (Heatmap.getHits { h with training := false } (fun _ => (n, n)) (⟨[m], [], [], []⟩ : Batch Row)) "reco_xyz" = some [[u, v, w]] ∧ u ≠ v := by
  unfold Heatmap.make at hm
  split at hm
  · simp at hm
  rename_i hres
  split at hm
  · simp at hm
  simp only at hm
  generalize hsp : (if span.2 < span.1 then (span.2, span.1) else span) = sp at hm
  split at hm
  · rename_i hall
    cases budget with
    | some _ => simp at hm
    | none =>
      simp only [Except.ok.injEq] at hm
      subst hm
      have hs1 : sp.1 ≤ n / res ∧ sp.2 ≤ n / res := by
        rw [← hsp]
        split
        · exact ⟨hn.2.2, hn.2.1⟩
        · exact hn.2
      have hd : 0 < sp.2 - sp.1 := by
        cases us with
        | nil => exact absurd rfl hus
        | cons u us =>
          simp only [Heatmap.initSig, List.map_cons, List.all_cons, Bool.and_eq_true, decide_eq_true_eq] at hall
          have : 0 < max u.1 0.2 := lt_max_of_lt_right (by norm_num)
          exact (pos_iff_pos_of_mul_pos hall.1.1).mpr this
      have hin : Batch.inWindow (some (c - rangeMult * (sp.2 - sp.1), c - rangeMult * (sp.2 - sp.1))) (some (c + rangeMult * (sp.2 - sp.1), c + rangeMult * (sp.2 - sp.1))) m = true := by
        have hr : 0 < rangeMult * (sp.2 - sp.1) := mul_pos (by norm_num [rangeMult]) hd
        simp only [Batch.inWindow, hx, hy, Bool.and_eq_true, decide_eq_true_eq]
        refine ⟨⟨⟨?_, ?_⟩, ?_⟩, ?_⟩ <;> linarith
      have hr0 : res ≠ 0 := by linarith
      refine ⟨_, _, _, by simp only [Heatmap.getHits, Dict.get?, if_true, List.map_cons, List.map_nil]; rfl, ?_⟩
      simp only [hin, Heatmap.resAt, Heatmap.continuous, Heatmap.recoCoord, hx, hy, Bool.not_true, Bool.or_false, Bool.not_false, Bool.and_self, Bool.false_eq_true, if_true, if_false]
      have hq : XF.quot n res = .num (n / res) := by simp [XF.quot, hr0]
      rw [hq]
      simp only [XF.addR, XF.clamp, ne_eq, XF.num.injEq]
      have hge : n / res ≤ max (c - (c - (sp.2 - sp.1) / 2) + n / res) 0 := le_max_of_le_left (by linarith)
      rw [min_eq_right (hs1.1.trans hge), min_eq_right (hs1.2.trans hge)]
      linarith
  · simp at hm

/-! ### The hypotheses can be met -/

theorem pair_exchanged (pos : String) (z : ℝ) : ({ C99.pair pos z with lw := ((C99.pair pos z).lw.2, (C99.pair pos z).lw.1), panels := (C99.pair pos z).panels.map exPanel } : DetLayer) = C99.pair pos z := rfl

theorem scope_exchanged : SwVolume C99.scope C99.scope := by
  refine ⟨?_, rfl, rfl, rfl⟩
  have hp : ∀ pos z, ExD (.detector (C99.pair pos z)) (.detector (C99.pair pos z)) := fun pos z => ExD.detector (C99.pair pos z)
  exact .cons (hp _ _) (.cons (.passive _ _ C149.slab_exchanged (by norm_num [C99.slab])) (.cons (hp _ _) .nil))

/-- the muon of C99, turned by 45 degrees, and the same muon with axes exchanged: it is reconstructed at the same place with the same angle -/
example : ∃ argsort rng' W₁ c' s' k', C99.scope.forward argsort rng' (fun _ _ _ => (0, 0)) 1 ⟨[⟨0, 0.5, 0.5, 3, 0.0136, 0, π / 2⟩], [], [], []⟩ = .ok (W₁, some c') ∧ build true W₁ c' = .ok (s', [k']) ∧
    thetaMsc k'.1.1 k'.2.1.1 = some (π / 4) ∧ poca k'.1 k'.2.1 k'.2.2 = (0.5, 0.5, 1) := by
  obtain ⟨argsort, b', s, k, ha, hf, hb, h1, h2⟩ := C99.scope_turns
  obtain ⟨rng', -, W₁, c', s', cs', -, e1, e2, -, e3⟩ := scatters true argsort ha _ _ 1 C99.scope C99.scope C99.scope scope_exchanged _ b' ⟨[⟨0, 0.5, 0.5, 3, 0.0136, 0, π / 2⟩], [], [], []⟩ (by simp [Batch.ids])
    (.cons ⟨rfl, rfl, rfl, rfl, rfl, rfl, by simp, by simp⟩ .nil) rfl rfl (fun L hL _ _ _ => by
      simp only [C99.scope, List.mem_cons, reduceCtorEq, AnyLayer.passive.injEq, false_or, List.not_mem_nil, or_false] at hL
      subst hL
      simpa using C149.slab_free) hf s [k] hb
  rw [List.forall₂_cons_left_iff] at e3
  obtain ⟨k', r, hk, hr, rfl⟩ := e3
  rw [List.forall₂_nil_left_iff] at hr
  subst hr
  refine ⟨argsort, rng', W₁, c', s', k', e1, e2, by rw [hk.angle, h1], by rw [hk.place, h2]; rfl⟩

/-- a panel that is longer in x becomes one that is longer in y -/
example : exPanel (.panel ⟨.gauss, 10, 1, 1, (0.5, 0.6), 1, (1, 2), 1, true, false⟩) = .panel ⟨.gauss, 10, 1, 1, (0.6, 0.5), 1, (2, 1), 1, true, false⟩ := rfl

/-- a volume with an elongated panel and a budget, with axes exchanged -/
example : SwVolume ⟨[.detector ⟨"above", (3, 4), 1, 1, [.panel ⟨.gauss, 10, 1, 2, (0.5, 0.6), 0.5, (1, 2), 1, true, false⟩]⟩], some 3, [0], [1]⟩
    ⟨[.detector ⟨"above", (4, 3), 1, 1, [.panel ⟨.gauss, 10, 1, 2, (0.6, 0.5), 0.5, (2, 1), 1, true, false⟩]⟩], some 3, [0], [1]⟩ := ⟨.cons (.detector _) .nil, rfl, rfl, rfl⟩

/-- one layer of two by one voxels -/
example : flat3 (fun _ i _ => i) 1 2 1 = [0, 1] ∧ flat3 (fun _ _ i => i) 1 1 2 = [0, 1] := by
  simp [flat3, List.range_succ]

/-- the volume of C16 with the axes exchanged -/
def demoT : Volume := ⟨[.passive ⟨(1, 2), 5, 1, 0.1, "pdg", some [[10, 11]]⟩, .passive ⟨(1, 2), 4, 1, 0.1, "pdg", some [[20, 21]]⟩, .detector ⟨"below", (1, 2), 3, 3, []⟩], none, [], []⟩

theorem demoT_block : Block demoT 1 3 1 2 2 fun iz ix iy => C16.demoMat iz iy ix := by
  refine ⟨by norm_num, rfl, by norm_num, ?_⟩
  intro i L hL
  simp only [demoT, Volume.passives, List.filterMap_cons, List.filterMap_nil] at hL
  have key : ∀ iy : Nat, iy < 2 → iy = 0 ∨ iy = 1 := by omega
  match i, hL with
  | 0, hL =>
    simp at hL; subst hL
    refine ⟨rfl, by norm_num, by norm_num, _, rfl, rfl, fun ix hx => ?_⟩
    obtain rfl : ix = 0 := by omega
    exact ⟨_, rfl, rfl, fun iy hy => by rcases key iy hy with rfl | rfl <;> simp [C16.demoMat]⟩
  | 1, hL =>
    simp at hL; subst hL
    refine ⟨rfl, by norm_num, by norm_num, _, rfl, rfl, fun ix hx => ?_⟩
    obtain rfl : ix = 0 := by omega
    exact ⟨_, rfl, rfl, fun iy hy => by rcases key iy hy with rfl | rfl <;> simp [C16.demoMat]⟩
  | i + 2, hL => simp at hL

/-- a muon that scattered at (1.5, 0.5, 4.5) -/
def muXY : C107.Mu := { C107.mu 0 with vals := fun v => if v = .poca then [.num 1.5, .num 0.5, .num 4.5] else [.num 1] }

/-- two batches, and the same exchanged with a question in between -/
example (cdf : ℝ → ℝ → ℝ → ℝ) (big : ℝ) : ∃ c d, Infer.confOf C16.demo cdf big Infer.panelEff = .ok c ∧ Infer.confOf demoT cdf big Infer.panelEff = .ok d ∧ (swMu muXY).vals .poca = [.num 0.5, .num 1.5, .num 4.5] ∧
    ((∃ e, C107.answer c [.add (C107.batchOf [muXY, C107.mu 1]), .add (C107.batchOf [muXY])] .prediction = some (.pred (.error e)) ∧
        C107.answer d [.add (C107.batchOf [swMu muXY, swMu (C107.mu 1)]), .nMuons, .add (C107.batchOf [swMu muXY])] .prediction = some (.pred (.error e))) ∨
      ∃ p p', C107.answer c [.add (C107.batchOf [muXY, C107.mu 1]), .add (C107.batchOf [muXY])] .prediction = some (.pred (.ok (some p))) ∧
        C107.answer d [.add (C107.batchOf [swMu muXY, swMu (C107.mu 1)]), .nMuons, .add (C107.batchOf [swMu muXY])] .prediction = some (.pred (.ok (some p'))) ∧ ∀ k i j, entry3 p' k j i = entry3 p k i j) := by
  obtain ⟨c, hc, -⟩ := C39.probs_zxy C16.demo_block 3 (by norm_num) cdf big Infer.panelEff
  obtain ⟨d, hd, -⟩ := C39.probs_zxy demoT_block 3 (by norm_num) cdf big Infer.panelEff
  refine ⟨c, d, hc, hd, by simp [swMu, muXY, swRow], prediction C16.demo_block demoT_block 3 (by norm_num) cdf big c d hc hd _ _ [[muXY, C107.mu 1], [muXY]] (by simp) rfl rfl ?_ ?_⟩ <;>
    simp [muXY, C107.mu]

/-- a heat map as it is made, and noise large enough -/
example : (∃ h, Heatmap.make 2 1 (0.5, 0.5, 1) (0, 1) 1 none true [(0.5, 0.5)] [(0.5, 0.5)] = .ok h) ∧ (0 : ℝ) ≤ 2 / 2 ∧ (0, 1).1 ≤ (2 / 2 : ℝ) ∧ (0, 1).2 ≤ (2 / 2 : ℝ) := by
  refine ⟨?_, by norm_num, by norm_num, by norm_num⟩
  unfold Heatmap.make
  norm_num [Heatmap.initSig]

end C152

end

end Tomopt
