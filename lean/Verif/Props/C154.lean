import Verif.Lemmas.LiftPredict
import Verif.Props.C99
import Verif.Props.C15_18

/- C154: there is no preferred height.  Property theorems; what it means to be higher is in Spec/Lift.lean, Spec/LiftScatter.lean and Spec/LiftPredict.lean, the lemmas are in Lemmas/Lift.lean, Lemmas/LiftScatter.lean and
Lemmas/LiftPredict.lean. -/
namespace Tomopt

noncomputable section
open Real Scatter

namespace C154

open Lift

/-- **C154: flights.** Move every layer and panel of a volume and every muon (with whatever was recorded of it) up or down by the same height. With the same random numbers the same happens: the same budgets are assigned, the same muons
are lost in the same order, every muon has the same directions and horizontal position, every panel records the same measured and true positions, uncertainties and efficiencies, and all heights differ by that height; if
one raises an error or does not end, so does the other. Panels at equal heights are to be ordered alike. -/
theorem flight (h : ℝ) (argsort : List ℝ → List Nat) (ha : ∀ zs : List ℝ, argsort (zs.map (· + h)) = argsort zs) (rng : Nat → Nat → Nat → Draw) (noise : Nat → Nat → Nat → ℝ × ℝ) (fuel : Nat) (V : Volume) (b : Batch Row) :
    (volume h V).forward argsort rng noise fuel (batch h b) = (V.forward argsort rng noise fuel b).map fun r => (volume h r.1, r.2.map (batch h)) := by
  unfold Volume.forward
  rw [budget_lift h argsort ha]
  cases V.assignBudget argsort with
  | error e => rfl
  | ok V' =>
    simp only [Except.map]
    have e : (volume h V').layers = V'.layers.map (layer h) := rfl
    rw [e, runLayers_lift h argsort ha]
    cases Volume.runLayers argsort rng noise fuel 0 V'.layers b <;> rfl

/-- **C154: costs.** The cost of a volume does not depend on its height. -/
theorem cost (h : ℝ) (V : Volume) : (volume h V).getCost = V.getCost := cost_lift h V

/-- **C154: where is what.** A place is in the same voxel, or outside with the same error, after the volume and the place are moved alike, and the voxels have the same radiation lengths. -/
theorem voxels (h : ℝ) (V : Volume) (xyz : List (ℝ × ℝ × ℝ)) : (volume h V).lookup (xyz.map (place h)) = V.lookup xyz ∧ (volume h V).radCube = V.radCube := by
  constructor
  · unfold Volume.lookup
    rw [lw_lift, zRange_lift, size_lift]
    cases V.lw with
    | error e => rfl
    | ok lw =>
      cases V.zRange with
      | error e => rfl
      | ok zr =>
        cases V.passiveSize with
        | error e => rfl
        | ok s =>
          have e1 : (Volume.outsideRow lw (zr.1 + h, zr.2 + h) ∘ place h) = Volume.outsideRow lw zr := by
            funext q
            obtain ⟨x, y, z⟩ := q
            change Volume.outsideRow lw (zr.1 + h, zr.2 + h) (x, y, z + h) = _
            rw [Bool.eq_iff_iff]
            simp only [Volume.outsideRow, Bool.or_eq_true, decide_eq_true_eq, gt_iff_lt, add_lt_add_iff_right]
          have e2 : (fun q : ℝ × ℝ × ℝ => (q.1, q.2.1, q.2.2 - (zr.1 + h))) ∘ place h = fun q => (q.1, q.2.1, q.2.2 - zr.1) := by
            funext q
            simp [place]
          simp only [bind, Except.bind, Except.map, List.any_map, List.map_map, e1]
          rw [← List.map_map, e2]
          simp only [List.map_map]
  · unfold Volume.radCube
    rw [passives_lift]
    simp only [← List.map_reverse, List.length_map, List.filterMap_map]
    rfl

/-- **C154: scatterings.** Whatever scatterings are reconstructed from what was recorded, from the measured or from the true hits: higher up the same muons are kept, with the same tracks higher up, the same coefficients of their closest
approach, and the place of closest approach is higher by the same height; if one raises an error, so does the other. -/
theorem scatters (gen : Bool) (h : ℝ) (argsort : List ℝ → List Nat) (ha : ∀ zs : List ℝ, argsort (zs.map (· + h)) = argsort zs) (rng : Nat → Nat → Nat → Draw) (noise : Nat → Nat → Nat → ℝ × ℝ) (fuel : Nat) (V V₁ : Volume)
    (b b' : Batch Row) (hb : b.hits = []) (hf : V.forward argsort rng noise fuel b = .ok (V₁, some b')) :
    (volume h V).forward argsort rng noise fuel (batch h b) = .ok (volume h V₁, some (batch h b')) ∧
      build gen (volume h V₁) (batch h b') = (build gen V₁ b').map (fun r => (scatter h r.1, r.2.map (coefs h))) ∧
      ∀ k : Track × Track × (ℝ × ℝ × ℝ), poca (coefs h k).1 (coefs h k).2.1 (coefs h k).2.2 = place h (poca k.1 k.2.1 k.2.2) ∧ dxy (coefs h k).1 (coefs h k).2.1 (coefs h k).2.2 = dxy k.1 k.2.1 k.2.2 ∧
        thetaMsc (coefs h k).1.1 (coefs h k).2.1.1 = thetaMsc k.1.1 k.2.1.1 := by
  refine ⟨by rw [flight h argsort ha, hf]; rfl, build_lift h gen V₁ b' ?_, fun k => ⟨poca_lift h k, rfl, rfl⟩⟩
  unfold Volume.forward at hf
  cases h1 : V.assignBudget argsort with
  | error e => rw [h1] at hf; simp at hf
  | ok V' =>
    rw [h1] at hf
    simp only at hf
    cases h2 : Volume.runLayers argsort rng noise fuel 0 V'.layers b with
    | error e => rw [h2] at hf; simp at hf
    | ok r =>
      rw [h2] at hf
      simp only [Except.ok.injEq, Prod.mk.injEq] at hf
      rw [hf.2] at h2
      exact heights_run argsort rng noise fuel V'.layers 0 b b' (by unfold Heights; rw [hb]; simp) h2

/-- **C154: predictions.** A volume has a grid of cubic voxels with its bottom at a multiple of their size, and is moved by a multiple of their size. Whatever scatter batches an inferrer of the volume is given and whatever it is asked in
between: one of the moved volume that is given the same batches with the places of closest approach moved alike predicts the same, or raises the same error. -/
theorem prediction {V : Volume} {s zb : ℝ} {nx ny nz : Nat} {mat : Nat → Nat → Nat → ℝ} (hV : Block V s zb nx ny nz mat) (n m : ℤ) (hz : zb = n * s) (cdf : ℝ → ℝ → ℝ → ℝ) (hm : Moves cdf) (big : ℝ) (c d : Infer.Conf)
    (hc : Infer.confOf V cdf big Infer.panelEff = .ok c) (hd : Infer.confOf (volume (m * s) V) cdf big Infer.panelEff = .ok d) (ops ops' : List Infer.Op) (cs : List (List C107.Mu)) (hne : cs ≠ [])
    (ha : C107.added ops = cs.map C107.batchOf) (ha' : C107.added ops' = (cs.map (·.map (mu (m * s)))).map C107.batchOf) (h2 : ∀ ms ∈ cs, ∀ m ∈ ms, 2 ≤ m.above.length ∧ 2 ≤ m.below.length)
    (h3 : ∀ ms ∈ cs, ∀ m ∈ ms, (m.vals .poca).length = 3) : C107.answer d ops' .prediction = C107.answer c ops .prediction := by
  classical
  obtain ⟨-, -, -, -, ce, -⟩ := Exchange.block_conf hV n hz hc
  obtain ⟨-, -, -, -, de, -⟩ := Exchange.block_conf (block_lift (m * s) hV) (n + m) (by rw [hz]; push_cast; ring) hd
  have hu : ∀ cs : List (List C107.Mu), C107.usable (cs.map C107.entry) = (cs.flatten.filter fun m => decide m.Usable).map C107.Mu.rec' := by
    intro cs
    rw [C107.usable, C107.allMuons_entry, List.filter_map]
    congr 2
    funext m
    rw [Bool.eq_iff_iff, Function.comp, C107.finite_iff, decide_eq_true_iff]
  have hs : (((cs.map (·.map (mu (m * s)))).flatten).filter fun m => decide m.Usable) = (cs.flatten.filter fun m => decide m.Usable).map (mu (m * s)) := by
    rw [← List.map_flatten, List.filter_map]
    congr 2
    funext k
    simp only [Function.comp, usable_lift]
  have g1 : C36.Good c.eff (cs.map C107.entry) := by rw [ce]; exact C107.good_entry cs h2
  have g2 : C36.Good d.eff ((cs.map (·.map (mu (m * s)))).map C107.entry) := by
    rw [de]
    refine C107.good_entry _ fun ms hms k hk => ?_
    obtain ⟨ms', hms', rfl⟩ := List.mem_map.mp hms
    obtain ⟨k', hk', rfl⟩ := List.mem_map.mp hk
    exact h2 ms' hms' k' hk'
  have n1 : cs.map C107.entry ≠ [] := by simpa using hne
  have n2 : (cs.map (·.map (mu (m * s)))).map C107.entry ≠ [] := by simpa using hne
  rw [C107.answer_want c ops _ (by simp) _ g1 (by rw [ha, List.map_map]; rfl), C107.answer_want d ops' _ (by simp) _ g2 (by rw [ha', List.map_map (f := C107.entry)]; rfl)]
  have e1 : ((cs.map C107.entry).map (·.1)).length ≠ 0 := by simpa using hne
  have e2 : (((cs.map (·.map (mu (m * s)))).map C107.entry).map (·.1)).length ≠ 0 := by simpa using hne
  simp only [C35.want, C35.wantPrediction, if_neg e1, if_neg e2]
  rw [C107.want_from c _ g1 n1, C107.want_from d _ g2 n2, hu, hu, hs, fromMuons_lift hV n m hz hm hc hd _ (fun k hk => by simpa using (List.mem_filter.mp hk).2) (fun k hk => by
      obtain ⟨ms, hms, hk'⟩ := List.mem_flatten.mp (List.mem_filter.mp hk).1
      exact h3 ms hms k hk')]

/-- three layers of one voxel -/
def column : Volume :=
  ⟨[.passive ⟨(1, 1), 3, 1, 0.1, "pdg", some [[1]]⟩, .passive ⟨(1, 1), 2, 1, 0.1, "pdg", some [[1]]⟩, .passive ⟨(1, 1), 1, 1, 0.1, "pdg", some [[1]]⟩], none, [], []⟩

theorem column_block : Block column 1 0 1 1 3 fun _ _ _ => 1 := by
  refine ⟨by norm_num, rfl, by norm_num, ?_⟩
  intro i L hL
  simp only [column, Volume.passives, List.filterMap_cons, List.filterMap_nil] at hL
  match i, hL with
  | 0, hL => simp at hL; subst hL; norm_num
  | 1, hL => simp at hL; subst hL; norm_num
  | 2, hL => simp at hL; subst hL; norm_num
  | i + 3, hL => simp at hL

/-- **C154 is refuted by the code for predictions of volumes moved by half a voxel.** For three layers of one voxel of side 1 that stand on the ground, the probability of every voxel can be computed for every muon. Half a voxel higher, four
voxels are listed, and whatever the muons, computing the probabilities raises an error; predicting from one and the same muon, moved with the volume, raises this error only there. -/
theorem prediction_violated (cdf : ℝ → ℝ → ℝ → ℝ) (big : ℝ) : ∃ c d, Infer.confOf column cdf big Infer.panelEff = .ok c ∧ Infer.confOf (volume (1 / 2) column) cdf big Infer.panelEff = .ok d ∧
    (∀ r, ∃ t, Infer.muonProbs c.cdf c.size c.edges c.shp r = .ok t) ∧ (∀ r, Infer.muonProbs d.cdf d.size d.edges d.shp r = .error .runtimeError) ∧
    ∀ x, C107.answer d [.add (C107.batchOf [mu (1 / 2) (C107.mu x)])] .prediction = some (.pred (.error .runtimeError)) ∧ C107.answer c [.add (C107.batchOf [C107.mu x])] .prediction ≠ some (.pred (.error .runtimeError)) := by
  obtain ⟨c, hc, h1⟩ := C39.probs_zxy column_block 0 (by norm_num) cdf big Infer.panelEff
  have r1 : pyRound (1 / 2) = 0 := by
    have : ⌊(1 / 2 : ℝ)⌋ = 0 := by rw [Int.floor_eq_iff]; norm_num
    simp only [pyRound, this]; norm_num
  have r2 : pyRound (3 + 1 / 2) = 4 := by
    have : ⌊(3 + 1 / 2 : ℝ)⌋ = 3 := by rw [Int.floor_eq_iff]; norm_num
    simp only [pyRound, this]; norm_num
  have r3 : pyRound 1 = 1 := by simpa using pyRound_nat 1
  have r4 : (1 : ℝ) + 1 / 2 - 1 = 1 / 2 := by norm_num
  have he : (volume (1 / 2) column).xyzEdges = .ok [(0, 0, 0), (0, 0, 1), (0, 0, 2), (0, 0, 3)] := by
    simp only [volume, column, List.map_cons, List.map_nil, layer, passive, Volume.xyzEdges, Volume.lw, Volume.passiveSize, Volume.zRange, Volume.passives, List.filterMap_cons, List.filterMap_nil,
      List.getLast?_cons_cons, List.getLast?_singleton, List.head?_cons, bind, Except.bind, Volume.gridOf, div_one, r1, r2, r3, r4]
    simp [irange, List.range_succ]
  have hB := block_lift (1 / 2) column_block
  have hd : ∀ r, Infer.muonProbs cdf 1 [(0, 0, 0), (0, 0, 1), (0, 0, 2), (0, 0, 3)] (1, 1, 3) r = .error .runtimeError := fun r => by simp [Infer.muonProbs, Infer.reshape3, bind, Except.bind]
  have one : ∀ (c : Infer.Conf) (k : C107.Mu), c.eff = Infer.panelEff → k.Usable → 2 ≤ k.above.length → 2 ≤ k.below.length →
      C107.answer c [.add (C107.batchOf [k])] .prediction = some (.pred ((C107.fromMuons c [k.rec']).map some)) := by
    intro c k he hk ha hb
    have g : C36.Good c.eff ([[k]].map C107.entry) := by rw [he]; exact C107.good_entry [[k]] (by simp [ha, hb])
    rw [C107.answer_want c _ _ (by simp) _ g rfl]
    have e1 : (([[k]].map C107.entry).map (·.1)).length ≠ 0 := by simp
    simp only [C35.want, C35.wantPrediction, if_neg e1]
    rw [C107.want_from c _ g (by simp), C107.usable, C107.allMuons_entry]
    simp [(C107.finite_iff k).mpr hk]
  have ec : c.eff = Infer.panelEff := (Exchange.block_conf column_block 0 (by norm_num) hc).2.2.2.2.1
  refine ⟨c, ⟨cdf, big, 1, [(0, 0, 0), (0, 0, 1), (0, 0, 2), (0, 0, 3)], (1, 1, 3), Infer.panelEff⟩, hc, ?_, fun r => ?_, hd, fun x => ⟨?_, ?_⟩⟩
  · simp only [Infer.confOf, hB.lw_eq, hB.size_eq, he, hB.count, bind, Except.bind]
    simp [r3]
  · obtain ⟨t, ht, -⟩ := h1 r
    exact ⟨t, ht⟩
  · rw [one _ _ rfl ((usable_lift _ _).mpr (C107.mu_usable x)) (by simp [mu, C107.mu]) (by simp [mu, C107.mu])]
    have e := parse_mu (1 / 2) (C107.mu x) (C107.mu_usable x) (by simp [C107.mu])
    have e' : ∃ r, Infer.parseRow (C107.mu x).rec'.vals (C107.mu x).rec'.uncs = .ok r := ⟨_, rfl⟩
    obtain ⟨r, hr⟩ := e'
    rw [hr] at e
    simp only [C107.fromMuons, mapE, e, Except.map, hd, bind, Except.bind]
  · rw [one c _ ec (C107.mu_usable x) (by simp [C107.mu]) (by simp [C107.mu])]
    have e' : ∃ r, Infer.parseRow (C107.mu x).rec'.vals (C107.mu x).rec'.uncs = .ok r := ⟨_, rfl⟩
    obtain ⟨r, hr⟩ := e'
    obtain ⟨t, ht, -⟩ := h1 r
    simp only [C107.fromMuons, mapE, hr, ht, bind, Except.bind, Infer.voxelPreds]
    split <;> simp [Except.map]

/-! ### The assumptions can be met -/

/-- an order of panels that does not depend on the origin of heights: sort the heights relative to the first -/
theorem argsort_moves : ∃ argsort, IsArgsort argsort ∧ ∀ (h : ℝ) (zs : List ℝ), argsort (zs.map (· + h)) = argsort zs := by
  obtain ⟨argsort, ha⟩ := C13.argsort_exists
  refine ⟨fun zs => argsort (zs.map fun z => z - zs.headI), fun zs => ⟨?_, ?_⟩, fun h zs => ?_⟩
  · have := (ha (zs.map fun z => z - zs.headI)).1
    rwa [List.length_map] at this
  · refine (ha (zs.map fun z => z - zs.headI)).2.imp ?_
    intro i j hij a b h1 h2
    have := hij (a - zs.headI) (b - zs.headI) (by rw [List.getElem?_map, h1]; rfl) (by rw [List.getElem?_map, h2]; rfl)
    linarith
  · cases zs with
    | nil => rfl
    | cons z zs => simp [Function.comp_def]

/-- a place in the third of three voxels, seven lower -/
example : (volume (-7) column).lookup [(0.5, 0.5, -4.5)] = .ok ([(0, 0, 2)], [(0.5, 0.5, 2.5)]) := by
  have h := (voxels (-7) column [(0.5, 0.5, 2.5)]).1
  have e : [((0.5 : ℝ), (0.5 : ℝ), (2.5 : ℝ))].map (place (-7)) = [(0.5, 0.5, -4.5)] := by simp [place]; norm_num
  rw [e] at h
  rw [h]
  have f1 : ⌊(0.5 : ℝ)⌋ = 0 := by rw [Int.floor_eq_iff]; norm_num
  have f2 : ⌊(2.5 : ℝ)⌋ = 2 := by rw [Int.floor_eq_iff]; norm_num
  have o : Volume.outsideRow (1, 1) (0, 3) (0.5, 0.5, 2.5) = false := by
    rw [Bool.eq_false_iff]
    simp [Volume.outsideRow]
    norm_num
  simp only [Volume.lookup, column_block.lw_eq, column_block.size_eq, column_block.zRange_eq, bind, Except.bind]
  norm_num at o ⊢
  rw [o]
  norm_num at f1 f2 ⊢

/-- the telescope of C99, ten higher: the vertical muon is turned by 45 degrees, and that is found ten higher -/
example : ∃ argsort b' s' k', (volume 10 C99.scope).forward argsort (fun _ _ _ => C99.turn) (fun _ _ _ => (0, 0)) 1 ⟨[⟨0, 0.5, 0.5, 13, 0.0136, 0, 0⟩], [], [], []⟩ = .ok (volume 10 C99.scope, some b') ∧
    build true (volume 10 C99.scope) b' = .ok (s', [k']) ∧ thetaMsc k'.1.1 k'.2.1.1 = some (π / 4) ∧ poca k'.1 k'.2.1 k'.2.2 = (0.5, 0.5, 11) := by
  obtain ⟨argsort, ha, hm⟩ := argsort_moves
  obtain ⟨b', s, k, hf, hb, h1, h2⟩ := C99.scope_turns_any argsort ha
  obtain ⟨g1, g2, g3⟩ := scatters true 10 argsort (hm 10) _ _ _ _ _ _ _ rfl hf
  obtain ⟨g3, -, g4⟩ := g3 k
  have e : batch 10 ⟨[⟨0, 0.5, 0.5, 3, 0.0136, 0, 0⟩], [], [], []⟩ = (⟨[⟨0, 0.5, 0.5, 13, 0.0136, 0, 0⟩], [], [], []⟩ : Batch Row) := by simp [batch, muon]; norm_num
  rw [e] at g1
  refine ⟨argsort, _, scatter 10 s, coefs 10 k, g1, by rw [g2, hb]; rfl, by rw [g4, h1], ?_⟩
  rw [g3, h2]
  simp [place]
  norm_num

/-- distributions of one shape move along with their mean -/
example (f : ℝ → ℝ) : Moves fun mean scale x => f ((x - mean) / scale) := by
  intro mean scale x h
  simp

/-- two batches, and the same two voxels lower with a question in between -/
example (cdf : ℝ → ℝ → ℝ → ℝ) (hm : Moves cdf) (big : ℝ) : ∃ c d, Infer.confOf column cdf big Infer.panelEff = .ok c ∧ Infer.confOf (volume ((-2 : ℤ) * 1) column) cdf big Infer.panelEff = .ok d ∧
    (mu ((-2 : ℤ) * 1) (C107.mu 0.5)).vals .poca = [.num 0.5, .num 0.5, .num (-1.5)] ∧
    C107.answer d [.add (C107.batchOf [mu ((-2 : ℤ) * 1) (C107.mu 0.5)]), .nMuons, .add (C107.batchOf [mu ((-2 : ℤ) * 1) (C107.mu 1)])] .prediction =
      C107.answer c [.add (C107.batchOf [C107.mu 0.5]), .add (C107.batchOf [C107.mu 1])] .prediction := by
  obtain ⟨c, hc, -⟩ := C39.probs_zxy column_block 0 (by norm_num) cdf big Infer.panelEff
  obtain ⟨d, hd, -⟩ := C39.probs_zxy (block_lift ((-2 : ℤ) * 1) column_block) (-2) (by norm_num) cdf big Infer.panelEff
  refine ⟨c, d, hc, hd, by simp [mu, C107.mu, row]; norm_num, prediction column_block 0 (-2) (by norm_num) cdf hm big c d hc hd _ _ [[C107.mu 0.5], [C107.mu 1]] (by simp) rfl rfl ?_ ?_⟩ <;> simp [C107.mu]

end C154

end

end Tomopt
