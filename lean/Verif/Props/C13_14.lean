import Verif.Lemmas.Detector
import Verif.Props.C10_12

/- C13, C14: detector layers and the passage through a volume. -/
namespace Tomopt

noncomputable section
open Real

namespace C13

/-- the passage through one layer, with the order of the panels -/
theorem layer_order (argsort : List ℝ → List Nat) (ha : IsArgsort argsort) (noise : Nat → Nat → ℝ × ℝ) (D : DetLayer) (b : Batch Row)
    (hp : ∀ p ∈ D.panels, p.CanRespond) :
    ∃ b' : Batch Row, let order := D.zpanels argsort
      D.forward argsort noise b = .ok b' ∧
      (order.map (·.1)).Perm (List.range D.panels.length) ∧ (∀ ip ∈ order, D.panels[ip.1]? = some ip.2) ∧
      order.Pairwise (fun p q => q.2.z ≤ p.2.z) ∧
      b'.muons = b.muons.map (atHeight (D.z - D.size)) ∧ b'.removed = b.removed ∧ b'.hist = b.hist ∧
      (∀ pos var, pos ≠ D.pos → b'.tensors pos var = b.tensors pos var) ∧
      (∀ var ∈ ["reco_xyz", "gen_xyz", "unc_xyz", "eff"], ∃ new : List (List Row),
        b'.tensors D.pos var = b.tensors D.pos var ++ new ∧
        new.map some = order.map (fun ip => ip.2.tensorAt (noise ip.1) b var) ∧
        new.length = D.panels.length ∧ ∀ t ∈ new, t.length = b.muons.length) ∧
      b'.tensors D.pos "gen_xyz" = b.tensors D.pos "gen_xyz" ++ order.map fun ip =>
        b.muons.map fun m => [XF.num (crossing m ip.2.z).1, XF.num (crossing m ip.2.z).2, XF.num ip.2.z] := by
  have hperm := zpanels_perm ha D
  obtain ⟨b1, hb1, hm, hr, hh, ht⟩ := visit_ok D.pos noise (D.zpanels argsort) b
    (fun ip hip => hp ip.2 (hperm.mem_iff.mp (List.mem_map.mpr ⟨ip, hip, rfl⟩)))
  have hresp : ∀ ip ∈ D.zpanels argsort, ∀ var ∈ hitKeys, ∃ t, ip.2.tensorAt (noise ip.1) b var = some t ∧ t.length = b.muons.length := by
    intro ip hip var hv
    have hc := hp ip.2 (hperm.mem_iff.mp (List.mem_map.mpr ⟨ip, hip, rfl⟩))
    rcases ip.2.getHits_cases (noise ip.1) (b.atHeight ip.2.z) with ⟨_, d, hd, hkeys, _, hlen⟩ | ⟨hn, _⟩
    · rw [← hkeys, List.mem_map] at hv
      obtain ⟨kv, hkv, rfl⟩ := hv
      have : (d.filter (fun a => a.1 = kv.1)).map (·.2) = (d.get? kv.1).toList :=
        filter_key_eq_get? d (by rw [hkeys]; decide) kv.1
      cases hg : d.get? kv.1 with
      | none =>
        rw [hg] at this
        simp only [Option.toList_none, List.map_eq_nil_iff, List.filter_eq_nil_iff] at this
        exact absurd (by simp) (this kv hkv)
      | some t =>
        refine ⟨t, by simp [AnyPanel.tensorAt, hd, hg], ?_⟩
        rw [hg] at this
        have hmem : t ∈ (d.filter (fun a => a.1 = kv.1)).map (·.2) := by rw [this]; simp
        obtain ⟨kv', hkv', rfl⟩ := List.mem_map.mp hmem
        rw [hlen kv' (List.mem_of_mem_filter hkv')]
        simp [Batch.atHeight]
    · exact absurd hc hn
  have hgen : ∀ ip ∈ D.zpanels argsort, ip.2.tensorAt (noise ip.1) b "gen_xyz" = some
      (b.muons.map fun m => [XF.num (crossing m ip.2.z).1, XF.num (crossing m ip.2.z).2, XF.num ip.2.z]) := by
    intro ip hip
    have hc := hp ip.2 (hperm.mem_iff.mp (List.mem_map.mpr ⟨ip, hip, rfl⟩))
    rcases ip.2.getHits_cases (noise ip.1) (b.atHeight ip.2.z) with ⟨_, d, hd, _, hg, _⟩ | ⟨hn, _⟩
    · simp only [AnyPanel.tensorAt, hd, hg]
      simp only [Batch.atHeight, List.map_map]
      rfl
    · exact absurd hc hn
  refine ⟨b1.atHeight (D.z - D.size), ?_, ?_, zpanels_get D, zpanels_sorted ha D, hm _, hr, hh, ?_, ?_, ?_⟩
  · unfold DetLayer.forward
    rw [hb1]
    exact propagate_atHeight b1 _
  · rw [zpanels_index ha]; exact zorder_perm ha D
  · intro pos var hpos
    have := ht pos var
    rw [tensors_atHeight, this, if_neg hpos, List.append_nil]
  · intro var hv
    refine ⟨(D.zpanels argsort).filterMap (fun ip => ip.2.tensorAt (noise ip.1) b var), ?_, ?_, ?_, ?_⟩
    · rw [tensors_atHeight, ht, if_pos rfl]
    all_goals
      have hsome : ((D.zpanels argsort).filterMap (fun ip => ip.2.tensorAt (noise ip.1) b var)).map some =
          (D.zpanels argsort).map (fun ip => ip.2.tensorAt (noise ip.1) b var) := by
        rw [List.map_filterMap, ← List.filterMap_eq_map]
        apply List.filterMap_congr
        intro ip hip
        obtain ⟨t, h1, _⟩ := hresp ip hip var hv
        simp [h1]
    · exact hsome
    · have := congrArg List.length hsome
      rw [List.length_map, List.length_map] at this
      rw [this, ← hperm.length_eq, List.length_map]
    · intro t htm
      rw [List.mem_filterMap] at htm
      obtain ⟨ip, hip, h⟩ := htm
      obtain ⟨t', h1, h2⟩ := hresp ip hip var hv
      rw [h1] at h
      simp at h; subst h; exact h2
  · rw [tensors_atHeight, ht, if_pos rfl]
    congr 1
    rw [← List.filterMap_eq_map]
    apply List.filterMap_congr
    intro ip hip
    simp [hgen ip hip]

/-- **C13.** For every set of panels in any order and every batch: if every panel can respond, the layer visits every panel exactly once, from
the highest down; each visited panel adds one entry to every hit variable of the layer's position (none to other positions), with one row per
muon, taken with the muons at the panel's height on their straight lines; afterwards the muons are at the layer bottom on their lines. -/
theorem layer_spec (argsort : List ℝ → List Nat) (ha : IsArgsort argsort) (noise : Nat → Nat → ℝ × ℝ) (D : DetLayer) (b : Batch Row)
    (hp : ∀ p ∈ D.panels, p.CanRespond) :
    ∃ (b' : Batch Row) (order : List (Nat × AnyPanel)),
      D.forward argsort noise b = .ok b' ∧
      (order.map (·.1)).Perm (List.range D.panels.length) ∧ (∀ ip ∈ order, D.panels[ip.1]? = some ip.2) ∧
      order.Pairwise (fun p q => q.2.z ≤ p.2.z) ∧
      b'.muons = b.muons.map (atHeight (D.z - D.size)) ∧ b'.removed = b.removed ∧ b'.hist = b.hist ∧
      (∀ pos var, pos ≠ D.pos → b'.tensors pos var = b.tensors pos var) ∧
      (∀ var ∈ ["reco_xyz", "gen_xyz", "unc_xyz", "eff"], ∃ new : List (List Row),
        b'.tensors D.pos var = b.tensors D.pos var ++ new ∧
        new.map some = order.map (fun ip => ip.2.tensorAt (noise ip.1) b var) ∧
        new.length = D.panels.length ∧ ∀ t ∈ new, t.length = b.muons.length) ∧
      b'.tensors D.pos "gen_xyz" = b.tensors D.pos "gen_xyz" ++ order.map fun ip =>
        b.muons.map fun m => [XF.num (crossing m ip.2.z).1, XF.num (crossing m ip.2.z).2, XF.num ip.2.z] :=
  let ⟨b', h⟩ := layer_order argsort ha noise D b hp
  ⟨b', _, h⟩

/-- The error branch: the layer raises (ValueError) exactly when a panel cannot respond. -/
theorem layer_error (argsort : List ℝ → List Nat) (ha : IsArgsort argsort) (noise : Nat → Nat → ℝ × ℝ) (D : DetLayer) (b : Batch Row) :
    (∃ e, D.forward argsort noise b = .error e) ↔ ∃ p ∈ D.panels, ¬ p.CanRespond := by
  constructor
  · rintro ⟨e, he⟩
    by_contra hcon
    push Not at hcon
    obtain ⟨b', _, h, _⟩ := layer_spec argsort ha noise D b hcon
    rw [h] at he; simp at he
  · rintro ⟨p, hp, hn⟩
    refine ⟨.valueError, ?_⟩
    unfold DetLayer.forward
    rw [visit_error]
    obtain ⟨ip, hip, rfl⟩ := List.mem_map.mp ((zpanels_perm ha D).mem_iff.mpr hp)
    exact ⟨ip, hip, hn⟩

/-- A sort meeting the contract exists. -/
theorem argsort_exists : ∃ argsort, IsArgsort argsort := by
  classical
  refine ⟨fun zs => (List.range zs.length).mergeSort (fun i j => decide ((zs[i]?).getD 0 ≤ (zs[j]?).getD 0)), fun zs => ⟨List.mergeSort_perm _ _, ?_⟩⟩
  have := List.pairwise_mergeSort (le := fun i j => decide ((zs[i]?).getD 0 ≤ (zs[j]?).getD 0)) (l := List.range zs.length)
    (by intro a b c hab hbc; simp only [decide_eq_true_eq] at *; exact hab.trans hbc)
    (by intro a b; simp only [Bool.or_eq_true, decide_eq_true_eq]; exact le_total _ _)
  refine this.imp ?_
  intro i j h a b ha hb
  simpa [ha, hb] using h

/-- Non-vacuity: two panels listed bottom first, one slanted muon. -/
example : ∃ (argsort : List ℝ → List Nat) (b' : Batch Row),
    IsArgsort argsort ∧
    (⟨"above", (1, 1), 1, 1, [.panel ⟨.gauss, 1000, 1, 1, (0.5, 0.5), 0.2, (1, 1), 1, true, true⟩,
      .panel ⟨.sigmoid 1, 1000, 1, 1, (0.5, 0.5), 0.8, (1, 1), 1, true, true⟩]⟩ : DetLayer).forward argsort (fun _ _ => (0, 0))
      ⟨[⟨0, 0, 0, 1, 1, π / 4, 0⟩], [], [], []⟩ = .ok b' ∧
    b'.tensors "above" "gen_xyz" = [[[.num 0.2, .num 0, .num 0.8]], [[.num 0.8, .num 0, .num 0.2]]] := by
  obtain ⟨argsort, ha⟩ := argsort_exists
  set D : DetLayer := ⟨"above", (1, 1), 1, 1, [.panel ⟨.gauss, 1000, 1, 1, (0.5, 0.5), 0.2, (1, 1), 1, true, true⟩,
      .panel ⟨.sigmoid 1, 1000, 1, 1, (0.5, 0.5), 0.8, (1, 1), 1, true, true⟩]⟩ with hD
  obtain ⟨b', order, h1, hperm, hget, hs, -, -, -, -, -, hgen⟩ := layer_spec argsort ha (fun _ _ => (0, 0)) D
      ⟨[⟨0, 0, 0, 1, 1, π / 4, 0⟩], [], [], []⟩ (by simp [hD, AnyPanel.CanRespond, Panel.scaledSpan])
  refine ⟨argsort, b', ha, h1, ?_⟩
  rw [show D.pos = "above" from rfl] at hgen
  rw [hgen]
  have hlen : order.length = 2 := by simpa [hD] using hperm.length_eq
  match order, hlen with
  | [a, c], _ =>
    have ha' := hget a (by simp)
    have hc' := hget c (by simp)
    simp only [List.map_cons, List.map_nil, hD, List.length_cons, List.length_nil] at hperm
    have hcases : (a.1 = 0 ∧ c.1 = 1) ∨ (a.1 = 1 ∧ c.1 = 0) := by
      have e := hperm.mem_iff (a := 0)
      have e1 := hperm.mem_iff (a := 1)
      simp [List.range_succ] at e e1
      omega
    rcases hcases with ⟨h0, h1⟩ | ⟨h0, h1⟩
    · rw [h0] at ha'; rw [h1] at hc'
      simp [hD] at ha' hc'
      have : c.2.z ≤ a.2.z := by simpa using hs
      rw [← ha', ← hc'] at this
      norm_num [AnyPanel.z] at this
    · rw [h0] at ha'; rw [h1] at hc'
      simp [hD] at ha' hc'
      simp only [List.map_cons, List.map_nil, ← ha', ← hc']
      simp only [Batch.tensors, Dict.get?, crossing, AnyPanel.z, tan_pi_div_four, cos_zero, sin_zero, List.nil_append, List.map_cons, List.map_nil]
      norm_num

end C13

namespace C14

/-- one layer -/
theorem layer_conserves (argsort : List ℝ → List Nat) (ha : IsArgsort argsort) (rng : Nat → Nat → Draw) (noise : Nat → Nat → ℝ × ℝ) (fuel : Nat)
    (b b' : Batch Row) (l : AnyLayer) (h : Volume.layerForward argsort rng noise fuel b l = .ok (some b')) :
    (∀ m ∈ b'.muons, m.z = l.z - l.size) ∧ Conserves b b' ∧ b'.hist = b.hist := by
  cases l with
  | passive L => exact C10.delivers L rng fuel b b' h
  | detector D =>
    simp only [Volume.layerForward] at h
    by_cases hp : ∀ p ∈ D.panels, p.CanRespond
    · obtain ⟨b1, _, h1, _, _, _, hm, hr, hh, _⟩ := C13.layer_spec argsort ha noise D b hp
      rw [h1] at h
      simp only [Except.ok.injEq, Option.some.injEq] at h
      subst h
      refine ⟨?_, ?_, hh⟩
      · intro m hmm
        rw [hm, List.mem_map] at hmm
        obtain ⟨m0, _, rfl⟩ := hmm
        rfl
      · have hk : b1.muons.map MuonOf.key = b.muons.map MuonOf.key := by
          rw [hm, List.map_map]; rfl
        exact ⟨by rw [hk, hr], by rw [hk], by rw [hr]⟩
    · push Not at hp
      obtain ⟨e, he⟩ := (C13.layer_error argsort ha noise D b).mpr hp
      rw [he] at h; simp at h

/-- The chain of batches through a list of layers: each layer once, in order, each followed by one snapshot. -/
inductive Chain (argsort : List ℝ → List Nat) (rng : Nat → Nat → Nat → Draw) (noise : Nat → Nat → Nat → ℝ × ℝ) (fuel : Nat) :
    Nat → List AnyLayer → Batch Row → Batch Row → Prop
  | done (i b) : Chain argsort rng noise fuel i [] b b
  | next (i l ls b b1 b2) (h1 : Volume.layerForward argsort (rng i) (noise i) fuel b l = .ok (some b1))
      (h2 : Chain argsort rng noise fuel (i + 1) ls { b1 with hist := b1.hist ++ [b1.muons.map fun m => (m.x, m.y, m.z)] } b2) :
      Chain argsort rng noise fuel i (l :: ls) b b2

theorem chain_of_run (argsort : List ℝ → List Nat) (rng : Nat → Nat → Nat → Draw) (noise : Nat → Nat → Nat → ℝ × ℝ) (fuel : Nat) :
    ∀ (ls : List AnyLayer) (i : Nat) (b b' : Batch Row), Volume.runLayers argsort rng noise fuel i ls b = .ok (some b') →
      Chain argsort rng noise fuel i ls b b'
  | [], i, b, b', h => by
    simp [Volume.runLayers] at h; subst h; exact .done i b
  | l :: ls, i, b, b', h => by
    unfold Volume.runLayers at h
    cases hl : Volume.layerForward argsort (rng i) (noise i) fuel b l with
    | error e => rw [hl] at h; simp at h
    | ok r =>
      rw [hl] at h
      cases r with
      | none => simp at h
      | some b1 => exact .next i l ls b b1 b' hl (chain_of_run argsort rng noise fuel ls (i + 1) _ b' h)

theorem chain_spec (argsort : List ℝ → List Nat) (ha : IsArgsort argsort) (rng : Nat → Nat → Nat → Draw) (noise : Nat → Nat → Nat → ℝ × ℝ)
    (fuel : Nat) (i : Nat) (ls : List AnyLayer) (b b' : Batch Row) (h : Chain argsort rng noise fuel i ls b b') :
    Conserves b b' ∧ (∃ snaps, b'.hist = b.hist ++ snaps ∧ snaps.length = ls.length ∧
      ∀ sl ∈ snaps.zip ls, ∀ q ∈ sl.1, q.2.2 = sl.2.z - sl.2.size) ∧
      ∀ l, ls.getLast? = some l → (∀ m ∈ b'.muons, m.z = l.z - l.size) ∧ b'.hist.getLast? = some (b'.muons.map fun m => (m.x, m.y, m.z)) := by
  induction h with
  | done i b => exact ⟨Conserves.refl b, ⟨[], by simp, rfl, by simp⟩, by simp⟩
  | next i l ls b b1 b2 h1 h2 ih =>
    obtain ⟨hz, hc, hh⟩ := layer_conserves argsort ha (rng i) (noise i) fuel b b1 l h1
    obtain ⟨ic, ⟨snaps, is, il, iz⟩, ilast⟩ := ih
    refine ⟨hc.trans ⟨ic.perm, ic.order, ic.gone⟩, ⟨(b1.muons.map fun m => (m.x, m.y, m.z)) :: snaps, ?_, by simp [il], ?_⟩, ?_⟩
    · rw [is, hh]; simp
    · intro sl hsl q hq
      simp only [List.zip_cons_cons, List.mem_cons] at hsl
      rcases hsl with rfl | hsl
      · simp only [List.mem_map] at hq
        obtain ⟨m, hm, rfl⟩ := hq
        exact hz m hm
      · exact iz sl hsl q hq
    · intro l' hl'
      cases ls with
      | nil =>
        simp at hl'; subst hl'
        cases h2
        exact ⟨hz, by simp⟩
      | cons a as =>
        rw [List.getLast?_cons_cons] at hl'
        exact ilast l' hl'

/-- **C14.** Whenever the passage of a batch through a volume returns: the budget was applied first, then every layer once and in order, each
followed by one snapshot of the positions; snapshot `i` has all muons at the bottom of layer `i`; in the end all muons are at the bottom of the last
layer; no muon was created or lost. -/
theorem forward_spec (argsort : List ℝ → List Nat) (ha : IsArgsort argsort) (rng : Nat → Nat → Nat → Draw) (noise : Nat → Nat → Nat → ℝ × ℝ)
    (fuel : Nat) (V V' : Volume) (b b' : Batch Row) (h : V.forward argsort rng noise fuel b = .ok (V', some b')) :
    V.assignBudget argsort = .ok V' ∧ Chain argsort rng noise fuel 0 V'.layers b b' ∧ Conserves b b' ∧
    (∃ snaps, b'.hist = b.hist ++ snaps ∧ snaps.length = V'.layers.length ∧
      ∀ sl ∈ snaps.zip V'.layers, ∀ q ∈ sl.1, q.2.2 = sl.2.z - sl.2.size) ∧
    ∀ l, V'.layers.getLast? = some l → (∀ m ∈ b'.muons, m.z = l.z - l.size) ∧
      b'.hist.getLast? = some (b'.muons.map fun m => (m.x, m.y, m.z)) := by
  unfold Volume.forward at h
  cases hv : V.assignBudget argsort with
  | error e => rw [hv] at h; simp at h
  | ok W =>
    rw [hv] at h
    simp only at h
    cases hr : Volume.runLayers argsort rng noise fuel 0 W.layers b with
    | error e => rw [hr] at h; simp at h
    | ok r =>
      rw [hr] at h
      simp only [Except.ok.injEq, Prod.mk.injEq] at h
      obtain ⟨rfl, rfl⟩ := h
      have hc := chain_of_run argsort rng noise fuel W.layers 0 b b' hr
      exact ⟨rfl, hc, chain_spec argsort ha rng noise fuel 0 W.layers b b' hc⟩

/-- Non-vacuity: a detector over an empty passive layer; a run that returns. -/
example : ∃ argsort V' b', IsArgsort argsort ∧
    (⟨[.detector ⟨"above", (1, 1), 2, 1, []⟩, .passive ⟨(1, 1), 1, 1, 2, "pdg", none⟩], none, [], []⟩ : Volume).forward argsort
      (fun _ _ _ => ⟨0, 0, 0, 0⟩) (fun _ _ _ => (0, 0)) 5 ⟨[⟨0, 0.5, 0.5, 3, 1, 0, 0⟩], [], [], []⟩ = .ok (V', some b') ∧ b'.hist.length = 2 := by
  obtain ⟨argsort, ha⟩ := C13.argsort_exists
  obtain ⟨b1, _, h1, _, _, _, hm, _, hh, _⟩ := C13.layer_spec argsort ha (fun _ _ => (0, 0)) ⟨"above", (1, 1), 2, 1, []⟩
    ⟨[⟨0, 0.5, 0.5, 3, 1, 0, 0⟩], [], [], []⟩ (by simp)
  obtain ⟨b2, h2⟩ := C11.empty_terminates ⟨(1, 1), 1, 1, 2, "pdg", none⟩ rfl (fun _ _ => ⟨0, 0, 0, 0⟩) b1.snapshot 1 5 (by norm_num) (by norm_num)
    (by simp [Batch.snapshot, hm, atHeight]) (by norm_num)
  set V : Volume := ⟨[.detector ⟨"above", (1, 1), 2, 1, []⟩, .passive ⟨(1, 1), 1, 1, 2, "pdg", none⟩], none, [], []⟩ with hV
  have hr : V.forward argsort (fun _ _ _ => ⟨0, 0, 0, 0⟩) (fun _ _ _ => (0, 0)) 5 ⟨[⟨0, 0.5, 0.5, 3, 1, 0, 0⟩], [], [], []⟩ =
      .ok (V, some b2.snapshot) := by
    simp only [hV, Volume.forward, Volume.assignBudget, Volume.runLayers, Volume.layerForward, h1, h2]
  refine ⟨argsort, _, _, ha, hr, ?_⟩
  obtain ⟨_, _, _, ⟨s, hs, hl, _⟩, _⟩ := forward_spec argsort ha _ _ _ _ _ _ _ hr
  rw [hs]; simpa [hV] using hl

end C14

end

end Tomopt
