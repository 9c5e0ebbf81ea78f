import Verif.Spec.ExchangeHits
import Verif.Lemmas.Exchange

/- Helper lemmas: what detectors record when the horizontal axes are exchanged. -/
namespace Tomopt

noncomputable section
open Real

namespace Exchange

theorem exPanel_z (p : AnyPanel) : (exPanel p).z = p.z := by cases p <;> rfl

theorem exPanel_respond (p : AnyPanel) (h : p.CanRespond) : (exPanel p).CanRespond := by
  cases p with
  | panel p => exact fun h1 h2 => (h h1 h2).symm
  | heatmap h => trivial

theorem inWindow_sw {l h : ℝ × ℝ} {m m' : Muon} (hm : Sw m m') : Batch.inWindow (some (l.2, l.1)) (some (h.2, h.1)) m' = Batch.inWindow (some l) (some h) m := by
  simp only [Batch.inWindow, hm.x, hm.y]
  cases decide (m.x ≥ l.1) <;> cases decide (m.x < h.1) <;> cases decide (m.y ≥ l.2) <;> cases decide (m.y < h.2) <;> rfl

theorem idsL_sw {b c : List Muon} (h : List.Forall₂ Sw b c) : c.map (·.id) = b.map (·.id) := by
  induction h with
  | nil => rfl
  | cons h _ ih => rw [List.map_cons, List.map_cons, ih, h.id]

theorem ids_sw {b c : Batch Row} (h : List.Forall₂ Sw b.muons c.muons) : c.ids = b.ids := idsL_sw h

theorem map_sw {b c : List Muon} (h : List.Forall₂ Sw b c) (f f' : Muon → Row) (w : Row → Row) (hfg : ∀ m m', Sw m m' → f' m' = w (f m)) : c.map f' = (b.map f).map w := by
  induction h with
  | nil => rfl
  | cons h _ ih => rw [List.map_cons, List.map_cons, List.map_cons, ih, hfg _ _ h]

theorem density_sw (h : Heatmap) (q : ℝ × ℝ) :
    Heatmap.density { h with xyFix := (h.xyFix.2, h.xyFix.1), xySpanFix := (h.xySpanFix.2, h.xySpanFix.1), mu := h.mu.map fun m => (m.2, m.1), sig := h.sig.map fun s => (s.2, s.1) } (q.2, q.1) = h.density q := by
  simp only [Heatmap.density, List.length_map]
  rw [List.zip_map, List.map_map]
  congr 2
  simp only [Function.comp_def, Prod.map, add_comm]

theorem gmm_sw (h : Heatmap) (q : ℝ × ℝ) :
    Heatmap.gmm { h with xyFix := (h.xyFix.2, h.xyFix.1), xySpanFix := (h.xySpanFix.2, h.xySpanFix.1), mu := h.mu.map fun m => (m.2, m.1), sig := h.sig.map fun s => (s.2, s.1) } (q.2, q.1) = h.gmm q := by
  simp only [Heatmap.gmm, density_sw, Heatmap.peak, List.map_map, Function.comp_def]

/-- what a panel records -/
theorem tensor_sw (p : AnyPanel) (hc : p.CanRespond) (noise : Nat → ℝ × ℝ) (b c : Batch Row) (h : List.Forall₂ Sw b.muons c.muons) (var : String) :
    (exPanel p).tensorAt (fun k => ((noise k).2, (noise k).1)) c var = (p.tensorAt noise b var).map fun t => t.map (swRow var) := by
  have hz := exPanel_z p
  have h' : List.Forall₂ Sw (b.atHeight p.z).muons (c.atHeight p.z).muons := forall₂_map h fun m _ m' hm => atHeight_sw hm _
  have four : ∀ (bs cs : List Muon), List.Forall₂ Sw bs cs → ∀ (f1 f2 f3 f4 g1 g2 g3 g4 : Muon → Row), (∀ m m', Sw m m' → g1 m' = swRow "reco_xyz" (f1 m)) → (∀ m m', Sw m m' → g2 m' = swRow "gen_xyz" (f2 m)) →
      (∀ m m', Sw m m' → g3 m' = swRow "unc_xyz" (f3 m)) → (∀ m m', Sw m m' → g4 m' = swRow "eff" (f4 m)) →
      Dict.get? [("reco_xyz", cs.map g1), ("gen_xyz", cs.map g2), ("unc_xyz", cs.map g3), ("eff", cs.map g4)] var =
        (Dict.get? [("reco_xyz", bs.map f1), ("gen_xyz", bs.map f2), ("unc_xyz", bs.map f3), ("eff", bs.map f4)] var).map fun t => t.map (swRow var) := by
    intro bs cs hbc f1 f2 f3 f4 g1 g2 g3 g4 e1 e2 e3 e4
    rw [map_sw hbc f1 g1 _ e1, map_sw hbc f2 g2 _ e2, map_sw hbc f3 g3 _ e3, map_sw hbc f4 g4 _ e4]
    simp only [Dict.get?]
    split
    · rename_i hv; rw [← hv]; rfl
    · split
      · rename_i hv; rw [← hv]; rfl
      · split
        · rename_i hv; rw [← hv]; rfl
        · split
          · rename_i hv; rw [← hv]; rfl
          · rfl
  have hc' := exPanel_respond p hc
  unfold AnyPanel.tensorAt
  rw [hz]
  cases p with
  | panel p =>
    set p' : Panel := { p with xy := (p.xy.2, p.xy.1), span := (p.span.2, p.span.1) } with hp'
    have e1 := (p.getHits_cases noise (b.atHeight p.z)).resolve_right fun h => h.1 hc
    have e2 := (p'.getHits_cases (fun k => ((noise k).2, (noise k).1)) (c.atHeight p.z)).resolve_right fun h => h.1 hc'
    have e3 : (AnyPanel.panel p).getHits noise (b.atHeight (AnyPanel.panel p).z) = p.getHits noise (b.atHeight p.z) := rfl
    have e4 : (exPanel (AnyPanel.panel p)).getHits (fun k => ((noise k).2, (noise k).1)) (c.atHeight (AnyPanel.panel p).z) = p'.getHits (fun k => ((noise k).2, (noise k).1)) (c.atHeight p.z) := rfl
    rw [e3, e4, e1.2, e2.2]
    simp only
    have hw : ∀ m m', Sw m m' → Batch.inWindow (some p'.low) (some p'.high) m' = Batch.inWindow (some p.low) (some p.high) m := fun m m' hm => inWindow_sw (l := p.low) (h := p.high) hm
    have hres : ∀ (q : ℝ × ℝ) (i : Bool), p'.resAt (q.2, q.1) i = ((p.resAt q i).2, (p.resAt q i).1) := by
      intro q i
      have hcont : p'.continuous = p.continuous := rfl
      simp only [Panel.resAt, hcont]
      cases p.continuous <;> cases i <;> rfl
    refine four _ _ h' _ _ _ _ _ _ _ _ ?_ ?_ ?_ ?_
    · intro m m' hm
      rw [hw m m' hm, hm.x, hm.y, hm.id]
      have := hres (m.x, m.y) (Batch.inWindow (some p.low) (some p.high) m)
      simp only at this
      simp only [Panel.hitReco, this]
      rfl
    · intro m m' hm
      rw [hm.x, hm.y]
      rfl
    · intro m m' hm
      rw [hw m m' hm, hm.x, hm.y]
      have := hres (m.x, m.y) (Batch.inWindow (some p.low) (some p.high) m)
      simp only at this
      simp only [Panel.hitUnc, this]
      rfl
    · intro m m' hm
      rw [hw m m' hm, hm.x, hm.y]
      have hcont : p'.continuous = p.continuous := rfl
      simp only [Panel.hitEff, swRow, if_true, Panel.effAt, hcont]
      cases p.continuous
      · rfl
      · simp only [if_true, hp', Panel.scaledSpan, mul_comm]
  | heatmap g =>
    set g' : Heatmap := { g with xyFix := (g.xyFix.2, g.xyFix.1), xySpanFix := (g.xySpanFix.2, g.xySpanFix.1), mu := g.mu.map fun m => (m.2, m.1), sig := g.sig.map fun s => (s.2, s.1) } with hg'
    have e3 : (AnyPanel.heatmap g).getHits noise (b.atHeight (AnyPanel.heatmap g).z) = .ok (g.getHits noise (b.atHeight g.z)) := rfl
    have e4 : (exPanel (AnyPanel.heatmap g)).getHits (fun k => ((noise k).2, (noise k).1)) (c.atHeight (AnyPanel.heatmap g).z) = .ok (g'.getHits (fun k => ((noise k).2, (noise k).1)) (c.atHeight g.z)) := rfl
    rw [e3, e4]
    simp only [Heatmap.getHits]
    have hw : ∀ m m', Sw m m' → Batch.inWindow (some (g'.xyFix.1 - rangeMult * g'.deltaXy, g'.xyFix.2 - rangeMult * g'.deltaXy)) (some (g'.xyFix.1 + rangeMult * g'.deltaXy, g'.xyFix.2 + rangeMult * g'.deltaXy)) m' =
        Batch.inWindow (some (g.xyFix.1 - rangeMult * g.deltaXy, g.xyFix.2 - rangeMult * g.deltaXy)) (some (g.xyFix.1 + rangeMult * g.deltaXy, g.xyFix.2 + rangeMult * g.deltaXy)) m := fun m m' hm =>
      inWindow_sw (l := (g.xyFix.1 - rangeMult * g.deltaXy, g.xyFix.2 - rangeMult * g.deltaXy)) (h := (g.xyFix.1 + rangeMult * g.deltaXy, g.xyFix.2 + rangeMult * g.deltaXy)) hm
    have hgm : ∀ q : ℝ × ℝ, g'.gmm (q.2, q.1) = g.gmm q := fun q => gmm_sw g q
    have hres : ∀ (q : ℝ × ℝ) (i : Bool), g'.resAt (q.2, q.1) i = ((g.resAt q i).2, (g.resAt q i).1) := by
      intro q i
      simp only [Heatmap.resAt, hgm]
      have : g'.continuous = g.continuous := rfl
      rw [this]
      split
      · rfl
      · split <;> rfl
    refine four _ _ h' _ _ _ _ _ _ _ _ ?_ ?_ ?_ ?_
    · intro m m' hm
      rw [hw m m' hm, hm.x, hm.y, hm.id]
      have := hres (m.x, m.y)
      simp only at this
      simp only [this]
      rfl
    · intro m m' hm
      rw [hm.x, hm.y]
      rfl
    · intro m m' hm
      rw [hw m m' hm, hm.x, hm.y]
      have := hres (m.x, m.y)
      simp only at this
      simp only [this]
      rfl
    · intro m m' hm
      rw [hw m m' hm, hm.x, hm.y]
      have := hgm (m.x, m.y)
      simp only at this
      simp only [swRow, if_true, Heatmap.effAt, this]
      rfl

/-- Both batches hold rows of one common record, in the second with the axes exchanged. -/
def SharedSw (b c : Batch Row) (pos var : String) : Prop :=
  ∃ log : List (List (Nat × Row)), C01.Inv b pos var log ∧ C01.Inv c pos var (log.map fun r => r.map fun x => (x.1, swRow var x.2))

theorem lookup_map (w : Row → Row) (i : Nat) : ∀ r : List (Nat × Row), List.lookup i (r.map fun x => (x.1, w x.2)) = (List.lookup i r).map w
  | [] => rfl
  | (k, x) :: r => by
    simp only [List.map_cons, List.lookup_cons]
    cases i == k
    · exact lookup_map w i r
    · rfl

theorem SharedSw.tensors {b c : Batch Row} {pos var : String} (hi : c.ids = b.ids) (h : SharedSw b c pos var) : c.tensors pos var = (b.tensors pos var).map fun t => t.map (swRow var) := by
  obtain ⟨log, l1, l2⟩ := h
  unfold C01.Inv at l1 l2
  rw [hi, List.map_map] at l2
  have inj : Function.Injective (List.map (List.map (some : Row → Option Row))) := List.map_injective_iff.mpr (List.map_injective_iff.mpr (Option.some_injective _))
  apply inj
  refine l2.trans ?_
  have := congrArg (List.map (List.map (Option.map (swRow var)))) l1
  rw [List.map_map, List.map_map] at this
  rw [List.map_map]
  refine Eq.trans ?_ (this.symm.trans ?_)
  · apply List.map_congr_left
    intro r _
    simp only [Function.comp_def, List.map_map]
    apply List.map_congr_left
    intro i _
    exact lookup_map _ i r
  · apply List.map_congr_left
    intro t _
    simp [Function.comp_def]

theorem zpanels_sw (argsort : List ℝ → List Nat) (D : DetLayer) (lw : ℝ × ℝ) : DetLayer.zpanels argsort { D with lw := lw, panels := D.panels.map exPanel } = (D.zpanels argsort).map fun ip => (ip.1, exPanel ip.2) := by
  have hz : DetLayer.zorder argsort { D with lw := lw, panels := D.panels.map exPanel } = D.zorder argsort := by
    simp only [DetLayer.zorder, List.map_map]
    congr 2
    exact List.map_congr_left fun p _ => exPanel_z p
  simp only [DetLayer.zpanels, hz, List.map_filterMap]
  apply List.filterMap_congr
  intro i _
  simp only [List.getElem?_map, Option.map_map]
  rfl

theorem inv_new {b : Batch Row} (hn : b.ids.Nodup) (ts : List (List Row)) (hl : ∀ t ∈ ts, t.length = b.muons.length) : ts.map (fun t => t.map some) = (ts.map fun t => b.ids.zip t).map fun r => b.ids.map fun i => List.lookup i r := by
  rw [List.map_map]
  apply List.map_congr_left
  intro t ht
  exact (lookup_zip_self hn (by rw [hl t ht]; simp [Batch.ids])).symm

theorem shared_detector_sw (argsort : List ℝ → List Nat) (ha : IsArgsort argsort) (noise : Nat → Nat → ℝ × ℝ) (D : DetLayer) (b b' c c' : Batch Row) (h : List.Forall₂ Sw b.muons c.muons) (hn : b.ids.Nodup)
    (hb : D.forward argsort noise b = .ok b') (hc : DetLayer.forward argsort (fun j k => ((noise j k).2, (noise j k).1)) { D with lw := (D.lw.2, D.lw.1), panels := D.panels.map exPanel } c = .ok c') (pos var : String)
    (hs : SharedSw b c pos var) : SharedSw b' c' pos var := by
  obtain ⟨ib, hp, tb⟩ := detector_tensors argsort ha noise D b b' hb
  obtain ⟨ic, _, tc⟩ := detector_tensors argsort ha _ _ c c' hc
  have hid := ids_sw h
  obtain ⟨log, l1, l2⟩ := hs
  unfold C01.Inv at l1 l2
  by_cases hpos : pos = D.pos
  · have hr : ∀ ip ∈ D.zpanels argsort, ip.2.CanRespond := fun ip hip => hp ip.2 ((zpanels_perm ha D).mem_iff.mp (List.mem_map.mpr ⟨ip, hip, rfl⟩))
    set ts := (D.zpanels argsort).filterMap (fun ip => ip.2.tensorAt (noise ip.1) b var) with hts
    have hl : ∀ t ∈ ts, t.length = b.muons.length := by
      intro t ht
      obtain ⟨ip, hip, he⟩ := List.mem_filterMap.mp ht
      rcases rowwise ip.2 (noise ip.1) (hr ip hip) var with ⟨f, hf⟩ | hf
      · rw [hf b] at he
        rw [← Option.some.inj he]
        simp
      · rw [hf b] at he; simp at he
    have htc : ((DetLayer.zpanels argsort { D with lw := (D.lw.2, D.lw.1), panels := D.panels.map exPanel }).filterMap fun ip => ip.2.tensorAt (fun k => ((noise ip.1 k).2, (noise ip.1 k).1)) c var) = ts.map fun t => t.map (swRow var) := by
      rw [zpanels_sw, List.filterMap_map, hts, List.map_filterMap]
      apply List.filterMap_congr
      intro ip hip
      exact tensor_sw ip.2 (hr ip hip) (noise ip.1) b c h var
    refine ⟨log ++ ts.map fun t => b.ids.zip t, ?_, ?_⟩
    · unfold C01.Inv
      rw [tb, if_pos hpos, List.map_append, List.map_append, ib, l1, inv_new hn ts hl]
    · unfold C01.Inv
      rw [tc, if_pos hpos, htc, List.map_append, List.map_append, List.map_append, ic, l2]
      congr 1
      have hn' : c.ids.Nodup := by rw [hid]; exact hn
      have hl' : ∀ t ∈ ts.map fun t => t.map (swRow var), t.length = c.muons.length := by
        intro t ht
        obtain ⟨u, hu, rfl⟩ := List.mem_map.mp ht
        rw [List.length_map, hl u hu, h.length_eq]
      rw [inv_new hn' _ hl', hid]
      congr 1
      rw [List.map_map, List.map_map]
      apply List.map_congr_left
      intro t _
      simp only [Function.comp_def]
      rw [← List.map_id b.ids, List.zip_map, List.map_id]
      rfl
  · refine ⟨log, ?_, ?_⟩
    · unfold C01.Inv
      rw [tb, if_neg hpos, List.append_nil, ib, l1]
    · unfold C01.Inv
      rw [tc, if_neg hpos, List.append_nil, ic, l2]

theorem runLayers_hits (argsort : List ℝ → List Nat) (ha : IsArgsort argsort) (momenta : List ℝ) (rng : Nat → Nat → Nat → Draw) (noise : Nat → Nat → Nat → ℝ × ℝ) (fuel : Nat) (ls ls' : List AnyLayer) (hls : List.Forall₂ ExD ls ls') :
    ∀ (i : Nat) (b b' c : Batch Row), (∀ L, .passive L ∈ ls → ∀ i k j, Free L momenta (rng i k j)) → (∀ m ∈ b.muons, m.p ∈ momenta) → (b.muons.map (·.id)).Nodup → List.Forall₂ Sw b.muons c.muons →
    (∀ pos var, SharedSw b c pos var) → HitsOk b.muons.length b.hits → HitsOk c.muons.length c.hits → Volume.runLayers argsort rng noise fuel i ls b = .ok (some b') →
    ∃ rng', (∀ i k j, Mirrored (rng i k j) (rng' i k j)) ∧ ∃ c', Volume.runLayers argsort rng' (swNoise noise) fuel i ls' c = .ok (some c') ∧ List.Forall₂ Sw b'.muons c'.muons ∧ (∀ pos var, SharedSw b' c' pos var) ∧
      HitsOk b'.muons.length b'.hits ∧ HitsOk c'.muons.length c'.hits ∧ b'.ids.Nodup := by
  induction hls with
  | nil =>
    intro i b b' c _ _ hn h hh ho ho' hr
    simp only [Volume.runLayers, Except.ok.injEq, Option.some.injEq] at hr
    subst hr
    exact ⟨fun i k j => swDraw False (rng i k j), fun i k j => mirrored_sw _ _, c, rfl, h, hh, ho, ho', hn⟩
  | @cons l l' ls ls' hl _ ih =>
    intro i b b' c hfree hp hn h hh ho ho' hr
    have hr0 := hr
    unfold Volume.runLayers at hr
    have step : ∀ b1, Volume.layerForward argsort (rng i) (noise i) fuel b l = .ok (some b1) → ∃ ri, (∀ k j, Mirrored (rng i k j) (ri k j)) ∧ ∃ c1, Volume.layerForward argsort ri (swNoise noise i) fuel c l' = .ok (some c1) ∧
        List.Forall₂ Sw b1.muons c1.muons ∧ (∀ m ∈ b1.muons, m.p ∈ momenta) ∧ (b1.muons.map (·.id)).Nodup ∧ (∀ pos var, SharedSw b1 c1 pos var) ∧ HitsOk b1.muons.length b1.hits ∧ HitsOk c1.muons.length c1.hits := by
      intro b1 h1
      cases hl with
      | passive L L' hL hs =>
        obtain ⟨ri, e0, c1, e1, e2, e3, e4⟩ := forward_sw hL hs momenta (rng i) (hfree L (by simp) i) fuel b b1 c hp hn h h1
        obtain ⟨k1, -⟩ := carries_forward L (rng i) fuel b b1 h1
        obtain ⟨k2, -⟩ := carries_forward L' ri fuel c c1 e1
        refine ⟨ri, e0, c1, e1, e2, e3, e4, ?_, k1.ok ho, k2.ok ho'⟩
        intro pos var
        obtain ⟨log, l1, l2⟩ := hh pos var
        exact ⟨log, k1.log _ _ _ l1, k2.log _ _ _ l2⟩
      | detector D =>
        have hD := run_responds argsort ha rng noise fuel _ i b b' hr0 D (by simp)
        have hD' : ∀ p ∈ D.panels.map exPanel, p.CanRespond := by
          intro p hp
          obtain ⟨q, hq, rfl⟩ := List.mem_map.mp hp
          exact exPanel_respond q (hD q hq)
        obtain ⟨b2, _, f1, _, _, _, m1, _, g1, _⟩ := C13.layer_spec argsort ha (noise i) D b hD
        obtain ⟨c2, _, f2, _, _, _, m2, _, g2, _⟩ := C13.layer_spec argsort ha (swNoise noise i) { D with lw := (D.lw.2, D.lw.1), panels := D.panels.map exPanel } c hD'
        simp only [Volume.layerForward, f1, Except.ok.injEq, Option.some.injEq] at h1
        subst h1
        refine ⟨fun k j => swDraw False (rng i k j), fun k j => mirrored_sw _ _, c2, by simp only [Volume.layerForward, f2], ?_, ?_, ?_, ?_, ?_, ?_⟩
        · rw [m1, m2]
          exact forall₂_map h fun m _ m' hm => atHeight_sw hm _
        · rw [m1]
          intro m hm
          obtain ⟨n, hn1, rfl⟩ := List.mem_map.mp hm
          exact hp n hn1
        · rw [m1, List.map_map]
          exact hn
        · intro pos var
          exact shared_detector_sw argsort ha (noise i) D b b2 c c2 h hn f1 f2 pos var (hh pos var)
        · obtain ⟨zs, -, -, sn⟩ := seen_layer argsort ha (noise i) D b b2 f1
          exact sn.ok ho
        · obtain ⟨zs, -, -, sn⟩ := seen_layer argsort ha (swNoise noise i) _ c c2 f2
          exact sn.ok ho'
    cases hb : Volume.layerForward argsort (rng i) (noise i) fuel b l with
    | error e => rw [hb] at hr; simp at hr
    | ok r =>
      cases r with
      | none => rw [hb] at hr; simp at hr
      | some b1 =>
        rw [hb] at hr
        simp only at hr
        obtain ⟨ri, r0, c1, r1, r2, r3, r4, r5, r6, r7⟩ := step b1 hb
        obtain ⟨rs, s0, c', s1, s2, s3, s4, s5, s6⟩ := ih (i + 1) b1.snapshot b' c1.snapshot (fun L hL => hfree L (by simp [hL])) r3 r4 r2
          (fun pos var => by obtain ⟨log, l1, l2⟩ := r5 pos var; exact ⟨log, l1, l2⟩) r6 r7 hr
        refine ⟨fun j => if j = i then ri else rs j, ?_, c', ?_, s2, s3, s4, s5, s6⟩
        · intro j k n
          by_cases hj : j = i
          · subst hj
            simp only [if_true]
            exact r0 k n
          · simp only [hj, if_false]
            exact s0 j k n
        · unfold Volume.runLayers
          simp only [if_true, r1]
          rw [runLayers_congr argsort _ rs (swNoise noise) fuel ls' (i + 1) c1.snapshot fun j hj => if_neg (by omega)]
          exact s1

end Exchange

end

end Tomopt
