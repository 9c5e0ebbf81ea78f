import Verif.Lemmas.TrueTracks

/- Helper lemmas: everything ordinary panels record about a muon that passes a telescope. -/
namespace Tomopt

noncomputable section
open Real Scatter

/-- is the muon inside the panel when it reaches the panel's height? -/
def Panel.inside (p : Panel) (m : Muon) : Bool := Batch.inWindow (some p.low) (some p.high) (atHeight p.z m)

/-- the row recorded under `var` by a panel for a muon, with noise `n` -/
def Panel.note (p : Panel) (n : ℝ × ℝ) (m : Muon) (var : String) : Row :=
  if var = "reco_xyz" then p.hitReco (crossing m p.z) n (p.inside m)
  else if var = "gen_xyz" then p.hitGen (crossing m p.z)
  else if var = "unc_xyz" then p.hitUnc (crossing m p.z) (p.inside m)
  else p.hitEff (crossing m p.z) (p.inside m)

theorem tensorAt_panel (p : Panel) (noise : Nat → ℝ × ℝ) (b : Batch Row) (hc : (AnyPanel.panel p).CanRespond) (var : String)
    (hv : var ∈ ["reco_xyz", "gen_xyz", "unc_xyz", "eff"]) :
    (AnyPanel.panel p).tensorAt noise b var = some (b.muons.map fun m => p.note (noise m.id) m var) := by
  unfold AnyPanel.tensorAt
  rcases p.getHits_cases noise (b.atHeight p.z) with ⟨_, h⟩ | ⟨hn, _⟩
  · rw [show (AnyPanel.panel p).getHits noise (b.atHeight (AnyPanel.panel p).z) = p.getHits noise (b.atHeight p.z) from rfl, h]
    simp only [List.mem_cons, List.not_mem_nil, or_false] at hv
    rcases hv with rfl | rfl | rfl | rfl <;> simp only [Dict.get?, Batch.atHeight, List.map_map] <;> rfl
  · exact absurd hc hn

/-- layer number, panel number in the layer, panel -/
abbrev Reader := Nat × Nat × Panel

/-- What a stretch of detector layers with ordinary panels records. -/
structure Read (noise : Nat → Nat → Nat → ℝ × ℝ) (pos : String) (rs : List Reader) (b b' : Batch Row) : Prop where
  seen : Seen pos (rs.map fun r => r.2.2.z) b b'
  notes : ∀ var ∈ ["reco_xyz", "gen_xyz", "unc_xyz", "eff"], b'.tensors pos var = b.tensors pos var ++
    rs.map fun r => b.muons.map fun m => r.2.2.note (noise r.1 r.2.1 m.id) m var

theorem crossing_congr {m m' : Muon} (h : ∀ z, atHeight z m' = atHeight z m) (z : ℝ) : crossing m' z = crossing m z := by
  have := h z
  exact Prod.ext (congrArg MuonOf.x this) (congrArg MuonOf.y this)

theorem note_congr (p : Panel) (n : Nat → ℝ × ℝ) (var : String) {m m' : Muon} (h : atHeight p.z m' = atHeight p.z m) :
    p.note (n m'.id) m' var = p.note (n m.id) m var := by
  have h1 : crossing m' p.z = crossing m p.z := Prod.ext (congrArg MuonOf.x h) (congrArg MuonOf.y h)
  have h2 : m'.id = m.id := by
    have := congrArg MuonOf.id h
    exact this
  unfold Panel.note Panel.inside
  rw [h1, h2, h]

theorem notes_congr (p : Panel) (n : Nat → ℝ × ℝ) (var : String) {ms ms' : List Muon} (h : ∀ z, ms'.map (atHeight z) = ms.map (atHeight z)) :
    ms'.map (fun m => p.note (n m.id) m var) = ms.map fun m => p.note (n m.id) m var := by
  have hl : ms'.length = ms.length := by simpa using congrArg List.length (h 0)
  apply List.ext_getElem (by simp [hl])
  intro i h1 h2
  simp only [List.getElem_map]
  simp only [List.length_map] at h1 h2
  apply note_congr
  have := congrArg (fun l : List Muon => l[i]?) (h p.z)
  simpa [h1, h2] using this

theorem Read.trans {noise : Nat → Nat → Nat → ℝ × ℝ} {pos : String} {rs qs : List Reader} {a b c : Batch Row} (h : Read noise pos rs a b) (k : Read noise pos qs b c) :
    Read noise pos (rs ++ qs) a c := by
  refine ⟨by rw [List.map_append]; exact h.seen.trans k.seen, fun var hv => ?_⟩
  rw [k.notes var hv, h.notes var hv, List.append_assoc, List.map_append]
  congr 2
  exact List.map_congr_left fun r _ => notes_congr r.2.2 (noise r.1 r.2.1) var h.seen.lines

/-- all panels of the layer are Gaussian or sigmoid panels -/
def Ordinary (D : DetLayer) : Prop := ∀ p ∈ D.panels, ∃ q, p = .panel q

/-- the readers of a layer, in the order in which muons meet them -/
def DetLayer.readers (argsort : List ℝ → List Nat) (i : Nat) (D : DetLayer) : List Reader :=
  (D.zpanels argsort).filterMap fun ip => match ip.2 with
    | .panel q => some (i, ip.1, q)
    | .heatmap _ => none

/-- the readers of consecutive layers -/
def readers (argsort : List ℝ → List Nat) : Nat → List DetLayer → List Reader
  | _, [] => []
  | i, D :: Ds => D.readers argsort i ++ readers argsort (i + 1) Ds

theorem readers_order (argsort : List ℝ → List Nat) (ha : IsArgsort argsort) (i : Nat) (D : DetLayer) (hD : Ordinary D) :
    D.zpanels argsort = (D.readers argsort i).map (fun r => (r.2.1, AnyPanel.panel r.2.2)) ∧ ∀ r ∈ D.readers argsort i, r.1 = i := by
  have hord : ∀ ip ∈ D.zpanels argsort, ∃ q, ip.2 = .panel q := fun ip hip => hD _ ((zpanels_perm ha D).mem_iff.mp (List.mem_map.mpr ⟨ip, hip, rfl⟩))
  unfold DetLayer.readers
  generalize D.zpanels argsort = order at hord
  induction order with
  | nil => simp
  | cons ip o ih =>
    obtain ⟨q, hq⟩ := hord ip (by simp)
    obtain ⟨e, hi⟩ := ih fun x hx => hord x (by simp [hx])
    obtain ⟨j, p⟩ := ip
    simp only at hq
    subst hq
    refine ⟨?_, ?_⟩
    · rw [List.filterMap_cons]
      simp only [List.map_cons]
      rw [← e]
    · intro r hr
      rw [List.filterMap_cons] at hr
      rcases List.mem_cons.mp hr with rfl | hr
      · rfl
      · exact hi r hr

theorem readers_perm (argsort : List ℝ → List Nat) (ha : IsArgsort argsort) (i : Nat) (D : DetLayer) (hD : Ordinary D) :
    ((D.readers argsort i).map fun r => AnyPanel.panel r.2.2).Perm D.panels := by
  have h := zpanels_perm ha D
  rw [(readers_order argsort ha i D hD).1, List.map_map] at h
  exact h

theorem readers_sorted (argsort : List ℝ → List Nat) (ha : IsArgsort argsort) (i : Nat) (D : DetLayer) (hD : Ordinary D) :
    ((D.readers argsort i).map fun r => r.2.2.z).Pairwise fun a c => c ≤ a := by
  have h := zpanels_sorted ha D
  rw [(readers_order argsort ha i D hD).1, List.pairwise_map] at h
  rw [List.pairwise_map]; exact h

/-- through one detector layer -/
theorem read_layer (argsort : List ℝ → List Nat) (ha : IsArgsort argsort) (noise : Nat → Nat → Nat → ℝ × ℝ) (i : Nat) (D : DetLayer) (hD : Ordinary D) (b b' : Batch Row)
    (h : D.forward argsort (noise i) b = .ok b') : Read noise D.pos (D.readers argsort i) b b' := by
  by_cases hp : ∀ p ∈ D.panels, p.CanRespond
  · obtain ⟨b1, h1, hperm, hget, hs, hm, hr, hh, hother, hvars, hgen⟩ := C13.layer_order argsort ha (noise i) D b hp
    have hb : b1 = b' := by rw [h1] at h; simpa using h
    subst hb
    obtain ⟨zs, -, -, sn⟩ := seen_layer argsort ha (noise i) D b b1 h
    obtain ⟨hrs', hi⟩ := readers_order argsort ha i D hD
    have ho2 := readers_perm argsort ha i D hD
    generalize D.readers argsort i = rs' at hrs' hi ho2
    have hlen : rs'.length = D.panels.length := by simpa using ho2.length_eq
    refine ⟨?_, ?_⟩
    · have hz : (D.zpanels argsort).map (fun ip => ip.2.z) = rs'.map fun r => r.2.2.z := by rw [hrs', List.map_map]; rfl
      refine ⟨sn.lines, sn.other, ?_, ?_, sn.ok, sn.shaped⟩
      · rw [hgen, ← hz, List.map_map]; rfl
      · intro var hv
        obtain ⟨new, e, _, hn, _⟩ := hvars var hv
        rw [e, List.length_append, hn, List.length_map, hlen]
    · intro var hv
      obtain ⟨new, e, e2, _⟩ := hvars var hv
      rw [e]
      congr 1
      have : new.map some = (rs'.map fun r => b.muons.map fun m => r.2.2.note (noise r.1 r.2.1 m.id) m var).map some := by
        rw [e2, hrs', List.map_map, List.map_map]
        apply List.map_congr_left
        intro r hr
        have hc : (AnyPanel.panel r.2.2).CanRespond := hp _ (ho2.mem_iff.mp (List.mem_map.mpr ⟨r, hr, rfl⟩))
        simp only [Function.comp]
        rw [tensorAt_panel r.2.2 (noise i r.2.1) b hc var hv, hi r hr]
      exact List.map_injective_iff.mpr (Option.some_injective _) this
  · push Not at hp
    obtain ⟨e, he⟩ := (C13.layer_error argsort ha (noise i) D b).mpr hp
    rw [he] at h; simp at h

theorem readers_stack (argsort : List ℝ → List Nat) (ha : IsArgsort argsort) : ∀ (Ds : List DetLayer) (i : Nat), (∀ D ∈ Ds, Ordinary D) → Stacked Ds →
    ((readers argsort i Ds).map fun r => AnyPanel.panel r.2.2).Perm (Ds.flatMap (·.panels)) ∧ ((readers argsort i Ds).map fun r => r.2.2.z).Pairwise (fun a c => c < a)
  | [], i, _, _ => ⟨by simp [readers], by simp [readers]⟩
  | D :: Ds, i, hord, hst => by
    have p1 := readers_perm argsort ha i D (hord D (by simp))
    have s1 := readers_sorted argsort ha i D (hord D (by simp))
    obtain ⟨p2, s2⟩ := readers_stack argsort ha Ds (i + 1) (fun E hE => hord E (by simp [hE])) ⟨fun E hE => hst.1 E (by simp [hE]), hst.2.of_cons⟩
    unfold readers
    generalize D.readers argsort i = rs at p1 s1
    generalize readers argsort (i + 1) Ds = qs at p2 s2
    have hz1 : (rs.map fun r => r.2.2.z).Perm D.heights := by
      have := p1.map AnyPanel.z
      rwa [List.map_map] at this
    have hz2 : (qs.map fun r => r.2.2.z).Perm (Ds.flatMap (·.heights)) := by
      have := p2.map AnyPanel.z
      rw [List.map_map, List.map_flatMap] at this
      exact this
    refine ⟨?_, ?_⟩
    · rw [List.flatMap_cons, List.map_append]; exact p1.append p2
    · rw [List.map_append, List.pairwise_append]
      refine ⟨?_, s2, ?_⟩
      · have hn : (rs.map fun r => r.2.2.z).Nodup := hz1.nodup_iff.mpr (hst.1 D (by simp))
        exact (s1.and hn).imp fun h => lt_of_le_of_ne h.1 (fun e => h.2 e.symm)
      · intro z hz w hw
        obtain ⟨E, hE, hwE⟩ := List.mem_flatMap.mp (hz2.mem_iff.mp hw)
        exact (List.pairwise_cons.mp hst.2).1 E hE z (hz1.mem_iff.mp hz) w hwE

theorem read_chain (argsort : List ℝ → List Nat) (rng : Nat → Nat → Nat → Draw) (noise : Nat → Nat → Nat → ℝ × ℝ) (fuel : Nat) (ha : IsArgsort argsort) (pos : String) :
    ∀ (Ds : List DetLayer) (i : Nat) (b b' : Batch Row), (∀ D ∈ Ds, D.pos = pos) → (∀ D ∈ Ds, Ordinary D) →
    C14.Chain argsort rng noise fuel i (Ds.map .detector) b b' → Read noise pos (readers argsort i Ds) b b'
  | [], i, b, b', _, _, h => by
    cases h
    exact ⟨⟨fun _ => rfl, fun _ _ _ => rfl, by simp [readers], fun _ _ => rfl, fun h => h, fun h => h⟩, by simp [readers]⟩
  | D :: Ds, i, b, b', hpos, hord, h => by
    cases h with
    | next _ _ _ _ b1 _ h1 h2 =>
      simp only [Volume.layerForward] at h1
      cases hf : D.forward argsort (noise i) b with
      | error e => rw [hf] at h1; simp at h1
      | ok b2 =>
        rw [hf] at h1
        simp only [Except.ok.injEq, Option.some.injEq] at h1
        subst h1
        have e1 := read_layer argsort ha noise i D (hord D (by simp)) b b2 hf
        have e2 := read_chain argsort rng noise fuel ha pos Ds (i + 1) _ b' (fun E hE => hpos E (by simp [hE])) (fun E hE => hord E (by simp [hE])) h2
        rw [hpos D (by simp)] at e1
        exact e1.trans ⟨⟨e2.seen.lines, e2.seen.other, e2.seen.gen, e2.seen.count, e2.seen.ok, e2.seen.shaped⟩, e2.notes⟩

theorem Sound.ordinary {D : DetLayer} (h : Sound D) : Ordinary D := fun p hp => let ⟨q, e, _⟩ := h p hp; ⟨q, e⟩

theorem assignLoop_sound (budget : List ℝ) : ∀ (js : List Nat) (i : Nat) (ps ps' : List AnyPanel), DetLayer.assignLoop budget js i ps = .ok ps' →
    (∀ p ∈ ps, ∃ q, p = AnyPanel.panel q ∧ 0 < q.res ∧ 0 < q.eff) → ∀ p ∈ ps', ∃ q, p = AnyPanel.panel q ∧ 0 < q.res ∧ 0 < q.eff
  | [], _, ps, ps', h, hs => by simp [DetLayer.assignLoop] at h; rw [← h]; exact hs
  | j :: js, i, ps, ps', h, hs => by
    unfold DetLayer.assignLoop at h
    split at h
    · rename_i p v hp hv
      cases hq : p.assignBudget (some v) with
      | error e => rw [hq] at h; simp at h
      | ok p' =>
        rw [hq] at h
        simp only at h
        refine assignLoop_sound budget js (i + 1) _ ps' h ?_
        intro x hx
        rcases List.mem_or_eq_of_mem_set hx with hx | hx
        · exact hs x hx
        · obtain ⟨q, rfl, h1, h2⟩ := hs p (List.mem_of_getElem? hp)
          simp [AnyPanel.assignBudget] at hq
          exact ⟨q.assignBudget (some v), by rw [hx, ← hq], h1, h2⟩
    · simp at h

theorem volume_assignLoop_sound (argsort : List ℝ → List Nat) (shares : List ℝ) (nCosts : List Nat) : ∀ (ls ls' : List AnyLayer) (bi li : Nat),
    Volume.assignLoop argsort shares nCosts bi li ls = .ok ls' → (∀ D, .detector D ∈ ls → Sound D) → ∀ D, .detector D ∈ ls' → Sound D
  | [], ls', bi, li, h, _ => by simp [Volume.assignLoop] at h; subst h; simp
  | .passive L :: ls, ls', bi, li, h, hs => by
    unfold Volume.assignLoop at h
    cases h1 : Volume.assignLoop argsort shares nCosts bi li ls with
    | error e => rw [h1] at h; simp at h
    | ok r =>
      rw [h1] at h
      simp at h; subst h
      intro D hD
      simp only [List.mem_cons, reduceCtorEq, false_or] at hD
      exact volume_assignLoop_sound argsort shares nCosts ls r bi li h1 (fun D hD => hs D (by simp [hD])) D hD
  | .detector D :: ls, ls', bi, li, h, hs => by
    unfold Volume.assignLoop at h
    cases hn : nCosts[li]? with
    | none => rw [hn] at h; simp at h
    | some n =>
      rw [hn] at h
      simp only at h
      unfold DetLayer.assignBudget at h
      simp only at h
      cases hD : DetLayer.assignLoop ((shares.drop bi).take n) (D.zorder argsort) 0 D.panels with
      | error e => rw [hD] at h; simp at h
      | ok ps =>
        rw [hD] at h
        simp only at h
        cases h1 : Volume.assignLoop argsort shares nCosts (bi + n) (li + 1) ls with
        | error e => rw [h1] at h; simp at h
        | ok r =>
          rw [h1] at h
          simp at h; subst h
          intro E hE
          simp only [List.mem_cons, AnyLayer.detector.injEq] at hE
          rcases hE with rfl | hE
          · exact assignLoop_sound _ _ _ _ _ hD (hs D (by simp))
          · exact volume_assignLoop_sound argsort shares nCosts ls r _ _ h1 (fun D hD => hs D (by simp [hD])) E hE

theorem sound_budget (argsort : List ℝ → List Nat) (V V' : Volume) (h : V.assignBudget argsort = .ok V') (hs : ∀ D, .detector D ∈ V.layers → Sound D) :
    ∀ D, .detector D ∈ V'.layers → Sound D := by
  unfold Volume.assignBudget at h
  cases hb : V.budget with
  | none => rw [hb] at h; simp at h; subst h; exact hs
  | some bud =>
    rw [hb] at h
    simp only at h
    cases hl : Volume.assignLoop argsort ((softmax V.weights).map (bud * ·)) V.nCosts 0 0 V.layers with
    | error e => rw [hl] at h; simp at h
    | ok ls =>
      rw [hl] at h
      simp at h; subst h
      exact volume_assignLoop_sound _ _ _ _ _ _ _ hl hs

/-- Everything that is recorded in a telescope. -/
structure ReadOut (noise : Nat → Nat → Nat → ℝ × ℝ) (b b' : Batch Row) (rA rB : List Reader) : Prop where
  dl : Delivered b b' (rA.map fun r => r.2.2.z) (rB.map fun r => r.2.2.z)
  above : ∀ var ∈ ["reco_xyz", "gen_xyz", "unc_xyz", "eff"], C01.Inv b' "above" var
    (rA.map fun r => (b.muons.map (·.id)).zip (b.muons.map fun m => r.2.2.note (noise r.1 r.2.1 m.id) m var))
  below : ∀ var ∈ ["reco_xyz", "gen_xyz", "unc_xyz", "eff"], C01.Inv b' "below" var
    (rB.map fun r => (b'.muons.map (·.id)).zip (b'.muons.map fun m => r.2.2.note (noise r.1 r.2.1 m.id) m var))

/-- the readers are the panels of the volume on this side -/
def Covers (V : Volume) (pos : String) (rs : List Reader) : Prop :=
  ∀ p : Panel, (∃ r ∈ rs, r.2.2 = p) ↔ ∃ D, .detector D ∈ V.layers ∧ D.pos = pos ∧ .panel p ∈ D.panels

theorem covers_side {ls : List AnyLayer} {V : Volume} (hl : V.layers = ls) {pos : String} {A : List DetLayer} {rs : List Reader}
    (hA : ∀ D, (.detector D ∈ ls ∧ D.pos = pos) ↔ D ∈ A) (hp : (rs.map fun r => AnyPanel.panel r.2.2).Perm (A.flatMap (·.panels))) : Covers V pos rs := by
  intro p
  have h1 : (∃ r ∈ rs, r.2.2 = p) ↔ AnyPanel.panel p ∈ rs.map fun r => AnyPanel.panel r.2.2 := by simp
  rw [h1, hp.mem_iff, List.mem_flatMap, hl]
  constructor
  · rintro ⟨D, hD, hpD⟩
    obtain ⟨h1, h2⟩ := (hA D).mpr hD
    exact ⟨D, h1, h2, hpD⟩
  · rintro ⟨D, h1, h2, hpD⟩
    exact ⟨D, (hA D).mp ⟨h1, h2⟩, hpD⟩

/-- The readers of a telescope do not depend on the muons, the noise and the random numbers. -/
theorem readouts (argsort : List ℝ → List Nat) (ha : IsArgsort argsort) (V V' : Volume) (hbud : V.assignBudget argsort = .ok V') (ht : Telescope V.layers)
    (hsnd : ∀ D, .detector D ∈ V.layers → Sound D) :
    ∃ rA rB, (∀ (rng : Nat → Nat → Nat → Draw) (noise : Nat → Nat → Nat → ℝ × ℝ) (fuel : Nat) (b b' : Batch Row), b.hits = [] → b.ids.Nodup →
      (∀ m ∈ b.muons, Downward m) → V.forward argsort rng noise fuel b = .ok (V', some b') → ReadOut noise b b' rA rB) ∧
      Covers V' "above" rA ∧ Covers V' "below" rB ∧ ∀ r ∈ rA ++ rB, 0 < r.2.2.res ∧ 0 < r.2.2.eff := by
  obtain ⟨A, P, B, e, pA, pB, sA, sB, nA, nB⟩ := telescope_budget argsort V V' hbud ht
  have hsnd' := sound_budget argsort V V' hbud hsnd
  have oA' : ∀ D ∈ A, Sound D := fun D hD => hsnd' D (by rw [e]; simp [hD])
  have oB' : ∀ D ∈ B, Sound D := fun D hD => hsnd' D (by rw [e]; simp [hD])
  obtain ⟨qA, oA⟩ := readers_stack argsort ha A 0 (fun D hD => (oA' D hD).ordinary) sA
  obtain ⟨qB, oB⟩ := readers_stack argsort ha B (0 + (A.map AnyLayer.detector).length + (P.map AnyLayer.passive).length) (fun D hD => (oB' D hD).ordinary) sB
  have hne : "above" ≠ "below" := by decide
  refine ⟨_, _, ?_, covers_side e (A := A) ?_ qA, covers_side e (A := B) ?_ qB, ?_⟩
  · intro rng noise fuel b b' h0 hn hd hf
    obtain ⟨-, hch, -⟩ := C14.forward_spec argsort ha rng noise fuel V V' b b' hf
    rw [e] at hch
    obtain ⟨b1, c1, hch⟩ := chain_append argsort rng noise fuel _ _ _ _ _ hch
    obtain ⟨b2, c2, c3⟩ := chain_append argsort rng noise fuel _ _ _ _ _ hch
    have readA := read_chain argsort rng noise fuel ha "above" A _ _ _ pA (fun D hD => (oA' D hD).ordinary) c1
    obtain ⟨car, dn⟩ := carries_chain argsort rng noise fuel P _ _ _ c2
    have readB := read_chain argsort rng noise fuel ha "below" B _ _ _ pB (fun D hD => (oB' D hD).ordinary) c3
    generalize readers argsort 0 A = rA at qA oA readA
    generalize readers argsort (0 + (A.map AnyLayer.detector).length + (P.map AnyLayer.passive).length) B = rB at qB oB readB
    have seenA := readA.seen
    have seenB := readB.seen
    have hgt : ∀ (X : List DetLayer) (rs : List Reader), (rs.map fun r => AnyPanel.panel r.2.2).Perm (X.flatMap (·.panels)) →
        (rs.map fun r => r.2.2.z).length = (X.flatMap (·.heights)).length := by
      intro X rs h
      have := h.map AnyPanel.z
      rw [List.map_map, List.map_flatMap] at this
      exact this.length_eq
    rw [← hgt A rA qA] at nA
    rw [← hgt B rB qB] at nB
    have emp : ∀ pos var, b.tensors pos var = [] := by intro pos var; simp [Batch.tensors, h0, Dict.get?]
    have ok0 : HitsOk b.muons.length b.hits := by rw [h0]; intro pv hpv; simp at hpv
    have sh0 : RowsShaped b := by intro pos var t ht; rw [emp] at ht; simp at ht
    have ok1 := seenA.ok ok0
    have ok2 := car.ok ok1
    have ok3 := seenB.ok ok2
    have n1 : b1.ids.Nodup := by rw [seenA.ids]; exact hn
    have n2 : b2.ids.Nodup := n1.sublist car.sub
    have n3 : b'.ids.Nodup := by rw [seenB.ids]; exact n2
    have a1 : ∀ var ∈ ["reco_xyz", "gen_xyz", "unc_xyz", "eff"], C01.Inv b1 "above" var
        (rA.map fun r => (b.muons.map (·.id)).zip (b.muons.map fun m => r.2.2.note (noise r.1 r.2.1 m.id) m var)) := by
      intro var hv
      have h := log_self b1 n1 "above" var (HitsOk_tensors ok1 _ _)
      rw [readA.notes var hv, emp, List.nil_append, List.map_map, seenA.ids] at h
      exact h
    have e2 : ∀ var, b2.tensors "below" var = [] := by
      intro var
      have h := car.log "below" var [] (by
        unfold C01.Inv
        rw [seenA.other "below" _ (by decide), emp]; rfl)
      unfold C01.Inv at h
      simpa using h
    have above : ∀ var ∈ ["reco_xyz", "gen_xyz", "unc_xyz", "eff"], C01.Inv b' "above" var
        (rA.map fun r => (b.muons.map (·.id)).zip (b.muons.map fun m => r.2.2.note (noise r.1 r.2.1 m.id) m var)) := by
      intro var hv
      have a2 := car.log _ _ _ (a1 var hv)
      unfold C01.Inv at a2 ⊢
      rw [seenB.other "above" _ (by decide), seenB.ids]; exact a2
    have below : ∀ var ∈ ["reco_xyz", "gen_xyz", "unc_xyz", "eff"], C01.Inv b' "below" var
        (rB.map fun r => (b'.muons.map (·.id)).zip (b'.muons.map fun m => r.2.2.note (noise r.1 r.2.1 m.id) m var)) := by
      intro var hv
      have h := log_self b' n3 "below" var (HitsOk_tensors ok3 _ _)
      rw [readB.notes var hv, e2, List.nil_append, List.map_map] at h
      have e : (rB.map fun r => (b'.muons.map (·.id)).zip (b'.muons.map fun m => r.2.2.note (noise r.1 r.2.1 m.id) m var)) =
          rB.map ((fun t => b'.ids.zip t) ∘ fun r => b2.muons.map fun m => r.2.2.note (noise r.1 r.2.1 m.id) m var) := by
        apply List.map_congr_left
        intro r _
        simp only [Function.comp]
        rw [notes_congr r.2.2 (noise r.1 r.2.1) var seenB.lines]; rfl
      rw [e]; exact h
    have cA : ∀ var ∈ ["reco_xyz", "gen_xyz", "unc_xyz", "eff"], (b'.tensors "above" var).length = (rA.map fun r => r.2.2.z).length := by
      intro var hv
      rw [recorded_count (above var hv)]; simp
    have cB : ∀ var ∈ ["reco_xyz", "gen_xyz", "unc_xyz", "eff"], (b'.tensors "below" var).length = (rB.map fun r => r.2.2.z).length := by
      intro var hv
      rw [recorded_count (below var hv)]; simp
    refine ⟨⟨nA, nB, oA, oB, ok3, seenB.shaped (car.shaped n1 ok1 (seenA.shaped sh0)), seenB.downward (dn (seenA.downward hd)), n3, ?_, ?_, ?_, cA, cB⟩,
      above, below⟩
    · rw [seenB.ids, ← seenA.ids]; exact car.sub
    · have h := above "gen_xyz" (by simp)
      rw [List.map_map]; exact h
    · have h := below "gen_xyz" (by simp)
      rw [List.map_map]; exact h
  · intro D
    simp only [List.mem_append, List.mem_map, AnyLayer.detector.injEq, exists_eq_right, reduceCtorEq, and_false, exists_false, false_or]
    exact ⟨fun ⟨h, hp⟩ => h.elim id fun h => absurd (hp.symm.trans (pB D h)) hne, fun h => ⟨Or.inl h, pA D h⟩⟩
  · intro D
    simp only [List.mem_append, List.mem_map, AnyLayer.detector.injEq, exists_eq_right, reduceCtorEq, and_false, exists_false, false_or]
    exact ⟨fun ⟨h, hp⟩ => h.elim (fun h => absurd ((pA D h).symm.trans hp) hne) id, fun h => ⟨Or.inr h, pB D h⟩⟩
  · intro r hr
    have : ∀ (X : List DetLayer) (rs : List Reader), (rs.map fun r => AnyPanel.panel r.2.2).Perm (X.flatMap (·.panels)) → (∀ D ∈ X, Sound D) → ∀ r ∈ rs,
        0 < r.2.2.res ∧ 0 < r.2.2.eff := by
      intro X rs h hs r hr
      have : AnyPanel.panel r.2.2 ∈ X.flatMap (·.panels) := h.mem_iff.mp (List.mem_map.mpr ⟨r, hr, rfl⟩)
      obtain ⟨D, hD, hpD⟩ := List.mem_flatMap.mp this
      obtain ⟨q, hq, h1, h2⟩ := hs D hD _ hpD
      simp only [AnyPanel.panel.injEq] at hq
      rw [hq]; exact ⟨h1, h2⟩
    rcases List.mem_append.mp hr with hr | hr
    · exact this A _ qA oA' r hr
    · exact this B _ qB oB' r hr

theorem readout (argsort : List ℝ → List Nat) (ha : IsArgsort argsort) (rng : Nat → Nat → Nat → Draw) (noise : Nat → Nat → Nat → ℝ × ℝ) (fuel : Nat)
    (V V' : Volume) (ht : Telescope V.layers) (hsnd : ∀ D, .detector D ∈ V.layers → Sound D) (b b' : Batch Row) (h0 : b.hits = []) (hn : b.ids.Nodup)
    (hd : ∀ m ∈ b.muons, Downward m) (hf : V.forward argsort rng noise fuel b = .ok (V', some b')) :
    ∃ rA rB, ReadOut noise b b' rA rB ∧ Covers V' "above" rA ∧ Covers V' "below" rB ∧ ∀ r ∈ rA ++ rB, 0 < r.2.2.res ∧ 0 < r.2.2.eff := by
  obtain ⟨rA, rB, h, r⟩ := readouts argsort ha V V' (C14.forward_spec argsort ha rng noise fuel V V' b b' hf).1 ht hsnd
  exact ⟨rA, rB, h rng noise fuel b b' h0 hn hd hf, r⟩

end

end Tomopt
