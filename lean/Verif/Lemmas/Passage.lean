import Verif.Props.C13_14
import Verif.Lemmas.Hits
import Verif.Spec.Passage

/- Helper lemmas: what a batch brings along on its way through the layers. -/
namespace Tomopt

noncomputable section
open Real

variable {α : Type}

/-- Recorded hits stay with their muons, muons stay distinguishable and in order, the shape of the hit dictionary is kept. -/
structure Carries (b b' : Batch α) : Prop where
  sub : b'.ids.Sublist b.ids
  log : ∀ pos var log, C01.Inv b pos var log → C01.Inv b' pos var log
  ok : HitsOk b.muons.length b.hits → HitsOk b'.muons.length b'.hits

theorem Carries.refl (b : Batch α) : Carries b b := ⟨List.Sublist.refl _, fun _ _ _ h => h, fun h => h⟩

theorem Carries.trans {a b c : Batch α} (h : Carries a b) (k : Carries b c) : Carries a c :=
  ⟨k.sub.trans h.sub, fun p v l hi => k.log p v l (h.log p v l hi), fun ho => k.ok (h.ok ho)⟩

theorem carries_same {b b' : Batch α} (h : Same b b') : Carries b b' := by
  have hids : b'.ids = b.ids := ids_of_keys h.keys
  refine ⟨hids ▸ List.Sublist.refl _, fun pos var log hi => ?_, fun ho => ?_⟩
  · unfold C01.Inv at *
    rw [hids, ← hi]
    simp [Batch.tensors, h.hits]
  · have := congrArg List.length h.keys
    simp only [List.length_map] at this
    rw [this, h.hits]; exact ho

theorem carries_filtered {b b' : Batch α} {keep : List Bool} (hf : Filtered b b' keep) : Carries b b' := by
  have hids : b'.ids = pick keep b.ids := by
    have := congrArg (List.map Prod.fst) hf.kept
    rw [← pick_map] at this
    simpa [Batch.ids, Function.comp_def] using this
  refine ⟨hids ▸ pick_sublist _ _, fun pos var log hi => ?_, fun ho => ?_⟩
  · unfold C01.Inv at *
    rw [tensors_filterHits b.hits keep b b' rfl hf.hits, hids]
    have := congrArg (List.map (pick keep)) hi
    simp only [List.map_map] at this ⊢
    have e1 : (fun x : List α => List.map some x) ∘ pick keep = pick keep ∘ (fun x => List.map some x) := by
      funext x; simp [pick_map]
    rw [e1, this]
    apply List.map_congr_left
    intro r _
    simp [pick_map]
  · have hl := congrArg List.length hf.kept
    rw [pick_length _ _ (by simpa using hf.len)] at hl
    simp only [List.length_map] at hl
    rw [hl, hf.hits]; exact HitsOk_filter ho hf.len

/-- moving or turning muons changes nothing that was recorded -/
theorem carries_map (b : Batch α) (f : Muon → Muon) (hf : ∀ m, (f m).key = m.key) : Carries b { b with muons := b.muons.map f } :=
  carries_same ⟨by rw [List.map_map]; exact List.map_congr_left fun m _ => hf m, rfl, rfl⟩

theorem carries_filterMuons {b b' : Batch α} {keep : List Bool} (h : b.filterMuons keep = .ok b') : Carries b b' ∧ b'.muons.Sublist b.muons := by
  constructor
  · rcases step_cases (op := .filter keep) h (by intro _ _; simp) with hs | ⟨_, hf⟩
    · exact carries_same hs
    · exact carries_filtered hf
  · unfold Batch.filterMuons at h
    split at h
    · split at h
      · simp at h
      · simp at h; subst h; exact pick_sublist _ _
    · simp at h; subst h; exact List.Sublist.refl _

theorem carries_pass (L : PassiveLayer) (draw : Nat → Draw) (b b' : Batch α) (p : Muon → Bool)
    (h : L.pass draw b (b.muons.map p) = .ok b') : Carries b b' := by
  cases hc : L.radLength with
  | none =>
    rw [PassiveLayer.pass_empty L hc] at h
    simp at h; subst h
    apply carries_map
    intro m; split <;> rfl
  | some cube =>
    have hb := PassiveLayer.pass_rows L cube hc draw b b' p h
    have hk : (b.muons.map fun m => L.rowPass (L.footprint m && p m) (p m) (L.scatVal cube draw m) m).map (fun m => (m.id, m.p)) =
        b.muons.map fun m => (m.id, m.p) := by
      rw [List.map_map]
      exact List.map_congr_left fun m _ => PassiveLayer.rowPass_key L _ _ _ m
    rw [hb]
    rcases removeUpwards_cases b _ hk with h | ⟨keep, h⟩
    · exact carries_same h
    · exact carries_filtered h

theorem downward_pass (L : PassiveLayer) (draw : Nat → Draw) (b b' : Batch α) (p : Muon → Bool)
    (h : L.pass draw b (b.muons.map p) = .ok b') (hd : ∀ m ∈ b.muons, Downward m) : ∀ m ∈ b'.muons, Downward m := by
  intro m' hm'
  cases hc : L.radLength with
  | none =>
    rw [PassiveLayer.pass_empty L hc] at h
    simp at h; subst h
    simp only [List.mem_map] at hm'
    obtain ⟨m, hm, rfl⟩ := hm'
    have := hd m hm
    split
    · exact this
    · exact this
  | some cube =>
    have hb := PassiveLayer.pass_rows L cube hc draw b b' p h
    obtain ⟨hmu, -⟩ := removeUpwards_spec b (b.muons.map fun m => L.rowPass (L.footprint m && p m) (p m) (L.scatVal cube draw m) m)
    rw [hb, hmu] at hm'
    obtain ⟨r, hr, hrm⟩ := List.mem_filterMap.mp hm'
    obtain ⟨hr, -⟩ := List.mem_filter.mp hr
    obtain ⟨m, hm, rfl⟩ := List.mem_map.mp hr
    have hpos : Downward (L.rowPos (L.footprint m && p m) (p m) (L.scatVal cube draw m) m) := by
      have := hd m hm
      unfold PassiveLayer.rowPos
      simp only [Downward] at this ⊢
      split <;> split <;> split <;> exact this
    revert hrm
    generalize hq : L.rowPos (L.footprint m && p m) (p m) (L.scatVal cube draw m) m = q at hpos
    unfold PassiveLayer.rowPass
    rw [hq]
    intro hrm
    split at hrm
    · unfold PassiveLayer.scatterXYRowO at hrm
      split at hrm
      · exact ((C05.scatter_xy_row q hpos _ _).2 m' hrm).2.1
      · simp [RawMuon.toMuon?] at hrm
    · have : m' = q := by
        simp only [RawMuon.toMuon?, MuonOf.toRaw, Option.some.injEq] at hrm
        exact hrm.symm
      rw [this]; exact hpos

theorem carries_loop (L : PassiveLayer) (rng : Nat → Nat → Draw) : ∀ (fuel k : Nat) (b b' : Batch α) (p : Muon → Bool),
    L.loop rng fuel k b (b.muons.map p) = .ok (some b') → Carries b b' ∧ ((∀ m ∈ b.muons, Downward m) → ∀ m ∈ b'.muons, Downward m) := by
  intro fuel
  induction fuel with
  | zero =>
    intro k b b' p h
    unfold PassiveLayer.loop at h
    split at h
    · simp at h
    · simp at h; subst h; exact ⟨Carries.refl _, fun h => h⟩
  | succ n ih =>
    intro k b b' p h
    unfold PassiveLayer.loop at h
    split at h
    · obtain ⟨b1, h1, h⟩ := bind_ok h
      have c1 := carries_pass L (rng k) b b1 p h1
      obtain ⟨c2, e2⟩ := ih (k + 1) b1 b' L.inside h
      exact ⟨c1.trans c2, fun hd => e2 (downward_pass L (rng k) b b1 p h1 hd)⟩
    · simp at h; subst h; exact ⟨Carries.refl _, fun h => h⟩

/-- through a passive layer -/
theorem carries_forward (L : PassiveLayer) (rng : Nat → Nat → Draw) (fuel : Nat) (b b' : Batch α)
    (h : L.forward rng fuel b = .ok (some b')) : Carries b b' ∧ ((∀ m ∈ b.muons, Downward m) → ∀ m ∈ b'.muons, Downward m) := by
  obtain ⟨b2, hl, rfl⟩ := PassiveLayer.forward_inv L rng fuel b b' h
  have hmask : List.replicate b.muons.length true = (b.muons.map fun m => Batch.propDzRow m (m.z - L.z)).map fun _ => true := by
    simp [List.map_const']
  rw [hmask] at hl
  obtain ⟨c, d⟩ := carries_loop L rng fuel 0 _ b2 (fun _ => true) hl
  refine ⟨((carries_map b (fun m => Batch.propDzRow m (m.z - L.z)) (fun m => rfl)).trans c).trans
    (carries_map b2 (fun m => Batch.propDzRow m (m.z - (L.z - L.size))) (fun m => rfl)), fun hd => ?_⟩
  intro m hm
  simp only [List.mem_map] at hm
  obtain ⟨m0, h0, rfl⟩ := hm
  exact d (by
    intro m hm
    simp only [List.mem_map] at hm
    obtain ⟨m1, h1, rfl⟩ := hm
    exact hd m1 h1) m0 h0

/-! ### Detector layers -/

theorem visit_HitsOk (pos : String) (noise : Nat → Nat → ℝ × ℝ) : ∀ (ps : List (Nat × AnyPanel)) (b b' : Batch Row),
    DetLayer.visit pos noise ps b = .ok b' → HitsOk b.muons.length b.hits → HitsOk b'.muons.length b'.hits
  | [], b, b', h, ho => by simp [DetLayer.visit] at h; subst h; exact ho
  | (i, p) :: ps, b, b', h, ho => by
    unfold DetLayer.visit at h
    rw [propagate_atHeight] at h
    simp only at h
    rcases p.getHits_cases (noise i) (b.atHeight p.z) with ⟨_, d, hd, _, _, hlen⟩ | ⟨_, he⟩
    · rw [hd] at h
      simp only at h
      refine visit_HitsOk pos noise ps _ b' h ?_
      have hl : (b.atHeight p.z).muons.length = b.muons.length := by simp [Batch.atHeight]
      have := HitsOk_append (n := b.muons.length) ho pos d (fun kv hkv => by rw [hlen kv hkv, hl])
      simpa [Batch.appendHits, Batch.atHeight] using this
    · rw [he] at h; simp at h

/-- number of values per row of a recorded variable -/
def rowWidth (var : String) : Nat := if var = "eff" then 1 else 3

/-- every recorded row has as many values as its variable needs -/
def RowsShaped (b : Batch Row) : Prop := ∀ pos var, ∀ t ∈ b.tensors pos var, ∀ r ∈ t, r.length = rowWidth var

theorem getHits_shape (p : AnyPanel) (noise : Nat → ℝ × ℝ) (b : Batch Row) (d : Dict String (List Row)) (h : p.getHits noise b = .ok d) :
    ∀ kv ∈ d, ∀ r ∈ kv.2, r.length = rowWidth kv.1 := by
  have four : ∀ (f g u e : Muon → Row), (∀ m, (f m).length = 3) → (∀ m, (g m).length = 3) → (∀ m, (u m).length = 3) → (∀ m, (e m).length = 1) →
      ∀ kv ∈ [("reco_xyz", b.muons.map f), ("gen_xyz", b.muons.map g), ("unc_xyz", b.muons.map u), ("eff", b.muons.map e)], ∀ r ∈ kv.2, r.length = rowWidth kv.1 := by
    intro f g u e hf hg hu he kv hkv r hr
    simp only [List.mem_cons, List.not_mem_nil, or_false] at hkv
    rcases hkv with rfl | rfl | rfl | rfl <;> simp only [List.mem_map] at hr <;> obtain ⟨m, _, rfl⟩ := hr
    · simp [hf, rowWidth]
    · simp [hg, rowWidth]
    · simp [hu, rowWidth]
    · simp [he, rowWidth]
  cases p with
  | panel p =>
    rcases p.getHits_cases noise b with ⟨_, h'⟩ | ⟨_, h'⟩
    · rw [show (AnyPanel.panel p).getHits noise b = p.getHits noise b from rfl, h'] at h
      simp only [Except.ok.injEq] at h
      rw [← h]
      exact four _ _ _ _ (fun _ => rfl) (fun _ => rfl) (fun _ => rfl) (fun _ => rfl)
    · rw [show (AnyPanel.panel p).getHits noise b = p.getHits noise b from rfl, h'] at h
      simp at h
  | heatmap q =>
    have h : q.getHits noise b = d := by simpa [AnyPanel.getHits] using h
    rw [← h]
    exact four _ _ _ _ (fun _ => rfl) (fun _ => rfl) (fun _ => rfl) (fun _ => rfl)

theorem visit_RowsShaped (pos : String) (noise : Nat → Nat → ℝ × ℝ) : ∀ (ps : List (Nat × AnyPanel)) (b b' : Batch Row),
    DetLayer.visit pos noise ps b = .ok b' → RowsShaped b → RowsShaped b'
  | [], b, b', h, ho => by simp [DetLayer.visit] at h; subst h; exact ho
  | (i, p) :: ps, b, b', h, ho => by
    unfold DetLayer.visit at h
    rw [propagate_atHeight] at h
    simp only at h
    cases hd : p.getHits (noise i) (b.atHeight p.z) with
    | error e => rw [hd] at h; simp at h
    | ok d =>
      rw [hd] at h
      simp only at h
      refine visit_RowsShaped pos noise ps _ b' h ?_
      intro pos' var t ht r hr
      rw [tensors_append, tensors_atHeight, List.mem_append] at ht
      rcases ht with ht | ht
      · exact ho pos' var t ht r hr
      · split at ht
        · obtain ⟨kv, hkv, rfl⟩ := List.mem_map.mp ht
          obtain ⟨hk1, hk2⟩ := List.mem_filter.mp hkv
          have := getHits_shape p _ _ d hd kv hk1 r hr
          simp only [decide_eq_true_eq] at hk2
          rw [← hk2]; exact this
        · simp at ht

/-- the row a panel at height `z` records for the true position -/
def genRow (z : ℝ) (m : Muon) : Row := [XF.num (crossing m z).1, XF.num (crossing m z).2, XF.num z]

theorem genRow_eq (z : ℝ) (m : Muon) : genRow z m = [XF.num (atHeight z m).x, XF.num (atHeight z m).y, XF.num z] := rfl

theorem genRows_congr {ms ms' : List Muon} (h : ∀ z, ms'.map (atHeight z) = ms.map (atHeight z)) (z : ℝ) : ms'.map (genRow z) = ms.map (genRow z) := by
  have := congrArg (List.map fun m : Muon => [XF.num m.x, XF.num m.y, XF.num z]) (h z)
  rw [List.map_map, List.map_map] at this
  exact this

/-- What a stretch of detector layers of one position does: heights `zs` visited one after the other, top down. -/
structure Seen (pos : String) (zs : List ℝ) (b b' : Batch Row) : Prop where
  lines : ∀ z, b'.muons.map (atHeight z) = b.muons.map (atHeight z)
  other : ∀ pos' var, pos' ≠ pos → b'.tensors pos' var = b.tensors pos' var
  gen : b'.tensors pos "gen_xyz" = b.tensors pos "gen_xyz" ++ zs.map fun z => b.muons.map (genRow z)
  count : ∀ var ∈ ["reco_xyz", "gen_xyz", "unc_xyz", "eff"], (b'.tensors pos var).length = (b.tensors pos var).length + zs.length
  ok : HitsOk b.muons.length b.hits → HitsOk b'.muons.length b'.hits
  shaped : RowsShaped b → RowsShaped b'

theorem Seen.ids {pos : String} {zs : List ℝ} {b b' : Batch Row} (h : Seen pos zs b b') : b'.ids = b.ids := by
  have := congrArg (List.map MuonOf.id) (h.lines 0)
  simpa [Batch.ids, List.map_map, Function.comp_def, atHeight] using this

theorem Seen.downward {pos : String} {zs : List ℝ} {b b' : Batch Row} (h : Seen pos zs b b') (hd : ∀ m ∈ b.muons, Downward m) :
    ∀ m ∈ b'.muons, Downward m := by
  intro m hm
  have : atHeight 0 m ∈ b.muons.map (atHeight 0) := by rw [← h.lines 0]; exact List.mem_map.mpr ⟨m, hm, rfl⟩
  obtain ⟨m0, h0, he⟩ := List.mem_map.mp this
  have h1 := congrArg MuonOf.th he
  have h2 := congrArg MuonOf.ph he
  simp only [atHeight] at h1 h2
  have := hd m0 h0
  unfold Downward at *
  rw [← h1, ← h2]; exact this

theorem Seen.trans {pos : String} {zs ws : List ℝ} {a b c : Batch Row} (h : Seen pos zs a b) (k : Seen pos ws b c) : Seen pos (zs ++ ws) a c := by
  refine ⟨fun z => (k.lines z).trans (h.lines z), fun p v hp => (k.other p v hp).trans (h.other p v hp), ?_, fun v hv => ?_, fun ho => k.ok (h.ok ho),
    fun ho => k.shaped (h.shaped ho)⟩
  · rw [k.gen, h.gen, List.append_assoc, List.map_append]
    congr 2
    exact List.map_congr_left fun z _ => genRows_congr h.lines z
  · rw [k.count v hv, h.count v hv, List.length_append]; omega

/-- through one detector layer -/
theorem seen_layer (argsort : List ℝ → List Nat) (ha : IsArgsort argsort) (noise : Nat → Nat → ℝ × ℝ) (D : DetLayer) (b b' : Batch Row)
    (h : D.forward argsort noise b = .ok b') :
    ∃ zs : List ℝ, zs.Perm (D.panels.map AnyPanel.z) ∧ zs.Pairwise (fun a c => c ≤ a) ∧ Seen D.pos zs b b' := by
  by_cases hp : ∀ p ∈ D.panels, p.CanRespond
  · obtain ⟨b1, order, h1, hperm, hget, hs, hm, hr, hh, hother, hvars, hgen⟩ := C13.layer_spec argsort ha noise D b hp
    rw [h1] at h
    simp only [Except.ok.injEq] at h
    subst h
    have ho2 : (order.map (·.2)).Perm D.panels := by
      have e : order = (order.map (·.1)).filterMap fun j => (D.panels[j]?).map fun p => (j, p) := by
        rw [List.filterMap_map]
        conv_lhs => rw [← List.filterMap_some (l := order)]
        apply List.filterMap_congr
        intro ip hip
        simp [hget ip hip]
      rw [e]
      exact (perm_index_map D.panels _ hperm).2
    have hlen : order.length = D.panels.length := by simpa using hperm.length_eq
    refine ⟨order.map fun ip => ip.2.z, ?_, ?_, ?_⟩
    · have := ho2.map AnyPanel.z
      simpa [List.map_map, Function.comp_def] using this
    · rw [List.pairwise_map]; exact hs
    · refine ⟨fun z => ?_, hother, ?_, fun var hv => ?_, fun ho => ?_, fun ho => ?_⟩
      · rw [hm, List.map_map]; exact List.map_congr_left fun m _ => atHeight_atHeight m _ z
      · rw [hgen, List.map_map]; rfl
      · obtain ⟨new, e, _, hn, _⟩ := hvars var hv
        rw [e, List.length_append, hn, List.length_map, hlen]
      · unfold DetLayer.forward at h1
        cases hvis : DetLayer.visit D.pos noise (D.zpanels argsort) b with
        | error e => rw [hvis] at h1; simp at h1
        | ok b2 =>
          rw [hvis] at h1
          simp only at h1
          rw [propagate_atHeight] at h1
          simp only [Except.ok.injEq] at h1
          subst h1
          have := visit_HitsOk D.pos noise _ b b2 hvis ho
          simpa [Batch.atHeight] using this
      · unfold DetLayer.forward at h1
        cases hvis : DetLayer.visit D.pos noise (D.zpanels argsort) b with
        | error e => rw [hvis] at h1; simp at h1
        | ok b2 =>
          rw [hvis] at h1
          simp only at h1
          rw [propagate_atHeight] at h1
          simp only [Except.ok.injEq] at h1
          subst h1
          exact visit_RowsShaped D.pos noise _ b b2 hvis ho
  · push Not at hp
    obtain ⟨e, he⟩ := (C13.layer_error argsort ha noise D b).mpr hp
    rw [he] at h; simp at h

/-! ### Stretches of layers -/

section chains

variable (argsort : List ℝ → List Nat) (rng : Nat → Nat → Nat → Draw) (noise : Nat → Nat → Nat → ℝ × ℝ) (fuel : Nat)

theorem chain_append : ∀ (ls ks : List AnyLayer) (i : Nat) (b b' : Batch Row), C14.Chain argsort rng noise fuel i (ls ++ ks) b b' →
    ∃ b1, C14.Chain argsort rng noise fuel i ls b b1 ∧ C14.Chain argsort rng noise fuel (i + ls.length) ks b1 b'
  | [], ks, i, b, b', h => ⟨b, .done i b, by simpa using h⟩
  | l :: ls, ks, i, b, b', h => by
    cases h with
    | next _ _ _ _ b1 _ h1 h2 =>
      obtain ⟨b2, c1, c2⟩ := chain_append ls ks (i + 1) _ b' h2
      refine ⟨b2, .next i l ls b b1 b2 h1 c1, ?_⟩
      rw [List.length_cons, show i + (ls.length + 1) = i + 1 + ls.length by omega]
      exact c2

theorem carries_chain : ∀ (Ps : List PassiveLayer) (i : Nat) (b b' : Batch Row), C14.Chain argsort rng noise fuel i (Ps.map .passive) b b' →
    Carries b b' ∧ ((∀ m ∈ b.muons, Downward m) → ∀ m ∈ b'.muons, Downward m)
  | [], i, b, b', h => by
    cases h
    exact ⟨Carries.refl _, fun h => h⟩
  | P :: Ps, i, b, b', h => by
    cases h with
    | next _ _ _ _ b1 _ h1 h2 =>
      obtain ⟨c1, d1⟩ := carries_forward P (rng i) fuel b b1 h1
      obtain ⟨c2, d2⟩ := carries_chain Ps (i + 1) _ b' h2
      exact ⟨c1.trans ⟨c2.sub, c2.log, c2.ok⟩, fun hd => d2 (d1 hd)⟩

theorem seen_chain (ha : IsArgsort argsort) (pos : String) : ∀ (Ds : List DetLayer) (i : Nat) (b b' : Batch Row), (∀ D ∈ Ds, D.pos = pos) → Stacked Ds →
    C14.Chain argsort rng noise fuel i (Ds.map .detector) b b' →
    ∃ zs : List ℝ, zs.Perm (Ds.flatMap (·.heights)) ∧ zs.Pairwise (fun a c => c < a) ∧ Seen pos zs b b'
  | [], i, b, b', _, _, h => by
    cases h
    exact ⟨[], by simp, List.Pairwise.nil, ⟨fun _ => rfl, fun _ _ _ => rfl, by simp, fun _ _ => rfl, fun h => h, fun h => h⟩⟩
  | D :: Ds, i, b, b', hpos, hst, h => by
    cases h with
    | next _ _ _ _ b1 _ h1 h2 =>
      simp only [Volume.layerForward] at h1
      cases hf : D.forward argsort (noise i) b with
      | error e => rw [hf] at h1; simp at h1
      | ok b2 =>
        rw [hf] at h1
        simp only [Except.ok.injEq, Option.some.injEq] at h1
        subst h1
        obtain ⟨zs, p1, s1, e1⟩ := seen_layer argsort ha (noise i) D b b2 hf
        obtain ⟨ws, p2, s2, e2⟩ := seen_chain ha pos Ds (i + 1) _ b' (fun E hE => hpos E (by simp [hE]))
          ⟨fun E hE => hst.1 E (by simp [hE]), hst.2.of_cons⟩ h2
        rw [hpos D (by simp)] at e1
        refine ⟨zs ++ ws, ?_, ?_, e1.trans ⟨e2.lines, e2.other, e2.gen, e2.count, e2.ok, e2.shaped⟩⟩
        · rw [List.flatMap_cons]; exact p1.append p2
        · rw [List.pairwise_append]
          refine ⟨?_, s2, ?_⟩
          · have hn : zs.Nodup := p1.nodup_iff.mpr (hst.1 D (by simp))
            exact (s1.and hn).imp fun h => lt_of_le_of_ne h.1 (fun e => h.2 e.symm)
          · intro z hz w hw
            obtain ⟨E, hE, hwE⟩ := List.mem_flatMap.mp (p2.mem_iff.mp hw)
            exact (List.pairwise_cons.mp hst.2).1 E hE z (p1.mem_iff.mp hz) w hwE

end chains

/-! ### Assigning a budget moves no panel -/

theorem assignLoop_heights (budget : List ℝ) : ∀ (js : List Nat) (i : Nat) (ps ps' : List AnyPanel), DetLayer.assignLoop budget js i ps = .ok ps' →
    ps'.map AnyPanel.z = ps.map AnyPanel.z
  | [], _, ps, ps', h => by simp [DetLayer.assignLoop] at h; rw [h]
  | j :: js, i, ps, ps', h => by
    unfold DetLayer.assignLoop at h
    split at h
    · rename_i p v hp hv
      cases hq : p.assignBudget (some v) with
      | error e => rw [hq] at h; simp at h
      | ok p' =>
        rw [hq] at h
        simp only at h
        rw [assignLoop_heights budget js (i + 1) _ ps' h, List.map_set]
        have hz : p'.z = p.z := by
          cases p with
          | panel q => simp [AnyPanel.assignBudget] at hq; subst hq; rfl
          | heatmap q => simp [AnyPanel.assignBudget, Heatmap.assignBudget] at hq
        rw [hz]
        have : (ps.map AnyPanel.z)[j]? = some p.z := by simp [hp]
        obtain ⟨hj, he⟩ := List.getElem?_eq_some_iff.mp this
        rw [← he, List.set_getElem_self]
    · simp at h

/-- same place in the arrangement: same kind, same position label, panels at the same heights -/
def SameSpot : AnyLayer → AnyLayer → Prop
  | .passive L, .passive L' => L' = L
  | .detector D, .detector D' => D'.pos = D.pos ∧ D'.heights = D.heights
  | _, _ => False

theorem volume_assignLoop_spots (argsort : List ℝ → List Nat) (shares : List ℝ) (nCosts : List Nat) : ∀ (ls ls' : List AnyLayer) (bi li : Nat),
    Volume.assignLoop argsort shares nCosts bi li ls = .ok ls' → List.Forall₂ SameSpot ls ls'
  | [], ls', bi, li, h => by simp [Volume.assignLoop] at h; subst h; exact .nil
  | .passive L :: ls, ls', bi, li, h => by
    unfold Volume.assignLoop at h
    cases h1 : Volume.assignLoop argsort shares nCosts bi li ls with
    | error e => rw [h1] at h; simp at h
    | ok r =>
      rw [h1] at h
      simp at h; subst h
      exact .cons rfl (volume_assignLoop_spots argsort shares nCosts ls r bi li h1)
  | .detector D :: ls, ls', bi, li, h => by
    unfold Volume.assignLoop at h
    cases hn : nCosts[li]? with
    | none => rw [hn] at h; simp at h
    | some n =>
      rw [hn] at h
      simp only at h
      unfold DetLayer.assignBudget at h
      simp only at h
      cases hD : DetLayer.assignLoop ((shares.drop bi).take n) (D.zorder argsort) 0 D.panels with
      | error e => rw [hD] at h; simp at h
      | ok ps =>
        rw [hD] at h
        simp only at h
        cases h1 : Volume.assignLoop argsort shares nCosts (bi + n) (li + 1) ls with
        | error e => rw [h1] at h; simp at h
        | ok r =>
          rw [h1] at h
          simp at h; subst h
          exact .cons ⟨rfl, assignLoop_heights _ _ _ _ _ hD⟩ (volume_assignLoop_spots argsort shares nCosts ls r _ _ h1)

theorem spots_split : ∀ (ks ls js : List AnyLayer), List.Forall₂ SameSpot (ks ++ ls) js →
    ∃ ks' ls', js = ks' ++ ls' ∧ List.Forall₂ SameSpot ks ks' ∧ List.Forall₂ SameSpot ls ls'
  | [], ls, js, h => ⟨[], js, rfl, .nil, h⟩
  | k :: ks, ls, js, h => by
    cases h with
    | cons h1 h2 =>
      obtain ⟨ks', ls', rfl, f1, f2⟩ := spots_split ks ls _ h2
      exact ⟨_ :: ks', ls', rfl, .cons h1 f1, f2⟩

theorem spots_detectors : ∀ (A : List DetLayer) (ls : List AnyLayer), List.Forall₂ SameSpot (A.map .detector) ls →
    ∃ A' : List DetLayer, ls = A'.map .detector ∧ A'.map (·.pos) = A.map (·.pos) ∧ A'.map (·.heights) = A.map (·.heights)
  | [], ls, h => by cases h; exact ⟨[], rfl, rfl, rfl⟩
  | D :: A, ls, h => by
    cases h with
    | @cons _ l _ ls h1 h2 =>
      obtain ⟨A', rfl, e1, e2⟩ := spots_detectors A ls h2
      cases l with
      | passive L => exact absurd h1 id
      | detector D' => exact ⟨D' :: A', rfl, by simp [h1.1, e1], by simp [h1.2, e2]⟩

theorem spots_passives : ∀ (P : List PassiveLayer) (ls : List AnyLayer), List.Forall₂ SameSpot (P.map .passive) ls → ls = P.map .passive
  | [], ls, h => by cases h; rfl
  | L :: P, ls, h => by
    cases h with
    | @cons _ l _ ls h1 h2 =>
      rw [spots_passives P ls h2]
      cases l with
      | passive L' => rw [show L' = L from h1]; rfl
      | detector D' => exact absurd h1 id

theorem spots_all_passives : ∀ (ls ls' : List AnyLayer), List.Forall₂ SameSpot ls ls' →
    (ls'.filterMap fun l => match l with | .passive L => some L | _ => none) = ls.filterMap fun l => match l with | .passive L => some L | _ => none
  | _, _, .nil => rfl
  | _, _, @List.Forall₂.cons _ _ _ k l ks ls h1 h2 => by
    have ih := spots_all_passives ks ls h2
    cases k with
    | passive L =>
      cases l with
      | passive L' => rw [show L' = L from h1]; simp only [List.filterMap_cons, ih]
      | detector D' => exact absurd h1 id
    | detector D =>
      cases l with
      | passive L' => exact absurd h1 id
      | detector D' => simp only [List.filterMap_cons, ih]

theorem passives_budget (argsort : List ℝ → List Nat) (V V' : Volume) (h : V.assignBudget argsort = .ok V') : V'.passives = V.passives := by
  unfold Volume.assignBudget at h
  cases hb : V.budget with
  | none => rw [hb] at h; simp at h; subst h; rfl
  | some bud =>
    rw [hb] at h
    simp only at h
    cases hl : Volume.assignLoop argsort ((softmax V.weights).map (bud * ·)) V.nCosts 0 0 V.layers with
    | error e => rw [hl] at h; simp at h
    | ok ls =>
      rw [hl] at h
      simp at h; subst h
      exact spots_all_passives _ _ (volume_assignLoop_spots _ _ _ _ _ _ _ hl)

theorem stacked_congr {A A' : List DetLayer} (h : A'.map (·.heights) = A.map (·.heights)) (hs : Stacked A) : Stacked A' := by
  have e : ∀ X : List DetLayer, Stacked X ↔ (∀ l ∈ X.map (·.heights), l.Nodup) ∧ (X.map (·.heights)).Pairwise fun l k => ∀ z ∈ l, ∀ w ∈ k, w < z := by
    intro X; unfold Stacked; rw [List.pairwise_map]; simp
  rw [e] at hs ⊢
  rwa [h]

/-- assigning a budget keeps the arrangement -/
theorem telescope_budget (argsort : List ℝ → List Nat) (V V' : Volume) (h : V.assignBudget argsort = .ok V') (ht : Telescope V.layers) :
    Telescope V'.layers := by
  unfold Volume.assignBudget at h
  cases hb : V.budget with
  | none => rw [hb] at h; simp at h; subst h; exact ht
  | some bud =>
    rw [hb] at h
    simp only at h
    cases hl : Volume.assignLoop argsort ((softmax V.weights).map (bud * ·)) V.nCosts 0 0 V.layers with
    | error e => rw [hl] at h; simp at h
    | ok ls =>
      rw [hl] at h
      simp at h; subst h
      have hs := volume_assignLoop_spots _ _ _ _ _ _ _ hl
      obtain ⟨A, P, B, e, hA, hB, sA, sB, nA, nB⟩ := ht
      rw [e] at hs
      obtain ⟨k1, k2, rfl, f1, f2⟩ := spots_split _ _ _ hs
      obtain ⟨k3, k4, rfl, f3, f4⟩ := spots_split _ _ _ f2
      obtain ⟨A', rfl, pA, zA⟩ := spots_detectors A _ f1
      obtain ⟨B', rfl, pB, zB⟩ := spots_detectors B _ f4
      have hp : ∀ {X X' : List DetLayer} {s : String}, X'.map (·.pos) = X.map (·.pos) → (∀ D ∈ X, D.pos = s) → ∀ D ∈ X', D.pos = s := by
        intro X X' s hx h D hD
        have : D.pos ∈ X.map (·.pos) := by rw [← hx]; exact List.mem_map.mpr ⟨D, hD, rfl⟩
        obtain ⟨E, hE, he⟩ := List.mem_map.mp this
        rw [← he]; exact h E hE
      have hn : ∀ {X X' : List DetLayer}, X'.map (·.heights) = X.map (·.heights) → X'.flatMap (·.heights) = X.flatMap (·.heights) := by
        intro X X' hx
        rw [List.flatMap_def, List.flatMap_def, hx]
      exact ⟨A', P, B', by rw [spots_passives P _ f3], hp pA hA, hp pB hB, stacked_congr zA sA, stacked_congr zB sB,
        by rw [hn zA]; exact nA, by rw [hn zB]; exact nB⟩

end

end Tomopt
