import Verif.Lemmas.Muon

/- C01, C02: bookkeeping of a muon batch over arbitrary histories. -/
namespace Tomopt

variable {α : Type}

namespace C01

/-- invariant used for the induction: stored tensors are the recorded ones restricted to the surviving muons -/
def Inv (b : Batch α) (pos var : String) (log : List (List (Nat × α))) : Prop :=
  (b.tensors pos var).map (·.map some) = log.map fun rec => b.ids.map fun i => rec.lookup i

theorem inv_cases {b b' : Batch α} {pos var : String} {log : List (List (Nat × α))} (hn : b.ids.Nodup)
    (hc : Same b b' ∨ ∃ keep, Filtered b b' keep) (hi : Inv b pos var log) : b'.ids.Nodup ∧ Inv b' pos var log := by
  rcases hc with hsame | ⟨keep, hf⟩
  · have hids : b'.ids = b.ids := ids_of_keys hsame.keys
    refine ⟨hids ▸ hn, ?_⟩
    unfold Inv at *
    rw [hids, ← hi]
    simp [Batch.tensors, hsame.hits]
  · have hids : b'.ids = pick keep b.ids := by
      have := congrArg (List.map Prod.fst) hf.kept
      rw [← pick_map] at this
      simpa [Batch.ids, Function.comp_def] using this
    refine ⟨hids ▸ hn.sublist (pick_sublist _ _), ?_⟩
    unfold Inv at *
    rw [tensors_filterHits b.hits keep b b' rfl hf.hits, hids]
    have := congrArg (List.map (pick keep)) hi
    simp only [List.map_map] at this ⊢
    have e1 : (fun x : List α => List.map some x) ∘ pick keep = pick keep ∘ (fun x => List.map some x) := by
      funext x; simp [pick_map]
    rw [e1, this]
    apply List.map_congr_left
    intro r _
    simp [pick_map]

theorem inv_step {b b' : Batch α} {op : MuOp α} {pos var : String} {log : List (List (Nat × α))}
    (hn : b.ids.Nodup) (hs : b.step op = .ok b')
    (ha : AlignedOp b op)
    (hi : Inv b pos var log) : b'.ids.Nodup ∧ Inv b' pos var (log ++ recordedBy b pos var op) := by
  by_cases hap : ∃ hits p, op = .append hits p
  · obtain ⟨hits, p, rfl⟩ := hap
    simp only [Batch.step, Except.ok.injEq] at hs
    subst hs
    refine ⟨hn, ?_⟩
    unfold Inv at *
    rw [tensors_append, List.map_append, hi, List.map_append]
    congr 1
    simp only [recordedBy]
    split
    · rw [List.map_map, List.map_map]
      apply List.map_congr_left
      intro kv hkv
      have hl := ha kv (List.mem_of_mem_filter hkv)
      simp only [Function.comp]
      exact (lookup_zip_self hn (by simpa [Batch.ids] using hl)).symm
    · rfl
  · have hna : ∀ hits p, op ≠ .append hits p := fun hits p h => hap ⟨hits, p, h⟩
    have hrec : recordedBy b pos var op = [] := by
      cases op <;> first | rfl | exact absurd rfl (hna _ _)
    rw [hrec, List.append_nil]
    exact inv_cases hn (step_cases hs hna) hi

/-- **C01.** Start from any batch without hits whose muons are distinguishable, and run any history in which every recording
supplies one row per muon present. Then for every detector position and variable, the stored tensors are
exactly the recorded ones, in order, with one row per surviving muon, and the row at the place of a surviving muon is the
row that was recorded for that very muon. -/
theorem hits_follow_muons (b b' : Batch α) (ops : List (MuOp α)) (h0 : b.hits = []) (hn : b.ids.Nodup)
    (ha : AlignedHistory b ops) (hr : b.run ops = .ok b') (pos var : String) :
    (b'.tensors pos var).map (·.map some) =
      (recorded pos var b ops).map fun rec => b'.muons.map fun m => rec.lookup m.id := by
  have key : ∀ (ops : List (MuOp α)) (b : Batch α) (log : List (List (Nat × α))), b.ids.Nodup → AlignedHistory b ops →
      b.run ops = .ok b' → Inv b pos var log → Inv b' pos var (log ++ recorded pos var b ops) := by
    intro ops
    induction ops with
    | nil =>
      intro b log _ _ hr hi
      simp only [Batch.run, Except.ok.injEq] at hr
      subst hr; simpa [recorded] using hi
    | cons op ops ih =>
      intro b log hn ha hr hi
      simp only [Batch.run] at hr
      cases hs : b.step op with
      | error e => simp [hs] at hr
      | ok b1 =>
        simp only [hs] at hr
        simp only [AlignedHistory, hs] at ha
        obtain ⟨hn1, hi1⟩ := inv_step hn hs ha.1 hi
        have := ih b1 _ hn1 ha.2 hr hi1
        simp only [recorded, hs]
        rwa [List.append_assoc] at this
  have h1 : Inv b pos var [] := by simp [Inv, Batch.tensors, h0, Dict.get?]
  have := key ops b [] hn ha hr h1
  simpa [Inv, Batch.ids, Function.comp_def] using this

/-- Corollary: every stored tensor has one row per surviving muon. -/
theorem one_row_per_muon (b b' : Batch α) (ops : List (MuOp α)) (h0 : b.hits = []) (hn : b.ids.Nodup)
    (ha : AlignedHistory b ops) (hr : b.run ops = .ok b') (pos var : String) :
    ∀ t ∈ b'.tensors pos var, t.length = b'.muons.length := by
  intro t ht
  have h := hits_follow_muons b b' ops h0 hn ha hr pos var
  have : t.map some ∈ (b'.tensors pos var).map (·.map some) := List.mem_map.mpr ⟨t, ht, rfl⟩
  rw [h] at this
  obtain ⟨r, -, hr⟩ := List.mem_map.mp this
  have := congrArg List.length hr
  simpa using this.symm

/-- A freshly created batch has distinguishable muons and no hits, so the hypotheses are those of the constructor. -/
theorem init_ok (rows : List (ℝ × ℝ × ℝ × ℝ × ℝ)) (z : ℝ) :
    (Batch.init (α := α) rows z).hits = [] ∧ (Batch.init (α := α) rows z).ids.Nodup := by
  refine ⟨rfl, ?_⟩
  have : (Batch.init (α := α) rows z).ids = List.range' 0 rows.length := by
    simp only [Batch.ids, Batch.init, List.map_map]
    have : ((fun m : Muon => m.id) ∘ fun ri : (ℝ × ℝ × ℝ × ℝ × ℝ) × ℕ =>
        (⟨ri.2, ri.1.1, ri.1.2.1, z, ri.1.2.2.1, ri.1.2.2.2.1, ri.1.2.2.2.2⟩ : Muon)) = Prod.snd := rfl
    rw [this, List.zipIdx_map_snd]
  rw [this]; exact List.nodup_range'

/-- Non-vacuity: two muons, record, drop the first, record again; the surviving second muon keeps row 20 and gets 30. -/
example : ∃ b', (Batch.init (α := Nat) [(0, 0, 1, 0, 0), (1, 1, 1, 0, 0)] 1).run
      [.append [("reco", [10, 20])] "above", .filter [false, true], .append [("reco", [30])] "above"] = .ok b' ∧
    b'.tensors "above" "reco" = [[20], [30]] ∧
    AlignedHistory (Batch.init (α := Nat) [(0, 0, 1, 0, 0), (1, 1, 1, 0, 0)] 1)
      [.append [("reco", [10, 20])] "above", .filter [false, true], .append [("reco", [30])] "above"] := by
  refine ⟨_, rfl, ?_, ?_⟩
  · decide
  · simp [AlignedHistory, AlignedOp, Batch.step, Batch.init, Batch.appendHits, Batch.filterMuons, countTrue, pick]

end C01

namespace C02

/-- **C02.** For every history: survivors plus removed are a rearrangement of what they were at the start (identity and momentum), the survivors are
in their original order, and what was already removed stays removed. -/
theorem muons_conserved (b b' : Batch α) (ops : List (MuOp α)) (hr : b.run ops = .ok b') :
    List.Perm (b'.muons.map (fun m => (m.id, m.p)) ++ b'.removed.map fun m => (m.id, m.p))
        (b.muons.map (fun m => (m.id, m.p)) ++ b.removed.map fun m => (m.id, m.p)) ∧
    List.Sublist (b'.muons.map fun m => (m.id, m.p)) (b.muons.map fun m => (m.id, m.p)) ∧
    b.removed <+: b'.removed := by
  induction ops generalizing b with
  | nil =>
    simp only [Batch.run, Except.ok.injEq] at hr
    subst hr; exact ⟨List.Perm.refl _, List.Sublist.refl _, List.prefix_refl _⟩
  | cons op ops ih =>
    simp only [Batch.run] at hr
    cases hs : b.step op with
    | error e => simp [hs] at hr
    | ok b1 =>
      simp only [hs] at hr
      obtain ⟨p1, s1, r1⟩ := ih b1 hr
      have one : List.Perm (b1.muons.map (fun m => (m.id, m.p)) ++ b1.removed.map fun m => (m.id, m.p))
          (b.muons.map (fun m => (m.id, m.p)) ++ b.removed.map fun m => (m.id, m.p)) ∧
          List.Sublist (b1.muons.map fun m => (m.id, m.p)) (b.muons.map fun m => (m.id, m.p)) ∧
          b.removed <+: b1.removed := by
        by_cases hap : ∃ hits p, op = .append hits p
        · obtain ⟨hits, p, rfl⟩ := hap
          simp only [Batch.step, Except.ok.injEq] at hs
          subst hs
          exact ⟨List.Perm.refl _, List.Sublist.refl _, List.prefix_refl _⟩
        · rcases step_cases hs (fun hits p h => hap ⟨hits, p, h⟩) with hsame | ⟨keep, hf⟩
          · rw [hsame.keys, hsame.removed]
            exact ⟨List.Perm.refl _, List.Sublist.refl _, List.prefix_refl _⟩
          · obtain ⟨rs, hrs, hrk⟩ := hf.gone
            rw [hf.kept, hrs]
            refine ⟨?_, pick_sublist _ _, List.prefix_append _ _⟩
            rw [List.map_append, hrk]
            have hp := pick_append_inv_perm keep (b.muons.map fun m => (m.id, m.p)) (by simpa using hf.len)
            refine List.Perm.trans ?_ (hp.append_right _)
            rw [List.append_assoc]
            exact (List.perm_append_comm).append_left _
      exact ⟨p1.trans one.1, s1.trans one.2.1, one.2.2.trans r1⟩

/-- With distinguishable muons, no muon is duplicated and a removed one is never in the batch again. -/
theorem removed_never_back (b b1 b' : Batch α) (ops1 ops2 : List (MuOp α))
    (hn : (b.muons.map (·.id) ++ b.removed.map (·.id)).Nodup)
    (h1 : b.run ops1 = .ok b1) (h2 : b1.run ops2 = .ok b') :
    (∀ r ∈ b1.removed, ∀ m ∈ b'.muons, m.id ≠ r.id) ∧ (b'.muons.map (·.id)).Nodup := by
  obtain ⟨p1, s1, r1⟩ := muons_conserved b b1 ops1 h1
  obtain ⟨p2, s2, r2⟩ := muons_conserved b1 b' ops2 h2
  have hp := (p2.trans p1).map Prod.fst
  simp only [List.map_append, List.map_map, Function.comp_def] at hp
  have hnd := hp.nodup_iff.mpr hn
  rw [List.nodup_append] at hnd
  refine ⟨?_, hnd.1⟩
  intro r hr m hm heq
  have hr' : r ∈ b'.removed := r2.subset hr
  exact hnd.2.2 m.id (List.mem_map.mpr ⟨m, hm, rfl⟩) r.id (List.mem_map.mpr ⟨r, hr', rfl⟩) heq

example : ∃ b', (Batch.init (α := Nat) [(0, 0, 1, 0, 0), (1, 1, 2, 0, 0)] 1).run [.filter [false, true]] = .ok b' ∧
    b'.muons.map (·.id) = [1] ∧ b'.removed.map (·.id) = [0] := ⟨_, rfl, rfl, rfl⟩

end C02

end Tomopt
