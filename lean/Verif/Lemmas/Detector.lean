import Verif.Spec.Detector
import Verif.Lemmas.Muon
import Verif.Lemmas.LayerLoop

/- Helper lemmas for detector layers. -/
namespace Tomopt

noncomputable section
open Real

theorem propDz_atHeight (m : Muon) (z : ℝ) : Batch.propDzRow m (m.z - z) = atHeight z m := by
  simp only [Batch.propDzRow, atHeight, crossing, tan_eq_sin_div_cos, MuonOf.mk.injEq, true_and, and_true]
  refine ⟨by ring, by ring, by ring⟩

theorem atHeight_atHeight (m : Muon) (a z : ℝ) : atHeight z (atHeight a m) = atHeight z m := by
  simp only [atHeight, crossing, MuonOf.mk.injEq, true_and, and_true]
  refine ⟨by ring, by ring⟩

theorem Batch.atHeight_atHeight {α : Type} (b : Batch α) (a z : ℝ) :
    (b.atHeight a).atHeight z = b.atHeight z := by
  simp only [Batch.atHeight, List.map_map]
  congr 1
  exact List.map_congr_left fun m _ => Tomopt.atHeight_atHeight m a z

theorem propagate_atHeight {α : Type} (b : Batch α) (z : ℝ) :
    b.propagateDz (.vec (b.muons.map fun m => m.z - z)) none = .ok (b.atHeight z) := by
  rw [propagateDz_each]
  simp only [propDz_atHeight, Batch.atHeight]

theorem Panel.checkResponse_iff (p : Panel) :
    (match (if p.continuous then p.checkResponse else .ok ()) with | .error _ => False | .ok _ => True) ↔
      (AnyPanel.panel p).CanRespond := by
  unfold AnyPanel.CanRespond Panel.continuous Panel.checkResponse Panel.checkGauss
  cases hk : p.kind <;> cases ht : p.training <;> cases hr : p.realistic <;>
    simp [hk, ht, hr] <;> (try split) <;> simp_all <;> grind

theorem Panel.response_cases (p : Panel) :
    ((if p.continuous then p.checkResponse else .ok ()) = .ok () ∧ (AnyPanel.panel p).CanRespond) ∨
    ((if p.continuous then p.checkResponse else .ok ()) = .error .valueError ∧ ¬ (AnyPanel.panel p).CanRespond) := by
  have h := p.checkResponse_iff
  have hv : ∀ e, (if p.continuous then p.checkResponse else .ok ()) = .error e → e = .valueError := by
    intro e he
    unfold Panel.checkResponse Panel.checkGauss at he
    grind
  generalize (if p.continuous then p.checkResponse else .ok ()) = r at *
  cases r with
  | error e => right; rw [hv e rfl]; exact ⟨rfl, fun hc => by simpa using h.mpr hc⟩
  | ok u => left; exact ⟨rfl, by simpa using h⟩

theorem Panel.getHits_cases (p : Panel) (noise : Nat → ℝ × ℝ) (b : Batch Row) :
    ((AnyPanel.panel p).CanRespond ∧ p.getHits noise b =
      .ok [("reco_xyz", b.muons.map fun m => p.hitReco (m.x, m.y) (noise m.id) (Batch.inWindow (some p.low) (some p.high) m)),
         ("gen_xyz", b.muons.map fun m => p.hitGen (m.x, m.y)),
         ("unc_xyz", b.muons.map fun m => p.hitUnc (m.x, m.y) (Batch.inWindow (some p.low) (some p.high) m)),
         ("eff", b.muons.map fun m => p.hitEff (m.x, m.y) (Batch.inWindow (some p.low) (some p.high) m))]) ∨
    (¬ (AnyPanel.panel p).CanRespond ∧ p.getHits noise b = .error .valueError) := by
  rcases p.response_cases with ⟨h, hc⟩ | ⟨h, hc⟩
  · left; refine ⟨hc, ?_⟩; unfold Panel.getHits; rw [h]
  · right; refine ⟨hc, ?_⟩; unfold Panel.getHits; rw [h]

/-- Keys recorded by any panel. -/
def hitKeys : List String := ["reco_xyz", "gen_xyz", "unc_xyz", "eff"]

theorem AnyPanel.getHits_cases (p : AnyPanel) (noise : Nat → ℝ × ℝ) (b : Batch Row) :
    (p.CanRespond ∧ ∃ d, p.getHits noise b = .ok d ∧ d.map (·.1) = hitKeys ∧
      d.get? "gen_xyz" = some (b.muons.map fun m => [.num m.x, .num m.y, .num p.z]) ∧ ∀ kv ∈ d, kv.2.length = b.muons.length) ∨
    (¬ p.CanRespond ∧ p.getHits noise b = .error .valueError) := by
  cases p with
  | panel p =>
    rcases p.getHits_cases noise b with ⟨hc, h⟩ | h
    · left
      refine ⟨hc, _, h, rfl, by simp [Dict.get?, Panel.hitGen, AnyPanel.z], by simp⟩
    · right; exact h
  | heatmap h =>
    left
    refine ⟨trivial, _, rfl, rfl, by simp [Dict.get?, Heatmap.getHits, AnyPanel.z], by simp [Heatmap.getHits]⟩

/-- Filtering by a key that occurs once is a lookup. -/
theorem filter_key_eq_get? {v : Type} (d : Dict String v) (hd : (d.map (·.1)).Nodup) (k : String) :
    (d.filter (fun kv => kv.1 = k)).map (·.2) = (d.get? k).toList := by
  induction d with
  | nil => rfl
  | cons a d ih =>
    obtain ⟨k', x⟩ := a
    simp only [List.map_cons, List.nodup_cons] at hd
    by_cases hk : k' = k
    · subst hk
      have : d.filter (fun kv => kv.1 = k') = [] := by
        rw [List.filter_eq_nil_iff]
        intro kv hkv
        simp only [decide_eq_true_eq]
        rintro rfl
        exact hd.1 (List.mem_map.mpr ⟨kv, hkv, rfl⟩)
      simp [Dict.get?, this]
    · simp [Dict.get?, hk, ih hd.2]

theorem tensors_atHeight (b : Batch Row) (z : ℝ) (pos var : String) : (b.atHeight z).tensors pos var = b.tensors pos var := rfl

theorem tensorAt_congr (p : AnyPanel) (noise : Nat → ℝ × ℝ) (b c : Batch Row) (var : String)
    (h : ∀ z, b.muons.map (atHeight z) = c.muons.map (atHeight z)) : p.tensorAt noise b var = p.tensorAt noise c var := by
  have : p.getHits noise (b.atHeight p.z) = p.getHits noise (c.atHeight p.z) := by
    have := h p.z
    cases p with
    | panel p => simp only [AnyPanel.getHits, Panel.getHits, Batch.atHeight, this]
    | heatmap h => simp only [AnyPanel.getHits, Heatmap.getHits, Batch.atHeight, this]
  simp only [AnyPanel.tensorAt, this]

theorem visit_ok (pos : String) (noise : Nat → Nat → ℝ × ℝ) : ∀ (ps : List (Nat × AnyPanel)) (b : Batch Row),
    (∀ ip ∈ ps, ip.2.CanRespond) → ∃ b', DetLayer.visit pos noise ps b = .ok b' ∧
      (∀ z, b'.muons.map (atHeight z) = b.muons.map (atHeight z)) ∧ b'.removed = b.removed ∧ b'.hist = b.hist ∧
      ∀ pos' var, b'.tensors pos' var = b.tensors pos' var ++
        if pos' = pos then ps.filterMap (fun ip => ip.2.tensorAt (noise ip.1) b var) else []
  | [], b, _ => ⟨b, rfl, fun _ => rfl, rfl, rfl, by intros; split <;> simp⟩
  | (i, p) :: ps, b, h => by
    unfold DetLayer.visit
    rw [propagate_atHeight]
    simp only
    rcases p.getHits_cases (noise i) (b.atHeight p.z) with ⟨_, d, hd, hkeys, _⟩ | ⟨hc, _⟩
    · rw [hd]
      simp only
      obtain ⟨b', hb', hm, hr, hh, ht⟩ := visit_ok pos noise ps ((b.atHeight p.z).appendHits d pos)
        (fun ip hip => h ip (by simp [hip]))
      have hmm : ∀ z, ((b.atHeight p.z).appendHits d pos).muons.map (atHeight z) = b.muons.map (atHeight z) := by
        intro z
        simp only [Batch.appendHits, Batch.atHeight, List.map_map]
        exact List.map_congr_left fun m _ => atHeight_atHeight m _ z
      refine ⟨b', hb', fun z => (hm z).trans (hmm z), hr, hh, ?_⟩
      intro pos' var
      rw [ht, tensors_append, tensors_atHeight, List.append_assoc]
      congr 1
      by_cases hp : pos' = pos
      · subst hp
        simp only [if_true]
        rw [filter_key_eq_get? d (by rw [hkeys]; decide)]
        have h1 : p.tensorAt (noise i) b var = d.get? var := by simp only [AnyPanel.tensorAt, hd]
        have h2 : ps.filterMap (fun ip => ip.2.tensorAt (noise ip.1) ((b.atHeight p.z).appendHits d pos') var) =
            ps.filterMap (fun ip => ip.2.tensorAt (noise ip.1) b var) := by
          congr 1; funext ip
          exact tensorAt_congr _ _ _ _ _ hmm
        rw [h2]
        cases hg : d.get? var <;> simp [h1, hg]
      · have hp' : ¬ pos = pos' := fun e => hp e.symm
        simp [hp, hp']
    · exact absurd (h _ (List.mem_cons_self)) hc

theorem visit_error (pos : String) (noise : Nat → Nat → ℝ × ℝ) : ∀ (ps : List (Nat × AnyPanel)) (b : Batch Row),
    (∃ ip ∈ ps, ¬ ip.2.CanRespond) → DetLayer.visit pos noise ps b = .error .valueError
  | [], b, h => by simp at h
  | (i, p) :: ps, b, h => by
    unfold DetLayer.visit
    rw [propagate_atHeight]
    simp only
    rcases p.getHits_cases (noise i) (b.atHeight p.z) with ⟨hc, d, hd, _⟩ | ⟨_, he⟩
    · rw [hd]
      simp only
      apply visit_error
      obtain ⟨ip, hm, hn⟩ := h
      simp only [List.mem_cons] at hm
      rcases hm with rfl | hm
      · exact absurd hc hn
      · exact ⟨ip, hm, hn⟩
    · rw [he]

/-- A permutation of the index range visits every element once. -/
theorem perm_index_map {β : Type} (l : List β) (js : List Nat) (h : js.Perm (List.range l.length)) :
    (js.filterMap fun j => (l[j]?).map fun p => (j, p)).map (·.1) = js ∧
    ((js.filterMap fun j => (l[j]?).map fun p => (j, p)).map (·.2)).Perm l := by
  have hm : ∀ j ∈ js, j < l.length := fun j hj => List.mem_range.mp (h.mem_iff.mp hj)
  have h1 : js.filterMap (fun j => (l[j]?).map fun p => (j, p)) = (js.attach.map fun j => (j.1, l[j.1]'(hm j.1 j.2))) := by
    conv_lhs => rw [← List.attach_map_subtype_val js]
    rw [List.filterMap_map, ← List.filterMap_eq_map]
    apply List.filterMap_congr
    intro j _
    simp [hm j.1 j.2]
  constructor
  · rw [h1]; simp
  · have hp : (js.filterMap fun j => l[j]?).Perm ((List.range l.length).filterMap fun j => l[j]?) := h.filterMap _
    have h2 : (List.range l.length).filterMap (fun j => l[j]?) = l := by
      apply List.ext_getElem?
      intro i
      have : ((List.range l.length).filterMap fun j => l[j]?) = (List.range l.length).attach.map fun j => l[j.1]'(List.mem_range.mp j.2) := by
        conv_lhs => rw [← List.attach_map_subtype_val (List.range l.length)]
        rw [List.filterMap_map, ← List.filterMap_eq_map]
        apply List.filterMap_congr
        intro j _
        simp [List.mem_range.mp j.2]
      rw [this]
      by_cases hi : i < l.length
      · simp [hi]
      · simp [hi]
    rw [h2] at hp
    have h3 : (js.filterMap fun j => (l[j]?).map fun p => (j, p)).map (·.2) = js.filterMap fun j => l[j]? := by
      rw [List.map_filterMap]
      apply List.filterMap_congr
      intro j _
      simp [Function.comp_def]
    rw [h3]; exact hp

theorem zorder_perm {argsort : List ℝ → List Nat} (ha : IsArgsort argsort) (L : DetLayer) :
    (L.zorder argsort).Perm (List.range L.panels.length) := by
  have := (ha (L.panels.map AnyPanel.z)).1
  simp only [List.length_map] at this
  exact (List.reverse_perm _).trans this

theorem zpanels_perm {argsort : List ℝ → List Nat} (ha : IsArgsort argsort) (L : DetLayer) :
    ((L.zpanels argsort).map (·.2)).Perm L.panels := (perm_index_map L.panels _ (zorder_perm ha L)).2

theorem zpanels_index {argsort : List ℝ → List Nat} (ha : IsArgsort argsort) (L : DetLayer) :
    (L.zpanels argsort).map (·.1) = L.zorder argsort := (perm_index_map L.panels _ (zorder_perm ha L)).1

theorem zpanels_get {argsort : List ℝ → List Nat} (L : DetLayer) : ∀ ip ∈ L.zpanels argsort, L.panels[ip.1]? = some ip.2 := by
  intro ip hip
  simp only [DetLayer.zpanels, List.mem_filterMap, Option.map_eq_some_iff] at hip
  obtain ⟨j, _, p, hp, rfl⟩ := hip
  exact hp

theorem zpanels_sorted {argsort : List ℝ → List Nat} (ha : IsArgsort argsort) (L : DetLayer) :
    (L.zpanels argsort).Pairwise fun a b => b.2.z ≤ a.2.z := by
  have h := (ha (L.panels.map AnyPanel.z)).2
  have h' : (L.zorder argsort).Pairwise fun i j => ∀ a b, (L.panels.map AnyPanel.z)[i]? = some a →
      (L.panels.map AnyPanel.z)[j]? = some b → b ≤ a := by
    rw [DetLayer.zorder, List.pairwise_reverse]
    exact h.imp fun h a b ha hb => h b a hb ha
  unfold DetLayer.zpanels
  rw [List.pairwise_filterMap]
  refine h'.imp ?_
  intro i j hij a ha b hb
  simp only [Option.map_eq_some_iff] at ha hb
  obtain ⟨p, hp, rfl⟩ := ha
  obtain ⟨q, hq, rfl⟩ := hb
  exact hij p.z q.z (by simp [hp]) (by simp [hq])

end

end Tomopt
