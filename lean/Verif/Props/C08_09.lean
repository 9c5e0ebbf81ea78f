import Verif.Model.Heap
import Verif.Lemmas.Hits

/- C08: independence of copies. C09: retrieval of hits. -/
namespace Tomopt

variable {α : Type}

namespace C08

/-- operations of a schedule that go to the first / second object -/
def firstOps : List (Act α) → List (MuOp α)
  | [] => []
  | .first op :: as => op :: firstOps as
  | _ :: as => firstOps as

def secondOps : List (Act α) → List (MuOp α)
  | [] => []
  | .second op :: as => op :: secondOps as
  | _ :: as => secondOps as

theorem step_frame {s s' : Store} {o o' : Obj α} {op : MuOp α} (h : o.step s op = .ok (s', o')) :
    (∃ b b', o.view s = some b ∧ b.step op = .ok b' ∧ o'.view s' = some b') ∧
    s.length ≤ s'.length ∧ (o'.addr = o.addr ∨ o'.addr = s.length) ∧
    (∀ a, a < s.length → a ≠ o.addr → s'[a]? = s[a]?) := by
  unfold Obj.step at h
  cases hv : o.view s with
  | none => simp [hv] at h
  | some b =>
    simp only [hv] at h
    have haddr : ∃ ms, s[o.addr]? = some ms := by
      unfold Obj.view at hv; cases hs : s[o.addr]? with
      | none => simp [hs] at hv
      | some ms => exact ⟨ms, rfl⟩
    obtain ⟨ms, hms⟩ := haddr
    have hlt : o.addr < s.length := (List.getElem?_eq_some_iff.mp hms).1
    cases hb : b.step op with
    | error e => simp [hb] at h
    | ok b' =>
      simp only [hb] at h
      split at h
      · simp only [Except.ok.injEq, Prod.mk.injEq] at h
        obtain ⟨rfl, rfl⟩ := h
        refine ⟨⟨b, b', rfl, hb, ?_⟩, by simp, Or.inr rfl, ?_⟩
        · simp [Obj.view]
        · intro a ha _; simp [List.getElem?_append_left ha]
      · simp only [Except.ok.injEq, Prod.mk.injEq] at h
        obtain ⟨rfl, rfl⟩ := h
        refine ⟨⟨b, b', rfl, hb, ?_⟩, by simp, Or.inl rfl, ?_⟩
        · simp [Obj.view, hlt]
        · intro a ha hne; rw [List.getElem?_set_ne (Ne.symm hne)]

theorem run_view : ∀ (as : List (Act α)) (s s' : Store) (c : Nat) (o1 o2 o1' o2' : Obj α) (b1 b2 : Batch α),
    o1.view s = some b1 → o2.view s = some b2 → o1.addr ≠ o2.addr → c ≠ o1.addr → c ≠ o2.addr → c < s.length →
    runTwo s c o1 o2 as = .ok (s', o1', o2') →
    ∃ b1' b2', b1.run (firstOps as) = .ok b1' ∧ b2.run (secondOps as) = .ok b2' ∧
      o1'.view s' = some b1' ∧ o2'.view s' = some b2' := by
  intro as
  induction as with
  | nil =>
    intro s s' c o1 o2 o1' o2' b1 b2 h1 h2 _ _ _ _ hr
    simp only [runTwo, Except.ok.injEq, Prod.mk.injEq] at hr
    obtain ⟨rfl, rfl, rfl⟩ := hr
    exact ⟨b1, b2, rfl, rfl, h1, h2⟩
  | cons a as ih =>
    intro s s' c o1 o2 o1' o2' b1 b2 h1 h2 hne hc1 hc2 hc hr
    have addr_lt : ∀ (o : Obj α) (b : Batch α), o.view s = some b → o.addr < s.length := by
      intro o b h
      unfold Obj.view at h; cases hs : s[o.addr]? with
      | none => simp [hs] at h
      | some ms => exact (List.getElem?_eq_some_iff.mp hs).1
    have l1 := addr_lt o1 b1 h1
    have l2 := addr_lt o2 b2 h2
    cases a with
    | first op =>
      simp only [runTwo] at hr
      cases hs : o1.step s op with
      | error e => simp [hs] at hr
      | ok r =>
        obtain ⟨s1, o1a⟩ := r
        simp only [hs] at hr
        obtain ⟨⟨b, b', hv, hb, hv'⟩, hlen, hadr, hfr⟩ := step_frame hs
        rw [h1] at hv; simp at hv; subst hv
        have h2' : o2.view s1 = some b2 := by
          unfold Obj.view at h2 ⊢; rw [hfr _ l2 (Ne.symm hne)]; exact h2
        obtain ⟨r1, r2, e1, e2, v1, v2⟩ := ih s1 s' c o1a o2 o1' o2' b' b2 hv' h2'
          (by rcases hadr with h | h <;> omega) (by rcases hadr with h | h <;> omega) hc2 (by omega) hr
        exact ⟨r1, r2, by simp only [firstOps, Batch.run, hb, e1], by simpa [secondOps] using e2, v1, v2⟩
    | second op =>
      simp only [runTwo] at hr
      cases hs : o2.step s op with
      | error e => simp [hs] at hr
      | ok r =>
        obtain ⟨s1, o2a⟩ := r
        simp only [hs] at hr
        obtain ⟨⟨b, b', hv, hb, hv'⟩, hlen, hadr, hfr⟩ := step_frame hs
        rw [h2] at hv; simp at hv; subst hv
        have h1' : o1.view s1 = some b1 := by
          unfold Obj.view at h1 ⊢; rw [hfr _ l1 hne]; exact h1
        obtain ⟨r1, r2, e1, e2, v1, v2⟩ := ih s1 s' c o1 o2a o1' o2' b1 b' h1' hv'
          (by rcases hadr with h | h <;> omega) hc1 (by rcases hadr with h | h <;> omega) (by omega) hr
        exact ⟨r1, r2, by simpa [firstOps] using e1, by simp only [secondOps, Batch.run, hb, e2], v1, v2⟩
    | caller ms =>
      simp only [runTwo] at hr
      have h1' : o1.view (s.set c ms) = some b1 := by
        unfold Obj.view at h1 ⊢; rw [List.getElem?_set_ne hc1]; exact h1
      have h2' : o2.view (s.set c ms) = some b2 := by
        unfold Obj.view at h2 ⊢; rw [List.getElem?_set_ne hc2]; exact h2
      obtain ⟨r1, r2, e1, e2, v1, v2⟩ := ih (s.set c ms) s' c o1 o2 o1' o2' b1 b2 h1' h2' hne hc1 hc2 (by simpa using hc) hr
      exact ⟨r1, r2, by simpa [firstOps] using e1, by simpa [secondOps] using e2, v1, v2⟩

theorem run_frame : ∀ (ops : List (MuOp α)) (s s' : Store) (o o' : Obj α), (∃ b, o.view s = some b) →
    o.run s ops = .ok (s', o') → (∃ b', o'.view s' = some b') ∧ s.length ≤ s'.length ∧ (o'.addr = o.addr ∨ s.length ≤ o'.addr)
  | [], s, s', o, o', hv, h => by
    simp only [Obj.run, Except.ok.injEq, Prod.mk.injEq] at h
    obtain ⟨rfl, rfl⟩ := h
    exact ⟨hv, le_refl _, Or.inl rfl⟩
  | op :: ops, s, s', o, o', _, h => by
    simp only [Obj.run] at h
    cases hs : o.step s op with
    | error e => simp [hs] at h
    | ok r =>
      obtain ⟨s1, o1⟩ := r
      simp only [hs] at h
      obtain ⟨⟨b, b', -, -, hv'⟩, hlen, hadr, -⟩ := step_frame hs
      obtain ⟨h1, h2, h3⟩ := run_frame ops s1 s' o1 o' ⟨b', hv'⟩ h
      exact ⟨h1, by omega, by omega⟩

/-- **C08.** Make a batch from a caller's tensor, run any history on it, copy it. The copy shows the same muons with no hits, nothing removed
and no snapshots; and after any interleaving of further operations on the two batches and of in-place writes to the
caller's tensor, each batch shows exactly what it would show had only its own operations been run. -/
theorem copy_independent (s0 s1 s2 s3 : Store) (c : Nat) (o0 o1 o2 o1' o2' : Obj α) (pre : List (MuOp α)) (as : List (Act α))
    (hnew : newBatch s0 c = .ok (s1, o0)) (hpre : o0.run s1 pre = .ok (s2, o1)) (hcopy : copyObj s2 o1 = .ok (s3, o2))
    (s' : Store) (hr : runTwo s3 c o1 o2 as = .ok (s', o1', o2')) :
    ∃ b, o1.view s3 = some b ∧ o2.view s3 = some ⟨b.muons, [], [], []⟩ ∧
      ∃ b1 b2, b.run (firstOps as) = .ok b1 ∧ (⟨b.muons, [], [], []⟩ : Batch α).run (secondOps as) = .ok b2 ∧
        o1'.view s' = some b1 ∧ o2'.view s' = some b2 := by
  unfold newBatch at hnew
  cases hc : s0[c]? with
  | none => simp [hc] at hnew
  | some ms0 =>
    simp only [hc, Except.ok.injEq, Prod.mk.injEq] at hnew
    obtain ⟨rfl, rfl⟩ := hnew
    have hclt : c < s0.length := (List.getElem?_eq_some_iff.mp hc).1
    obtain ⟨⟨b', hv'⟩, hlen, hadr⟩ := run_frame pre _ _ _ _ ⟨⟨ms0, [], [], []⟩, by simp [Obj.view]⟩ hpre
    simp only [List.length_append, List.length_singleton] at hlen hadr
    unfold copyObj at hcopy
    cases hs2 : s2[o1.addr]? with
    | none => simp [hs2] at hcopy
    | some ms =>
      simp only [hs2, Except.ok.injEq, Prod.mk.injEq] at hcopy
      obtain ⟨rfl, rfl⟩ := hcopy
      have hlt : o1.addr < s2.length := (List.getElem?_eq_some_iff.mp hs2).1
      have hb' : b' = ⟨ms, o1.removed, o1.hits, o1.hist⟩ := by
        simpa [Obj.view, hs2] using hv'.symm
      have v1 : o1.view (s2 ++ [ms]) = some b' := by
        unfold Obj.view; rw [List.getElem?_append_left hlt, hs2, hb']
      have v2 : (⟨s2.length, [], [], []⟩ : Obj α).view (s2 ++ [ms]) = some ⟨b'.muons, [], [], []⟩ := by
        simp [Obj.view, hb']
      refine ⟨b', v1, v2, ?_⟩
      refine run_view as _ s' c o1 _ o1' o2' b' _ v1 v2 ?_ ?_ ?_ ?_ hr
      · simp only; omega
      · omega
      · simp only; omega
      · simp only [List.length_append, List.length_singleton]; omega

/-- **C08.** Copying a batch through its object gives the by-value copy used elsewhere in the model; it always succeeds. -/
theorem copy_value (s : Store) (o : Obj α) (b : Batch α) (hv : o.view s = some b) :
    ∃ s' o', copyObj s o = .ok (s', o') ∧ o'.view s' = some b.copy ∧ o.view s' = some b := by
  unfold Obj.view at hv
  cases hs : s[o.addr]? with
  | none => simp [hs] at hv
  | some ms =>
    simp only [hs, Option.some.injEq] at hv
    subst hv
    refine ⟨s ++ [ms], ⟨s.length, [], [], []⟩, by simp [copyObj, hs], by simp [Obj.view, Batch.copy], ?_⟩
    unfold Obj.view
    rw [List.getElem?_append_left (List.getElem?_eq_some_iff.mp hs).1, hs]

example : ∃ s' o', copyObj [[⟨0, 0, 0, 1, 1, 0, 0⟩]] (⟨0, [], [("above", [("x", [[1]])])], []⟩ : Obj Nat) = .ok (s', o') ∧
    o'.view s' = some (Batch.copy ⟨[⟨0, 0, 0, 1, 1, 0, 0⟩], [], [("above", [("x", [[1]])])], []⟩) :=
  let ⟨s', o', h1, h2, _⟩ := copy_value [[⟨0, 0, 0, 1, 1, 0, 0⟩]] (⟨0, [], [("above", [("x", [[1]])])], []⟩ : Obj Nat) _ rfl
  ⟨s', o', h1, h2⟩

/-- Non-vacuity: the same muon moved through the original and the copy by different amounts, with the caller's tensor overwritten in between. -/
example : ∃ s1 o0 s2 o1 s3 o2 r, newBatch (α := Nat) [[⟨0, 0, 0, 1, 1, 0, 0⟩]] 0 = .ok (s1, o0) ∧
    o0.run s1 [.snap] = .ok (s2, o1) ∧ copyObj s2 o1 = .ok (s3, o2) ∧
    runTwo s3 0 o1 o2 [.first (.propDz (.scalar 1) none), .caller [], .second (.filter [false]), .first .snap] = .ok r :=
  ⟨_, _, _, _, _, _, _, rfl, rfl, rfl, rfl⟩

end C08

namespace C09

/-- **C09.** In every batch reachable by a history with aligned recordings, `get_hits` raises ValueError exactly when nothing has been
recorded; otherwise it returns, for every position and variable recorded, one row per muon within the window (in batch order), and
element `j` of the row of muon `m` is the value recorded for `m` by the `j`-th recording. -/
theorem get_hits_spec (b b' : Batch α) (ops : List (MuOp α)) (h0 : b.hits = []) (hn : b.ids.Nodup)
    (ha : AlignedHistory b ops) (hr : b.run ops = .ok b') (low high : Option (ℝ × ℝ)) :
    (b'.getHits low high = .error .valueError ↔ ∀ pos var, recorded pos var b ops = []) ∧
    ((∃ pos var, recorded pos var b ops ≠ []) → ∃ d, b'.getHits low high = .ok d ∧
      ∀ pos var, recorded pos var b ops ≠ [] → ∃ vars rows, d.get? pos = some vars ∧ vars.get? var = some rows ∧
        rows.map (·.map some) = (b'.muons.filter (Batch.inWindow low high)).map fun m =>
          (recorded pos var b ops).map fun rec => rec.lookup m.id) := by
  have hwf := run_HitsOk ops b b' (by rw [h0]; intro _ h; simp at h) ha hr
  have hrec := fun pos var => C01.hits_follow_muons b b' ops h0 hn ha hr pos var
  have hempty : b'.hits = [] ↔ ∀ pos var, recorded pos var b ops = [] := by
    constructor
    · intro h pos var
      have := hrec pos var
      simp only [Batch.tensors, h, Dict.get?, List.map_nil] at this
      exact List.map_eq_nil_iff.mp this.symm
    · intro h
      cases hh : b'.hits with
      | nil => rfl
      | cons pv rest =>
        obtain ⟨pos, vars⟩ := pv
        obtain ⟨hne, hv⟩ := hwf (pos, vars) (by rw [hh]; simp)
        cases vars with
        | nil => exact absurd rfl hne
        | cons vt vrest =>
          obtain ⟨var, ts⟩ := vt
          have h1 := (hv (var, ts) (by simp)).1
          have h2 := hrec pos var
          rw [h pos var] at h2
          simp [Batch.tensors, hh, Dict.get?] at h2
          exact absurd h2 h1
  constructor
  · rw [← hempty]
    constructor
    · intro h
      by_contra hne
      rw [getHits_ok b' hwf hne] at h
      simp at h
    · intro h; simp [Batch.getHits, h]
  · rintro ⟨pos0, var0, h1⟩
    have hne : b'.hits ≠ [] := fun h => h1 (hempty.mp h pos0 var0)
    refine ⟨_, getHits_ok b' hwf hne low high, ?_⟩
    intro pos var hpv
    have h2 := hrec pos var
    have hts : b'.tensors pos var ≠ [] := by
      intro h; rw [h] at h2; exact hpv (List.map_eq_nil_iff.mp h2.symm)
    unfold Batch.tensors at hts h2
    cases hp : b'.hits.get? pos with
    | none => simp [hp] at hts
    | some vars =>
      simp only [hp] at hts h2
      cases hv : vars.get? var with
      | none => simp [hv] at hts
      | some ts =>
        simp only [hv] at h2
        have hl : ∀ t ∈ ts, t.length = b'.muons.length :=
          ((hwf _ (Dict.mem_of_get? hp)).2 _ (Dict.mem_of_get? hv)).2
        refine ⟨_, _, by rw [Dict.get?_mapVals, hp]; rfl, by rw [Dict.get?_mapVals, hv]; rfl, ?_⟩
        rw [← pick_map, stacked_rows b'.muons ts (recorded pos var b ops) (fun rec m => rec.lookup m.id) hl h2,
          pick_map, Batch.xyMask, pick_map_filter]

/-- Non-vacuity: two muons, one recording, one muon dropped, a second recording. -/
example : AlignedHistory (⟨[⟨0, 0, 0, 1, 1, 0, 0⟩, ⟨1, 1, 0, 1, 1, 0, 0⟩], [], [], []⟩ : Batch Nat)
      [.append [("reco_xy", [10, 11])] "above", .filter [true, false], .append [("reco_xy", [20])] "above"] ∧
    recorded "above" "reco_xy" (⟨[⟨0, 0, 0, 1, 1, 0, 0⟩, ⟨1, 1, 0, 1, 1, 0, 0⟩], [], [], []⟩ : Batch Nat)
      [.append [("reco_xy", [10, 11])] "above", .filter [true, false], .append [("reco_xy", [20])] "above"] =
      [[(0, 10), (1, 11)], [(0, 20)]] := by
  constructor
  · simp [AlignedHistory, AlignedOp, Batch.step, Batch.appendHits, Batch.filterMuons, countTrue, pick]
  · simp [recorded, recordedBy, Batch.ids, Batch.step, Batch.appendHits, Batch.filterMuons, countTrue, pick]

end C09

end Tomopt
