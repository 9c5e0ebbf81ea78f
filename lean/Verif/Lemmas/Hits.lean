import Verif.Props.C01_02

/- Helper lemmas for the retrieval of hits. -/
namespace Tomopt

variable {α : Type}

/-- Shape of the hit dictionary: no empty entries, one row per muon in every tensor. -/
def HitsOk (n : Nat) (hits : Dict String (Dict String (List (List α)))) : Prop :=
  ∀ pv ∈ hits, pv.2 ≠ [] ∧ ∀ vt ∈ pv.2, vt.2 ≠ [] ∧ ∀ t ∈ vt.2, t.length = n

theorem Dict.mem_modify {κ v : Type} [DecidableEq κ] {d : Dict κ v} {k : κ} {df : v} {f : v → v} {q : κ × v}
    (h : q ∈ d.modify k df f) : q ∈ d ∨ q.2 = f df ∨ ∃ x ∈ d, q.2 = f x.2 := by
  induction d with
  | nil => simp [modify] at h; right; left; rw [h]
  | cons hd d ih =>
    obtain ⟨k', v'⟩ := hd
    simp only [modify] at h
    split at h
    · rcases List.mem_cons.mp h with h | h
      · right; right; exact ⟨(k', v'), by simp, by rw [h]⟩
      · left; simp [h]
    · rcases List.mem_cons.mp h with h | h
      · left; simp [h]
      · rcases ih h with h | h | ⟨x, hx, h⟩
        · left; simp [h]
        · right; left; exact h
        · right; right; exact ⟨x, by simp [hx], h⟩

theorem Dict.modify_ne_nil {κ v : Type} [DecidableEq κ] (d : Dict κ v) (k : κ) (df : v) (f : v → v) :
    d.modify k df f ≠ [] := by
  cases d with
  | nil => simp [modify]
  | cons hd d => obtain ⟨k', v'⟩ := hd; simp only [modify]; split <;> simp

theorem HitsOk_append {n : Nat} {hits : Dict String (Dict String (List (List α)))} (h : HitsOk n hits) (p : String) :
    ∀ (new : Dict String (List α)) , (∀ kv ∈ new, kv.2.length = n) →
      HitsOk n (new.foldl (fun acc kv =>
        acc.modify p [] fun vars => vars.modify kv.1 [] fun tensors => tensors ++ [kv.2]) hits) := by
  intro new
  induction new generalizing hits with
  | nil => intro _; simpa using h
  | cons kv new ih =>
    intro hl
    simp only [List.foldl_cons]
    refine ih ?_ (fun kv' h' => hl kv' (by simp [h']))
    have hkv := hl kv (by simp)
    have inner : ∀ vars : Dict String (List (List α)),
        (∀ vt ∈ vars, vt.2 ≠ [] ∧ ∀ t ∈ vt.2, t.length = n) →
        ∀ vt ∈ Dict.modify vars kv.1 [] (fun ts => ts ++ [kv.2]), vt.2 ≠ [] ∧ ∀ t ∈ vt.2, t.length = n := by
      intro vars hv vt hvt
      rcases Dict.mem_modify hvt with h1 | h1 | ⟨x, hx, h1⟩
      · exact hv vt h1
      · rw [h1]; simpa using hkv
      · rw [h1]
        refine ⟨by simp, ?_⟩
        intro t ht
        rcases List.mem_append.mp ht with h2 | h2
        · exact (hv x hx).2 t h2
        · simp at h2; rw [h2]; exact hkv
    intro pv hpv
    rcases Dict.mem_modify hpv with h1 | h1 | ⟨x, hx, h1⟩
    · exact h pv h1
    · rw [h1]; exact ⟨Dict.modify_ne_nil _ _ _ _, inner [] (by simp)⟩
    · rw [h1]; exact ⟨Dict.modify_ne_nil _ _ _ _, inner x.2 (h x hx).2⟩

theorem HitsOk_filter {n : Nat} {hits : Dict String (Dict String (List (List α)))} (h : HitsOk n hits)
    {keep : List Bool} (hk : keep.length = n) : HitsOk (countTrue keep) (Batch.filterHits hits keep) := by
  intro pv hpv
  simp only [Batch.filterHits, Dict.mapVals, List.mem_map] at hpv
  obtain ⟨x, hx, rfl⟩ := hpv
  obtain ⟨h1, h2⟩ := h x hx
  refine ⟨by simpa [Dict.mapVals] using h1, ?_⟩
  intro vt hvt
  simp only [List.mem_map] at hvt
  obtain ⟨y, hy, rfl⟩ := hvt
  obtain ⟨h3, h4⟩ := h2 y hy
  refine ⟨by simpa using h3, ?_⟩
  intro t ht
  simp only [List.mem_map] at ht
  obtain ⟨u, hu, rfl⟩ := ht
  rw [pick_length _ _ (by rw [hk, h4 u hu])]

theorem step_HitsOk {b b' : Batch α} {op : MuOp α} (hs : b.step op = .ok b') (ha : AlignedOp b op)
    (h : HitsOk b.muons.length b.hits) : HitsOk b'.muons.length b'.hits := by
  by_cases hap : ∃ hits p, op = .append hits p
  · obtain ⟨hits, p, rfl⟩ := hap
    simp only [Batch.step, Except.ok.injEq] at hs
    subst hs
    exact HitsOk_append h p hits ha
  · rcases step_cases hs (fun hits p h => hap ⟨hits, p, h⟩) with hsame | ⟨keep, hf⟩
    · have := congrArg List.length hsame.keys
      simp only [List.length_map] at this
      rw [this, hsame.hits]; exact h
    · have hl := congrArg List.length hf.kept
      rw [pick_length _ _ (by simpa using hf.len)] at hl
      simp only [List.length_map] at hl
      rw [hl, hf.hits]; exact HitsOk_filter h hf.len

theorem run_HitsOk : ∀ (ops : List (MuOp α)) (b b' : Batch α), HitsOk b.muons.length b.hits → AlignedHistory b ops →
    b.run ops = .ok b' → HitsOk b'.muons.length b'.hits
  | [], b, b', h, _, hr => by simp only [Batch.run, Except.ok.injEq] at hr; subst hr; exact h
  | op :: ops, b, b', h, ha, hr => by
    simp only [Batch.run] at hr
    simp only [AlignedHistory] at ha
    cases hs : b.step op with
    | error e => simp [hs] at hr
    | ok b1 =>
      simp only [hs] at hr ha
      exact run_HitsOk ops b1 b' (step_HitsOk hs ha.1 h) ha.2 hr

theorem stack1_ok {n : Nat} {ts : List (List α)} (h1 : ts ≠ []) (h2 : ∀ t ∈ ts, t.length = n) :
    Batch.stack1 ts = .ok ((List.range n).map fun i => ts.filterMap fun u => u[i]?) := by
  cases ts with
  | nil => exact absurd rfl h1
  | cons t ts =>
    have ht := h2 t (by simp)
    have h3 : ∀ u ∈ ts, u.length = n := fun u hu => h2 u (by simp [hu])
    simp [Batch.stack1, ht]; exact h3

theorem mapValsM_ok {κ v w : Type} (f : v → Except Err w) (g : v → w) : ∀ (d : Dict κ v),
    (∀ q ∈ d, f q.2 = .ok (g q.2)) → Batch.mapValsM d f = .ok (d.mapVals g)
  | [], _ => rfl
  | (k, x) :: d, h => by
    have h1 := h (k, x) (by simp)
    have ih := mapValsM_ok f g d (fun q hq => h q (by simp [hq]))
    simp only [Batch.mapValsM, h1, ih, bind, Except.bind, Dict.mapVals, List.map_cons]

/-- `torch.stack` of aligned tensors, row by row. -/
theorem stacked_rows {μ ρ : Type} (ms : List μ) (ts : List (List α)) (recs : List ρ) (f : ρ → μ → Option α)
    (hl : ∀ t ∈ ts, t.length = ms.length)
    (h : ts.map (·.map some) = recs.map fun rec => ms.map (f rec)) :
    ((List.range ms.length).map fun i => ts.filterMap fun u => u[i]?).map (·.map some) =
      ms.map fun m => recs.map fun rec => f rec m := by
  apply List.ext_getElem
  · simp
  intro i h1 h2
  simp only [List.length_map, List.length_range] at h1 h2
  simp only [List.getElem_map, List.getElem_range]
  have e1 : ∀ ts : List (List α), (∀ t ∈ ts, t.length = ms.length) →
      (ts.filterMap fun u => u[i]?).map some = ts.map fun u => u[i]? := by
    intro ts hl
    induction ts with
    | nil => rfl
    | cons t ts ih =>
      have ht : i < t.length := by rw [hl t (by simp)]; exact h1
      simp [List.getElem?_eq_getElem ht, ih (fun u hu => hl u (by simp [hu]))]
  rw [e1 ts hl]
  have h3 := congrArg (List.map fun v : List (Option α) => (v[i]?).join) h
  simp only [List.map_map] at h3
  have e2 : ts.map (fun u => u[i]?) = ts.map ((fun v : List (Option α) => (v[i]?).join) ∘ fun x => List.map some x) := by
    apply List.map_congr_left
    intro t _
    simp only [Function.comp, List.getElem?_map]
    cases t[i]? <;> rfl
  rw [e2, h3]
  apply List.map_congr_left
  intro r _
  simp [List.getElem?_eq_getElem h1]

/-- `get_hits` on a well-shaped dictionary. -/
theorem getHits_ok (b : Batch α) (h : HitsOk b.muons.length b.hits) (hne : b.hits ≠ []) (low high : Option (ℝ × ℝ)) :
    b.getHits low high = .ok (b.hits.mapVals fun vars => vars.mapVals fun ts =>
      pick (b.xyMask low high) ((List.range b.muons.length).map fun i => ts.filterMap fun u => u[i]?)) := by
  unfold Batch.getHits
  rw [if_neg (by simpa using hne)]
  split
  · rename_i hc
    simp only [Bool.and_eq_true, Option.isNone_iff_eq_none] at hc
    obtain ⟨rfl, rfl⟩ := hc
    apply mapValsM_ok
    intro pv hpv
    apply mapValsM_ok
    intro vt hvt
    rw [stack1_ok ((h pv hpv).2 vt hvt).1 ((h pv hpv).2 vt hvt).2]
    congr 1
    have : b.xyMask none none = List.replicate b.muons.length true := by
      have e : (Batch.inWindow none none : Muon → Bool) = fun _ => true := by funext m; simp [Batch.inWindow]
      simp [Batch.xyMask, e]
    rw [this]
    have h4 := pick_replicate_true ((List.range b.muons.length).map fun i => vt.2.filterMap fun u => u[i]?)
    simp only [List.length_map, List.length_range] at h4
    exact h4.symm
  · apply mapValsM_ok
    intro pv hpv
    apply mapValsM_ok
    intro vt hvt
    rw [stack1_ok ((h pv hpv).2 vt hvt).1 ((h pv hpv).2 vt hvt).2]
    rfl

end Tomopt
