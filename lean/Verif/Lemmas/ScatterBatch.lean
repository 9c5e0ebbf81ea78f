import Verif.Lemmas.Hits
import Verif.Lemmas.Vec

/- Helper lemmas for scatter batches: combined tensors and masks. -/
namespace Tomopt

open Scatter

variable {α β γ δ : Type}

theorem mapE_pick (f : β → Except Err γ) : ∀ (m : List Bool) (xs : List β) (ys : List γ), mapE f xs = .ok ys → mapE f (pick m xs) = .ok (pick m ys)
  | m, [], ys, h => by simp [mapE] at h; subst h; simp [mapE]
  | [], x :: xs, ys, h => by simp [mapE]
  | b :: m, x :: xs, ys, h => by
    simp only [mapE] at h
    cases h1 : f x with
    | error e => simp [h1] at h
    | ok y =>
      cases h2 : mapE f xs with
      | error e => simp [h1, h2] at h
      | ok zs =>
        simp [h1, h2] at h
        subst h
        have ih := mapE_pick f m xs zs h2
        cases b
        · simpa using ih
        · simp [mapE, h1, ih]

theorem mapE_length (f : β → Except Err γ) : ∀ (xs : List β) (ys : List γ), mapE f xs = .ok ys → ys.length = xs.length
  | [], ys, h => by simp [mapE] at h; subst h; rfl
  | x :: xs, ys, h => by
    simp only [mapE] at h
    cases h1 : f x with
    | error e => simp [h1] at h
    | ok y =>
      cases h2 : mapE f xs with
      | error e => simp [h1, h2] at h
      | ok zs =>
        simp [h1, h2] at h
        subst h
        simp [mapE_length f xs zs h2]

theorem mapE_get (f : β → Except Err γ) : ∀ (xs : List β) (ys : List γ), mapE f xs = .ok ys → ∀ (i : Nat) (x : β), xs[i]? = some x → ∃ y, ys[i]? = some y ∧ f x = .ok y
  | [], ys, h, i, x, hx => by simp at hx
  | x' :: xs, ys, h, i, x, hx => by
    simp only [mapE] at h
    cases h1 : f x' with
    | error e => simp [h1] at h
    | ok y =>
      cases h2 : mapE f xs with
      | error e => simp [h1, h2] at h
      | ok zs =>
        simp [h1, h2] at h
        subst h
        cases i with
        | zero => simp at hx; subst hx; exact ⟨y, by simp, h1⟩
        | succ i => simpa using mapE_get f xs zs h2 i x (by simpa using hx)

theorem mapE_take (f : β → Except Err γ) (n : Nat) : ∀ (xs : List β) (ys : List γ), mapE f xs = .ok ys → mapE f (xs.take n) = .ok (ys.take n) ∧
    mapE f (xs.drop n) = .ok (ys.drop n) := by
  induction n with
  | zero => intro xs ys h; simp [mapE, h]
  | succ n ih =>
    intro xs ys h
    cases xs with
    | nil => simp [mapE] at h; subst h; simp [mapE]
    | cons x xs =>
      simp only [mapE] at h
      cases h1 : f x with
      | error e => simp [h1] at h
      | ok y =>
        cases h2 : mapE f xs with
        | error e => simp [h1, h2] at h
        | ok zs =>
          simp [h1, h2] at h
          subst h
          obtain ⟨i1, i2⟩ := ih xs zs h2
          simp [mapE, h1, i1, i2]

theorem pick_zip : ∀ (m : List Bool) (xs : List β) (ys : List γ), pick m (xs.zip ys) = (pick m xs).zip (pick m ys)
  | [], xs, ys => by simp
  | b :: m, [], ys => by simp
  | b :: m, x :: xs, [] => by cases b <;> simp
  | b :: m, x :: xs, y :: ys => by cases b <;> simp [pick_zip m xs ys]

theorem pick_zipWith (f : β → γ → δ) : ∀ (m : List Bool) (xs : List β) (ys : List γ), pick m (List.zipWith f xs ys) = List.zipWith f (pick m xs) (pick m ys)
  | [], xs, ys => by simp
  | b :: m, [], ys => by simp
  | b :: m, x :: xs, [] => by cases b <;> simp
  | b :: m, x :: xs, y :: ys => by cases b <;> simp [pick_zipWith f m xs ys]

theorem catDim1_pick (m : List Bool) (a b c : List (List β)) (hm : m.length = a.length) (h : catDim1 a b = .ok c) : catDim1 (pick m a) (pick m b) = .ok (pick m c) := by
  unfold catDim1 at h ⊢
  split at h
  · rename_i hl
    simp only [Except.ok.injEq] at h
    subst h
    rw [if_pos, pick_zipWith]
    rw [pick_length m a hm, pick_length m b (by rw [hm, hl])]
  · simp at h

theorem pick_map_self (p : γ → Bool) : ∀ (m : List Bool) (xs : List γ), m = xs.map p → (pick m xs).map p = List.replicate (pick m xs).length true
  | [], xs, _ => by simp
  | b :: m, [], h => by simp at h
  | b :: m, x :: xs, h => by
    simp only [List.map_cons, List.cons.injEq] at h
    have ih := pick_map_self p m xs h.2
    cases hb : b
    · simp only [pick_false]; exact ih
    · rw [hb] at h; simp [List.replicate_succ, ih, ← h.1]

/-- stacking filtered tensors is filtering the stacked tensor -/
theorem stack_pick : ∀ (m : List Bool) (ts : List (List α)), (∀ t ∈ ts, t.length = m.length) →
    ((List.range (countTrue m)).map fun i => (ts.map (pick m)).filterMap fun u => u[i]?) =
      pick m ((List.range m.length).map fun i => ts.filterMap fun u => u[i]?)
  | [], ts, _ => by simp
  | b :: m, ts, h => by
    have ht : ∀ t ∈ ts.map List.tail, t.length = m.length := by
      intro t ht
      obtain ⟨u, hu, rfl⟩ := List.mem_map.mp ht
      have := h u hu
      simp at this ⊢; omega
    have ih := stack_pick m (ts.map List.tail) ht
    have e1 : ((List.range (b :: m).length).map fun i => ts.filterMap fun u => u[i]?) =
        (ts.filterMap fun u => u[0]?) :: ((List.range m.length).map fun i => (ts.map List.tail).filterMap fun u => u[i]?) := by
      rw [List.length_cons, List.range_succ_eq_map, List.map_cons, List.map_map]
      congr 1
      apply List.map_congr_left
      intro i _
      simp only [Function.comp, List.filterMap_map]
      apply List.filterMap_congr
      intro u hu
      cases u <;> simp
    have nonempty : ∀ t ∈ ts, ∃ x tl, t = x :: tl := by
      intro t ht
      have := h t ht
      cases t with
      | nil => simp at this
      | cons x tl => exact ⟨x, tl, rfl⟩
    rw [e1]
    cases b
    · rw [pick_false, countTrue_false, ← ih]
      apply List.map_congr_left
      intro i _
      simp only [List.map_map, List.filterMap_map]
      apply List.filterMap_congr
      intro u hu
      obtain ⟨x, tl, rfl⟩ := nonempty u hu
      simp
    · rw [pick_true, countTrue_true, ← ih, List.range_succ_eq_map, List.map_cons, List.map_map]
      congr 1
      · simp only [List.filterMap_map]
        apply List.filterMap_congr
        intro u hu
        obtain ⟨x, tl, rfl⟩ := nonempty u hu
        simp
      · apply List.map_congr_left
        intro i _
        simp only [Function.comp, List.filterMap_map]
        apply List.filterMap_congr
        intro u hu
        obtain ⟨x, tl, rfl⟩ := nonempty u hu
        simp

/-- the dictionary returned by `get_hits` without a window -/
def stackedHits (n : Nat) (hits : Dict String (Dict String (List (List α)))) : Dict String (Dict String (List (List α))) :=
  hits.mapVals fun vars => vars.mapVals fun ts => (List.range n).map fun i => ts.filterMap fun u => u[i]?

theorem getHits_stacked (b : Batch α) (h : HitsOk b.muons.length b.hits) (hne : b.hits ≠ []) :
    b.getHits none none = .ok (stackedHits b.muons.length b.hits) := by
  unfold Batch.getHits
  rw [if_neg (by simpa using hne)]
  simp only [Option.isNone_none, Bool.and_self, if_true]
  apply mapValsM_ok
  intro pv hpv
  apply mapValsM_ok
  intro vt hvt
  rw [stack1_ok ((h pv hpv).2 vt hvt).1 ((h pv hpv).2 vt hvt).2]

theorem stackedHits_filter (m : List Bool) (hits : Dict String (Dict String (List (List α)))) (h : HitsOk m.length hits) :
    stackedHits (countTrue m) (Batch.filterHits hits m) = (stackedHits m.length hits).mapVals fun vars => vars.mapVals (pick m) := by
  simp only [stackedHits, Batch.filterHits, Dict.mapVals, List.map_map]
  apply List.map_congr_left
  intro pv hpv
  simp only [Function.comp, List.map_map, Prod.mk.injEq, true_and]
  apply List.map_congr_left
  intro vt hvt
  simp only [Function.comp, Prod.mk.injEq, true_and]
  exact stack_pick m vt.2 ((h pv hpv).2 vt hvt).2

/-- every row of a stacked tensor has one entry per recording -/
theorem stackedHits_width (n : Nat) (hits : Dict String (Dict String (List (List Row)))) (h : HitsOk n hits) (pos var : String) (t : List (List Row))
    (ht : hitVar (stackedHits n hits) pos var = .ok t) : t.length = n ∧ ∃ k, ∀ r ∈ t, r.length = k := by
  unfold hitVar at ht
  cases hp : (stackedHits n hits).get? pos with
  | none => simp [hp] at ht
  | some vars =>
    simp only [hp] at ht
    cases hv : vars.get? var with
    | none => simp [hv] at ht
    | some t' =>
      simp only [hv, Except.ok.injEq] at ht
      subst ht
      unfold stackedHits at hp
      rw [Dict.get?_mapVals, Option.map_eq_some_iff] at hp
      obtain ⟨vars0, hp0, rfl⟩ := hp
      rw [Dict.get?_mapVals, Option.map_eq_some_iff] at hv
      obtain ⟨ts, hv0, rfl⟩ := hv
      have hok := (h _ (Dict.mem_of_get? hp0)).2 _ (Dict.mem_of_get? hv0)
      refine ⟨by simp, ts.length, ?_⟩
      intro r hr
      obtain ⟨i, hi, rfl⟩ := List.mem_map.mp hr
      simp only [List.mem_range] at hi
      have hall : ∀ (ts : List (List Row)), (∀ t ∈ ts, t.length = n) → (ts.filterMap fun u => u[i]?).length = ts.length := by
        intro ts hts
        induction ts with
        | nil => rfl
        | cons t ts ih =>
          have : i < t.length := by rw [hts t (by simp)]; exact hi
          simp [List.getElem?_eq_getElem this, ih (fun u hu => hts u (by simp [hu]))]
      exact hall ts hok.2

theorem hitVar_pick (d : Dict String (Dict String (List (List Row)))) (m : List Bool) (pos var : String) :
    hitVar (d.mapVals fun vars => vars.mapVals (pick m)) pos var = (hitVar d pos var).map (pick m) := by
  unfold hitVar
  rw [Dict.get?_mapVals]
  cases d.get? pos with
  | none => rfl
  | some vars =>
    simp only [Option.map_some]
    rw [Dict.get?_mapVals]
    cases vars.get? var <;> rfl

/-- the parts of a successful extraction -/
theorem extract_parts {h : Dict String (Dict String (List (List Row)))} {H : Hits} (he : extract h = .ok H) :
    ∃ ra rb ga gb ua ub ea eb : List (List Row), ∃ r g u e,
      hitVar h "above" "reco_xyz" = .ok ra ∧ hitVar h "below" "reco_xyz" = .ok rb ∧ hitVar h "above" "gen_xyz" = .ok ga ∧ hitVar h "below" "gen_xyz" = .ok gb ∧
      hitVar h "above" "unc_xyz" = .ok ua ∧ hitVar h "below" "unc_xyz" = .ok ub ∧ hitVar h "above" "eff" = .ok ea ∧ hitVar h "below" "eff" = .ok eb ∧
      catDim1 ra rb = .ok r ∧ catDim1 ga gb = .ok g ∧ catDim1 ua ub = .ok u ∧ catDim1 ea eb = .ok e ∧
      mapE (mapE parse3) r = .ok H.reco ∧ mapE (mapE parse3) g = .ok H.gen ∧ mapE (mapE parse3) u = .ok H.unc ∧ mapE (mapE parse1) e = .ok H.eff ∧
      H.nAbove = shape1 ra ∧ H.nBelow = shape1 rb := by
  unfold extract at he
  obtain ⟨ra, h1, he⟩ := bind_ok he
  obtain ⟨rb, h2, he⟩ := bind_ok he
  obtain ⟨r, h3, he⟩ := bind_ok he
  obtain ⟨g, h4, he⟩ := bind_ok he
  obtain ⟨u, h5, he⟩ := bind_ok he
  obtain ⟨e, h6, he⟩ := bind_ok he
  obtain ⟨r', h7, he⟩ := bind_ok he
  obtain ⟨g', h8, he⟩ := bind_ok he
  obtain ⟨u', h9, he⟩ := bind_ok he
  obtain ⟨e', h10, he⟩ := bind_ok he
  simp only [Except.ok.injEq] at he
  subst he
  unfold bothSides at h3 h4 h5 h6
  obtain ⟨ra', k1, h3⟩ := bind_ok h3
  obtain ⟨rb', k2, h3⟩ := bind_ok h3
  obtain ⟨ga, k3, h4⟩ := bind_ok h4
  obtain ⟨gb, k4, h4⟩ := bind_ok h4
  obtain ⟨ua, k5, h5⟩ := bind_ok h5
  obtain ⟨ub, k6, h5⟩ := bind_ok h5
  obtain ⟨ea, k7, h6⟩ := bind_ok h6
  obtain ⟨eb, k8, h6⟩ := bind_ok h6
  rw [h1] at k1
  rw [h2] at k2
  simp only [Except.ok.injEq] at k1 k2
  subst k1 k2
  exact ⟨ra, rb, ga, gb, ua, ub, ea, eb, r, g, u, e, h1, h2, k3, k4, k5, k6, k7, k8, h3, h4, h5, h6, h7, h8, h9, h10, rfl, rfl⟩

end Tomopt
