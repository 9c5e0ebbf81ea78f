import Verif.Lemmas.Passage
import Verif.Props.C26
import Verif.Props.C32_33

/- Helper lemmas: tracks fitted to the true hits of a straight line. -/
namespace Tomopt

noncomputable section
open Real Scatter

/-- the fit does not look at the uncertainty in z -/
theorem axisPts_ones (lw : ℝ × ℝ) (c : X3 → XF) (hc : c (.num 1, .num 1, .num 1) = c (.num 1, .num 1, .num 0)) : ∀ l : List X3,
    axisPts lw c (l.map fun q => (q, (.num 1, .num 1, .num 1))) = axisPts lw c (l.map fun q => (q, (.num 1, .num 1, .num 0)))
  | [] => rfl
  | q :: l => by
    simp only [List.map_cons, axisPts, hc, axisPts_ones lw c hc l]

theorem trajectory_ones (lw : ℝ × ℝ) (l : List X3) :
    trajectory lw (l.map fun q => (q, (.num 1, .num 1, .num 1))) = trajectory lw (l.map fun q => (q, (.num 1, .num 1, .num 0))) := by
  unfold trajectory
  rw [axisPts_ones lw (·.1) rfl, axisPts_ones lw (·.2.1) rfl]
  match l with
  | [] => rfl
  | [_] => rfl
  | _ :: _ :: _ => rfl

/-- what is parsed from the recorded true row -/
def genHit (m : Muon) (z : ℝ) : X3 := (XF.num (crossing m z).1, XF.num (crossing m z).2, XF.num z)

theorem parse_genRows (m : Muon) : ∀ zs : List ℝ, mapE parse3 (zs.map fun z => genRow z m) = .ok (zs.map (genHit m))
  | [] => rfl
  | z :: zs => by
    have h := parse_genRows m zs
    simp only [List.map_cons, mapE, show parse3 (genRow z m) = .ok (genHit m z) from rfl, h]

/-- the fit of the true hits of a downward muon, listed top down, is the muon's line -/
theorem fit_true_line (lw : ℝ × ℝ) (m : Muon) (hd : Downward m) (zs : List ℝ) (h2 : 2 ≤ zs.length) (hs : zs.Pairwise fun a c => c < a) :
    ∃ t, trajectory lw ((zs.map (genHit m)).map fun q => (q, (.num 1, .num 1, .num 1))) = .ok (some t) ∧ IsLineOf t m := by
  match zs, h2 with
  | z0 :: z1 :: zs, _ =>
    have hlt : z1 < z0 := (List.pairwise_cons.mp hs).1 z1 (by simp)
    have hc : 0 < cos m.th := cos_pos_of_mem_Ioo ⟨by linarith [hd.1, pi_pos], hd.2.1⟩
    have hrows : ((z0 :: z1 :: zs).map (genHit m)).map (fun q => ((q, (.num 1, .num 1, .num 0)) : X3 × X3)) =
        C26.rows ((z0 :: z1 :: zs).map fun z => (((crossing m z).1, (crossing m z).2, z), 1, 1)) := by
      simp only [C26.rows, List.map_map]; rfl
    have hfit := C26.exact_line lw (((crossing m z0).1, (crossing m z0).2, z0), 1, 1) (((crossing m z1).1, (crossing m z1).2, z1), 1, 1)
      (zs.map fun z => (((crossing m z).1, (crossing m z).2, z), 1, 1))
      (by
        intro q hq
        rw [← List.map_cons (f := fun z => (((crossing m z).1, (crossing m z).2, z), (1 : ℝ), (1 : ℝ))),
          ← List.map_cons (f := fun z => (((crossing m z).1, (crossing m z).2, z), (1 : ℝ), (1 : ℝ)))] at hq
        obtain ⟨z, _, rfl⟩ := List.mem_map.mp hq
        simp)
      (by simpa using hlt.ne') (m.x + m.z * tan m.th * cos m.ph) (-(tan m.th * cos m.ph)) (m.y + m.z * tan m.th * sin m.ph) (-(tan m.th * sin m.ph))
      (by
        intro q hq
        rw [← List.map_cons (f := fun z => (((crossing m z).1, (crossing m z).2, z), (1 : ℝ), (1 : ℝ))),
          ← List.map_cons (f := fun z => (((crossing m z).1, (crossing m z).2, z), (1 : ℝ), (1 : ℝ)))] at hq
        obtain ⟨z, _, rfl⟩ := List.mem_map.mp hq
        simp only [crossing]
        constructor <;> ring)
    rw [trajectory_ones, hrows]
    refine ⟨_, hfit, ⟨(z0 - z1) / cos m.th, div_pos (by linarith) hc, ?_⟩, (m.z - z0) / cos m.th, ?_⟩
    · simp only [crossing, scale3, dir, tan_eq_sin_div_cos, Prod.mk.injEq]
      refine ⟨?_, ?_, ?_⟩ <;> field_simp <;> ring
    · simp only [crossing, MuonOf.at, dir, tan_eq_sin_div_cos, Prod.mk.injEq]
      refine ⟨?_, ?_, ?_⟩ <;> field_simp <;> ring

/-- a row of a stacked tensor: the entries recorded one after the other at this place -/
theorem stacked_row (b : Batch Row) (h : HitsOk b.muons.length b.hits) (pos var : String) (t : List (List Row))
    (ht : hitVar (stackedHits b.muons.length b.hits) pos var = .ok t) (i : Nat) (r : List Row) (hr : t[i]? = some r) :
    r = (b.tensors pos var).filterMap (fun u => u[i]?) ∧ r.length = (b.tensors pos var).length := by
  unfold hitVar at ht
  cases hp : (stackedHits b.muons.length b.hits).get? pos with
  | none => simp [hp] at ht
  | some vars =>
    simp only [hp] at ht
    cases hv : vars.get? var with
    | none => simp [hv] at ht
    | some t' =>
      simp only [hv, Except.ok.injEq] at ht
      subst ht
      unfold stackedHits at hp
      rw [Dict.get?_mapVals, Option.map_eq_some_iff] at hp
      obtain ⟨vars0, hp0, rfl⟩ := hp
      rw [Dict.get?_mapVals, Option.map_eq_some_iff] at hv
      obtain ⟨ts, hv0, rfl⟩ := hv
      have hok := (h _ (Dict.mem_of_get? hp0)).2 _ (Dict.mem_of_get? hv0)
      have hts : b.tensors pos var = ts := by simp [Batch.tensors, hp0, hv0]
      obtain ⟨hi, rfl⟩ := List.getElem?_eq_some_iff.mp hr
      simp only [List.length_map, List.length_range] at hi
      rw [hts]
      simp only [List.getElem_map, List.getElem_range]
      refine ⟨trivial, ?_⟩
      have hall : ∀ (ts : List (List Row)), (∀ t ∈ ts, t.length = b.muons.length) → (ts.filterMap fun u => u[i]?).length = ts.length := by
        intro ts hts
        induction ts with
        | nil => rfl
        | cons t ts ih =>
          have : i < t.length := by rw [hts t (by simp)]; exact hi
          simp [List.getElem?_eq_getElem this, ih (fun u hu => hts u (by simp [hu]))]
      exact hall ts hok.2

/-- the entries at the place of a muon are those recorded for it -/
theorem recorded_row {β : Type} {b : Batch Row} {pos var : String} {zs : List β} {src : List Muon} {f : β → Muon → Row} (hn : (src.map (·.id)).Nodup)
    (hi : C01.Inv b pos var (zs.map fun z => (src.map (·.id)).zip (src.map (f z)))) (i : Nat) (m m0 : Muon) (hm : b.muons[i]? = some m) (hm0 : m0 ∈ src)
    (he : m0.id = m.id) : (b.tensors pos var).filterMap (fun u => u[i]?) = zs.map fun z => f z m0 := by
  have look : ∀ z, List.lookup m.id ((src.map (·.id)).zip (src.map (f z))) = some (f z m0) := by
    intro z
    have h1 := lookup_zip_self (rows := src.map (f z)) hn (by simp)
    obtain ⟨j, hj, hjm⟩ := List.getElem_of_mem hm0
    have h2 := congrArg (fun l => l[j]?) h1
    simpa [hj, hjm, he] using h2
  unfold C01.Inv at hi
  have h3 := congrArg (List.map fun l : List (Option Row) => l[i]?) hi
  rw [List.map_map, List.map_map, List.map_map] at h3
  have hid : b.ids[i]? = some m.id := by simp [Batch.ids, hm]
  have h4 : (b.tensors pos var).map (fun u => (u[i]?).map some) = zs.map fun z => some (some (f z m0)) := by
    rw [show (b.tensors pos var).map (fun u => (u[i]?).map some) = (b.tensors pos var).map ((fun l : List (Option Row) => l[i]?) ∘ fun x => List.map some x) from
      List.map_congr_left fun u _ => by simp, h3]
    apply List.map_congr_left
    intro z _
    simp [hid, look z]
  have h5 : (b.tensors pos var).map (fun u => u[i]?) = zs.map fun z => some (f z m0) := by
    have := congrArg (List.map fun o : Option (Option Row) => o.bind id) h4
    rw [List.map_map, List.map_map] at this
    rw [show (b.tensors pos var).map (fun u => u[i]?) = (b.tensors pos var).map ((fun o : Option (Option Row) => o.bind id) ∘ fun u => (u[i]?).map some) from
      List.map_congr_left fun u _ => by cases h : u[i]? <;> simp [h], this]
    rfl
  have h6 := congrArg (List.filterMap id) h5
  rw [List.filterMap_map, List.filterMap_map] at h6
  rw [show (b.tensors pos var).filterMap (fun u => u[i]?) = (b.tensors pos var).filterMap (id ∘ fun u => u[i]?) from rfl, h6]
  rw [← List.filterMap_eq_map]
  rfl

/-- number of recordings kept with the muons -/
theorem recorded_count {α : Type} {b : Batch α} {pos var : String} {log : List (List (Nat × α))} (hi : C01.Inv b pos var log) :
    (b.tensors pos var).length = log.length := by
  have := congrArg List.length hi
  simpa using this

/-- the recordings of a batch, read as a log for its present muons -/
theorem log_self {α : Type} (b : Batch α) (hn : b.ids.Nodup) (pos var : String) (hl : ∀ t ∈ b.tensors pos var, t.length = b.muons.length) :
    C01.Inv b pos var ((b.tensors pos var).map fun t => b.ids.zip t) := by
  unfold C01.Inv
  rw [List.map_map]
  apply List.map_congr_left
  intro t ht
  exact (lookup_zip_self hn (by simp [Batch.ids, hl t ht])).symm

theorem HitsOk_tensors {α : Type} {b : Batch α} (h : HitsOk b.muons.length b.hits) (pos var : String) : ∀ t ∈ b.tensors pos var, t.length = b.muons.length := by
  intro t ht
  unfold Batch.tensors at ht
  cases hp : b.hits.get? pos with
  | none => simp [hp] at ht
  | some vars =>
    simp only [hp] at ht
    cases hv : vars.get? var with
    | none => simp [hv] at ht
    | some ts =>
      simp only [hv] at ht
      exact ((h _ (Dict.mem_of_get? hp)).2 _ (Dict.mem_of_get? hv)).2 t ht

/-- rows stay shaped while muons are dropped -/
theorem Carries.shaped {b b' : Batch Row} (h : Carries b b') (hn : b.ids.Nodup) (ho : HitsOk b.muons.length b.hits) (hs : RowsShaped b) : RowsShaped b' := by
  intro pos var t ht r hr
  have hi := h.log pos var _ (log_self b hn pos var (HitsOk_tensors ho pos var))
  unfold C01.Inv at hi
  have hm : t.map some ∈ (b'.tensors pos var).map fun x => x.map some := List.mem_map.mpr ⟨t, ht, rfl⟩
  rw [hi] at hm
  obtain ⟨rec, hrec, he⟩ := List.mem_map.mp hm
  obtain ⟨t0, ht0, rfl⟩ := List.mem_map.mp hrec
  have hr' : some r ∈ t.map some := List.mem_map.mpr ⟨r, hr, rfl⟩
  rw [← he] at hr'
  obtain ⟨i, _, hl⟩ := List.mem_map.mp hr'
  have look : ∀ (ids : List Nat) (rows : List Row), List.lookup i (ids.zip rows) = some r → r ∈ rows := by
    intro ids
    induction ids with
    | nil => intro rows h; simp at h
    | cons k ids ih =>
      intro rows h
      cases rows with
      | nil => simp at h
      | cons q rows =>
        simp only [List.zip_cons_cons, List.lookup] at h
        split at h
        · simp at h; simp [h]
        · exact List.mem_cons_of_mem _ (ih rows h)
  exact hs pos var t0 ht0 r (look _ _ hl)

/-- What comes out of a telescope. -/
structure Delivered (b b' : Batch Row) (zA zB : List ℝ) : Prop where
  twoA : 2 ≤ zA.length
  twoB : 2 ≤ zB.length
  downA : zA.Pairwise fun a c => c < a
  downB : zB.Pairwise fun a c => c < a
  ok : HitsOk b'.muons.length b'.hits
  shaped : RowsShaped b'
  down : ∀ m ∈ b'.muons, Downward m
  nodup : b'.ids.Nodup
  sub : b'.ids.Sublist b.ids
  above : C01.Inv b' "above" "gen_xyz" (zA.map fun z => (b.muons.map (·.id)).zip (b.muons.map (genRow z)))
  below : C01.Inv b' "below" "gen_xyz" (zB.map fun z => (b'.muons.map (·.id)).zip (b'.muons.map (genRow z)))
  countA : ∀ var ∈ ["reco_xyz", "gen_xyz", "unc_xyz", "eff"], (b'.tensors "above" var).length = zA.length
  countB : ∀ var ∈ ["reco_xyz", "gen_xyz", "unc_xyz", "eff"], (b'.tensors "below" var).length = zB.length

theorem delivered (argsort : List ℝ → List Nat) (ha : IsArgsort argsort) (rng : Nat → Nat → Nat → Draw) (noise : Nat → Nat → Nat → ℝ × ℝ) (fuel : Nat)
    (V V' : Volume) (ht : Telescope V.layers) (b b' : Batch Row) (h0 : b.hits = []) (hn : b.ids.Nodup) (hd : ∀ m ∈ b.muons, Downward m)
    (hf : V.forward argsort rng noise fuel b = .ok (V', some b')) : ∃ zA zB, Delivered b b' zA zB := by
  obtain ⟨hbud, hch, -⟩ := C14.forward_spec argsort ha rng noise fuel V V' b b' hf
  obtain ⟨A, P, B, e, pA, pB, sA, sB, nA, nB⟩ := telescope_budget argsort V V' hbud ht
  rw [e] at hch
  obtain ⟨b1, c1, hch⟩ := chain_append argsort rng noise fuel _ _ _ _ _ hch
  obtain ⟨b2, c2, c3⟩ := chain_append argsort rng noise fuel _ _ _ _ _ hch
  obtain ⟨zA, qA, oA, seenA⟩ := seen_chain argsort rng noise fuel ha "above" A _ _ _ pA sA c1
  obtain ⟨car, dn⟩ := carries_chain argsort rng noise fuel P _ _ _ c2
  obtain ⟨zB, qB, oB, seenB⟩ := seen_chain argsort rng noise fuel ha "below" B _ _ _ pB sB c3
  rw [← qA.length_eq] at nA
  rw [← qB.length_eq] at nB
  have emp : ∀ pos var, b.tensors pos var = [] := by intro pos var; simp [Batch.tensors, h0, Dict.get?]
  have ok0 : HitsOk b.muons.length b.hits := by rw [h0]; intro pv hpv; simp at hpv
  have sh0 : RowsShaped b := by intro pos var t ht; rw [emp] at ht; simp at ht
  have ok1 := seenA.ok ok0
  have ok2 := car.ok ok1
  have ok3 := seenB.ok ok2
  have n1 : b1.ids.Nodup := by rw [seenA.ids]; exact hn
  have n2 : b2.ids.Nodup := n1.sublist car.sub
  have n3 : b'.ids.Nodup := by rw [seenB.ids]; exact n2
  have a1 : C01.Inv b1 "above" "gen_xyz" (zA.map fun z => (b.muons.map (·.id)).zip (b.muons.map (genRow z))) := by
    have h := log_self b1 n1 "above" "gen_xyz" (HitsOk_tensors ok1 _ _)
    rw [seenA.gen, emp, List.nil_append, List.map_map, seenA.ids] at h
    exact h
  have a2 := car.log _ _ _ a1
  have e2 : ∀ var, b2.tensors "below" var = [] := by
    intro var
    have h := car.log "below" var [] (by
      unfold C01.Inv
      rw [seenA.other "below" _ (by decide), emp]; rfl)
    unfold C01.Inv at h
    simpa using h
  refine ⟨zA, zB, nA, nB, oA, oB, ok3, seenB.shaped (car.shaped n1 ok1 (seenA.shaped sh0)), seenB.downward (dn (seenA.downward hd)), n3, ?_, ?_, ?_, ?_, ?_⟩
  · rw [seenB.ids, ← seenA.ids]; exact car.sub
  · unfold C01.Inv at a2 ⊢
    rw [seenB.other "above" _ (by decide), seenB.ids]; exact a2
  · have h := log_self b' n3 "below" "gen_xyz" (HitsOk_tensors ok3 _ _)
    rw [seenB.gen, e2, List.nil_append, List.map_map] at h
    have e : (zB.map fun z => (b'.muons.map (·.id)).zip (b'.muons.map (genRow z))) = zB.map ((fun t => b'.ids.zip t) ∘ fun z => b2.muons.map (genRow z)) := by
      apply List.map_congr_left
      intro z _
      simp only [Function.comp]
      rw [genRows_congr seenB.lines z]; rfl
    rw [e]; exact h
  · intro var hv
    have w1 : (b1.tensors "above" var).length = zA.length := by rw [seenA.count var hv, emp]; simp
    rw [seenB.other "above" _ (by decide), recorded_count (car.log _ _ _ (log_self b1 n1 "above" var (HitsOk_tensors ok1 _ _))), List.length_map, w1]
  · intro var hv
    rw [seenB.count var hv, e2]; simp

theorem Delivered.recorded {b b' : Batch Row} {zA zB : List ℝ} (h : Delivered b b' zA zB) : b'.hits ≠ [] := by
  intro e
  have := h.countA "gen_xyz" (by simp)
  have := h.twoA
  simp only [Batch.tensors, e, Dict.get?, List.length_nil] at *
  omega

/-- dropping muons from a delivered batch -/
theorem Delivered.carries {b b' mu : Batch Row} {zA zB : List ℝ} (h : Delivered b b' zA zB) (hc : Carries b' mu) :
    HitsOk mu.muons.length mu.hits ∧ mu.hits ≠ [] ∧
    C01.Inv mu "above" "gen_xyz" (zA.map fun z => (b.muons.map (·.id)).zip (b.muons.map (genRow z))) ∧
    C01.Inv mu "below" "gen_xyz" (zB.map fun z => (b'.muons.map (·.id)).zip (b'.muons.map (genRow z))) ∧
    ∀ var ∈ ["reco_xyz", "gen_xyz", "unc_xyz", "eff"], (mu.tensors "above" var).length = zA.length := by
  refine ⟨hc.ok h.ok, ?_, hc.log _ _ _ h.above, hc.log _ _ _ h.below, fun var hv => ?_⟩
  · intro e
    have := recorded_count (hc.log _ _ _ h.above)
    have := h.twoA
    simp only [Batch.tensors, e, Dict.get?, List.length_nil, List.length_map] at *
    omega
  · rw [recorded_count (hc.log _ _ _ (log_self b' h.nodup "above" var (HitsOk_tensors h.ok _ _))), List.length_map, h.countA var hv]

/-- the tracks of a batch whose recorded true hits are known -/
theorem tracks_of_log (gen : Bool) (hg : gen = true) (lw : ℝ × ℝ) (mu : Batch Row) (hok : HitsOk mu.muons.length mu.hits) (src dst : List Muon) (zA zB : List ℝ)
    (hs : (src.map (·.id)).Nodup) (hd : (dst.map (·.id)).Nodup) (ds : ∀ m ∈ src, Downward m) (dd : ∀ m ∈ dst, Downward m)
    (nA : 2 ≤ zA.length) (nB : 2 ≤ zB.length) (oA : zA.Pairwise fun a c => c < a) (oB : zB.Pairwise fun a c => c < a)
    (iA : C01.Inv mu "above" "gen_xyz" (zA.map fun z => (src.map (·.id)).zip (src.map (genRow z))))
    (iB : C01.Inv mu "below" "gen_xyz" (zB.map fun z => (dst.map (·.id)).zip (dst.map (genRow z))))
    (wA : ∀ var ∈ ["reco_xyz", "gen_xyz", "unc_xyz", "eff"], (mu.tensors "above" var).length = zA.length)
    (h) (hh : mu.getHits none none = .ok h) (H : Hits) (he : extract h = .ok H) (ts) (ht : computeTracks gen lw H = .ok ts) (i : Nat) (m m0 m1 : Muon)
    (hm : mu.muons[i]? = some m) (hm0 : m0 ∈ src) (e0 : m0.id = m.id) (hm1 : m1 ∈ dst) (e1 : m1.id = m.id) (tin tout : Option Track)
    (hi : ts[i]? = some (tin, tout)) : ∃ a c, tin = some a ∧ tout = some c ∧ IsLineOf a m0 ∧ IsLineOf c m1 := by
  have hne : mu.hits ≠ [] := by
    intro e
    have := wA "gen_xyz" (by simp)
    simp only [Batch.tensors, e, Dict.get?, List.length_nil] at this
    omega
  rw [getHits_stacked mu hok hne] at hh
  simp only [Except.ok.injEq] at hh
  subst hh
  have hw : C33.WidthAbove (stackedHits mu.muons.length mu.hits) zA.length := by
    intro var t hv htv r hr
    obtain ⟨j, hj, rfl⟩ := List.getElem_of_mem hr
    rw [(stacked_row mu hok "above" var t htv j _ (List.getElem?_eq_getElem hj)).2, wA var hv]
  obtain ⟨A, B, ⟨_, gA, _, _, _, rA, _, _, _, hgA, _, _, _, hrA, _, _, _, hpA, _, _⟩, ⟨_, gB, _, _, _, rB, _, _, _, hgB, _, _, _, hrB, _, _, _, hpB, _, _⟩, _, htr⟩ :=
    C33.right_panels _ zA.length hw H he gen lw ts ht i tin tout hi
  obtain ⟨htin, htout⟩ := htr hg
  rw [(stacked_row mu hok _ _ _ hgA i _ hrA).1, recorded_row hs iA i m m0 hm hm0 e0, parse_genRows m0 zA] at hpA
  rw [(stacked_row mu hok _ _ _ hgB i _ hrB).1, recorded_row hd iB i m m1 hm hm1 e1, parse_genRows m1 zB] at hpB
  simp only [Except.ok.injEq] at hpA hpB
  obtain ⟨a, fa, la⟩ := fit_true_line lw m0 (ds m0 hm0) zA nA oA
  obtain ⟨c, fc, lc⟩ := fit_true_line lw m1 (dd m1 hm1) zB nB oB
  rw [← hpA, fa] at htin
  rw [← hpB, fc] at htout
  simp only [Except.ok.injEq] at htin htout
  exact ⟨a, c, htin.symm, htout.symm, la, lc⟩

/-- every track of a batch of delivered muons is the line of its muon -/
theorem Delivered.lines {b b' mu : Batch Row} {zA zB : List ℝ} (dl : Delivered b b' zA zB) (hn : b.ids.Nodup) (hd : ∀ m ∈ b.muons, Downward m) (hc : Carries b' mu)
    (hsub : mu.muons.Sublist b'.muons) (lw : ℝ × ℝ) (h) (hh : mu.getHits none none = .ok h) (H : Hits) (hH : extract h = .ok H) (ts) (hts : computeTracks true lw H = .ok ts) :
    List.Forall₂ (fun (m' : Muon) (t : Option Track × Option Track) => ∃ m0 ∈ b.muons, m0.id = m'.id ∧ ∃ a c, t = (some a, some c) ∧ IsLineOf a m0 ∧ IsLineOf c m') mu.muons ts := by
  obtain ⟨ok, hne, iA, iB, wA⟩ := dl.carries hc
  have hl : ts.length = mu.muons.length := (C32.lengths (s := ⟨mu, H, ts⟩) ⟨ok, hne, ⟨h, hh, hH⟩, hts⟩).2
  rw [List.forall₂_iff_get]
  refine ⟨hl.symm, ?_⟩
  intro i hi hti
  obtain ⟨tin, tout, htt⟩ : ∃ tin tout, ts[i] = (tin, tout) := ⟨_, _, rfl⟩
  have hm' : mu.muons[i] ∈ b'.muons := hsub.subset (List.getElem_mem hi)
  have hid : mu.muons[i].id ∈ b.ids := dl.sub.subset (List.mem_map.mpr ⟨_, hm', rfl⟩)
  obtain ⟨m0, hm0, e0⟩ := List.mem_map.mp hid
  obtain ⟨a, c', rfl, rfl, la, lc⟩ := tracks_of_log true rfl lw mu ok b.muons b'.muons zA zB hn dl.nodup hd dl.down dl.twoA dl.twoB dl.downA dl.downB iA iB wA
    h hh H hH ts hts i mu.muons[i] m0 mu.muons[i] (List.getElem?_eq_getElem hi) hm0 e0 hm' rfl tin tout (by rw [List.getElem?_eq_getElem hti, htt])
  exact ⟨m0, hm0, e0, a, c', by simpa using htt, la, lc⟩

theorem coefs_lines {b : Batch Row} : ∀ (ms : List Muon) (ts : List (Option Track × Option Track)) (cs : List (Track × Track × (ℝ × ℝ × ℝ))),
    List.Forall₂ (fun (m' : Muon) (t : Option Track × Option Track) => ∃ m0 ∈ b.muons, m0.id = m'.id ∧ ∃ a c, t = (some a, some c) ∧ IsLineOf a m0 ∧ IsLineOf c m') ms ts →
    mapE coefsOf ts = .ok cs →
    List.Forall₂ (fun (m' : Muon) (c : Track × Track × (ℝ × ℝ × ℝ)) => ∃ m0 ∈ b.muons, m0.id = m'.id ∧ IsLineOf c.1 m0 ∧ IsLineOf c.2.1 m' ∧ trackCoefs c.1 c.2.1 = some c.2.2) ms cs
  | [], _, cs, .nil, h => by simp [mapE] at h; subst h; exact .nil
  | m :: ms, t :: ts, cs, .cons hx hr, h => by
    obtain ⟨m0, hm0, e0, a, c, ht, la, lc⟩ := hx
    subst ht
    simp only [mapE, coefsOf] at h
    cases htc : trackCoefs a c with
    | none => simp [htc] at h
    | some k =>
      cases hm : mapE coefsOf ts with
      | error e => simp only [htc] at h; rw [hm] at h; simp at h
      | ok cs' =>
        simp only [htc] at h; rw [hm] at h
        simp at h; subst h
        exact .cons ⟨m0, hm0, e0, la, lc, htc⟩ (coefs_lines ms ts cs' hr hm)

/-! ### Construction succeeds -/

theorem mapE_exists {β γ : Type} (f : β → Except Err γ) : ∀ xs : List β, (∀ x ∈ xs, ∃ y, f x = .ok y) → ∃ ys, mapE f xs = .ok ys
  | [], _ => ⟨[], rfl⟩
  | x :: xs, h => by
    obtain ⟨y, hy⟩ := h x (by simp)
    obtain ⟨ys, hys⟩ := mapE_exists f xs (fun x' hx => h x' (by simp [hx]))
    exact ⟨y :: ys, by simp [mapE, hy, hys]⟩

theorem hitVar_some (b : Batch Row) (h : HitsOk b.muons.length b.hits) (pos var : String) (hne : b.tensors pos var ≠ []) :
    ∃ t, hitVar (stackedHits b.muons.length b.hits) pos var = .ok t ∧ t.length = b.muons.length ∧ ∀ r ∈ t, r.length = (b.tensors pos var).length ∧
      ∀ q ∈ r, ∃ u ∈ b.tensors pos var, q ∈ u := by
  have hsome : ∃ t, hitVar (stackedHits b.muons.length b.hits) pos var = .ok t := by
    unfold Batch.tensors at hne
    unfold hitVar stackedHits
    rw [Dict.get?_mapVals]
    cases hp : b.hits.get? pos with
    | none => simp [hp] at hne
    | some vars =>
      simp only [hp] at hne
      simp only [Option.map_some]
      rw [Dict.get?_mapVals]
      cases hv : vars.get? var with
      | none => simp [hv] at hne
      | some ts => exact ⟨_, rfl⟩
  obtain ⟨t, ht⟩ := hsome
  refine ⟨t, ht, (stackedHits_width _ _ h pos var t ht).1, ?_⟩
  intro r hr
  obtain ⟨i, hi, rfl⟩ := List.getElem_of_mem hr
  obtain ⟨e1, e2⟩ := stacked_row b h pos var t ht i _ (List.getElem?_eq_getElem hi)
  refine ⟨e2, ?_⟩
  intro q hq
  rw [e1, List.mem_filterMap] at hq
  obtain ⟨u, hu, hui⟩ := hq
  exact ⟨u, hu, List.mem_of_getElem? hui⟩

theorem trajectory_two (lw : ℝ × ℝ) (l : List (X3 × X3)) (h : 2 ≤ l.length) : ∃ t, trajectory lw l = .ok t := by
  match l, h with
  | a :: c :: l, _ => exact ⟨_, rfl⟩

theorem parse3_ok (r : Row) (h : r.length = 3) : ∃ q, parse3 r = .ok q := by
  match r, h with
  | [a, c, d], _ => exact ⟨_, rfl⟩

theorem parse1_ok (r : Row) (h : r.length = 1) : ∃ q, parse1 r = .ok q := by
  match r, h with
  | [a], _ => exact ⟨_, rfl⟩

/-- both sides of one variable, combined and parsed -/
theorem side_ok {β : Type} (f : Row → Except Err β) (b : Batch Row) (ok : HitsOk b.muons.length b.hits) (var : String) (kA kB : Nat) (hA : 0 < kA) (hB : 0 < kB)
    (cA : (b.tensors "above" var).length = kA) (cB : (b.tensors "below" var).length = kB)
    (hf : ∀ pos, ∀ t ∈ b.tensors pos var, ∀ r ∈ t, ∃ q, f r = .ok q) :
    ∃ a c out, hitVar (stackedHits b.muons.length b.hits) "above" var = .ok a ∧ hitVar (stackedHits b.muons.length b.hits) "below" var = .ok c ∧
      (∀ r ∈ a, r.length = kA) ∧ bothSides (stackedHits b.muons.length b.hits) var = .ok (List.zipWith (· ++ ·) a c) ∧
      mapE (mapE f) (List.zipWith (· ++ ·) a c) = .ok out ∧ ∀ r ∈ out, r.length = kA + kB := by
  obtain ⟨a, ha, la, ra⟩ := hitVar_some b ok "above" var (by intro e; rw [e] at cA; simp at cA; omega)
  obtain ⟨c, hc, lc, rc⟩ := hitVar_some b ok "below" var (by intro e; rw [e] at cB; simp at cB; omega)
  have hrow : ∀ r ∈ List.zipWith (· ++ ·) a c, r.length = kA + kB ∧ ∀ q ∈ r, ∃ y, f q = .ok y := by
    intro r hr
    obtain ⟨i, hi, rfl⟩ := List.getElem_of_mem hr
    have hia : i < a.length := by simp at hi; omega
    have hic : i < c.length := by simp at hi; omega
    have h1 := ra a[i] (List.getElem_mem hia)
    have h2 := rc c[i] (List.getElem_mem hic)
    rw [List.getElem_zipWith]
    refine ⟨by rw [List.length_append, h1.1, h2.1, cA, cB], ?_⟩
    intro q hq
    rcases List.mem_append.mp hq with hq | hq
    · obtain ⟨u, hu, hqu⟩ := h1.2 q hq
      exact hf _ u hu q hqu
    · obtain ⟨u, hu, hqu⟩ := h2.2 q hq
      exact hf _ u hu q hqu
  obtain ⟨out, ho⟩ := mapE_exists (mapE f) _ (fun r hr => mapE_exists f r (hrow r hr).2)
  refine ⟨a, c, out, ha, hc, fun r hr => by rw [(ra r hr).1, cA], ?_, ho, ?_⟩
  · simp only [bothSides, ha, hc, bind, Except.bind, catDim1]
    rw [if_pos (by rw [la, lc])]
  · intro r hr
    obtain ⟨i, hi, rfl⟩ := List.getElem_of_mem hr
    have hl := mapE_length _ _ _ ho
    obtain ⟨y, hy1, hy2⟩ := mapE_get _ _ _ ho i _ (List.getElem?_eq_getElem (by omega))
    rw [List.getElem?_eq_getElem hi] at hy1
    simp only [Option.some.injEq] at hy1
    rw [hy1, mapE_length _ _ _ hy2]
    exact (hrow _ (List.getElem_mem _)).1

/-- a delivered batch has all it takes to fit tracks -/
theorem Delivered.consistent {b b' : Batch Row} {zA zB : List ℝ} (h : Delivered b b' zA zB) (gen : Bool) (lw : ℝ × ℝ) :
    ∃ g H ts, b'.getHits none none = .ok g ∧ extract g = .ok H ∧ computeTracks gen lw H = .ok ts ∧ C32.Consistent gen lw ⟨b', H, ts⟩ := by
  have hA := h.twoA
  have hB := h.twoB
  have p3 : ∀ var ∈ ["reco_xyz", "gen_xyz", "unc_xyz"], ∀ pos, ∀ t ∈ b'.tensors pos var, ∀ r ∈ t, ∃ q, parse3 r = .ok q := by
    intro var hv pos t ht r hr
    apply parse3_ok
    rw [h.shaped pos var t ht r hr, rowWidth, if_neg]
    rintro rfl
    simp at hv
  have p1 : ∀ pos, ∀ t ∈ b'.tensors pos "eff", ∀ r ∈ t, ∃ q, parse1 r = .ok q := by
    intro pos t ht r hr
    apply parse1_ok
    rw [h.shaped pos "eff" t ht r hr, rowWidth, if_pos rfl]
  obtain ⟨a1, c1, o1, x1, y1, w1, z1, m1, l1⟩ := side_ok parse3 b' h.ok "reco_xyz" zA.length zB.length (by omega) (by omega) (h.countA _ (by simp)) (h.countB _ (by simp)) (p3 _ (by simp))
  obtain ⟨a2, c2, o2, x2, y2, w2, z2, m2, l2⟩ := side_ok parse3 b' h.ok "gen_xyz" zA.length zB.length (by omega) (by omega) (h.countA _ (by simp)) (h.countB _ (by simp)) (p3 _ (by simp))
  obtain ⟨a3, c3, o3, x3, y3, w3, z3, m3, l3⟩ := side_ok parse3 b' h.ok "unc_xyz" zA.length zB.length (by omega) (by omega) (h.countA _ (by simp)) (h.countB _ (by simp)) (p3 _ (by simp))
  obtain ⟨a4, c4, o4, x4, y4, w4, z4, m4, l4⟩ := side_ok parse1 b' h.ok "eff" zA.length zB.length (by omega) (by omega) (h.countA _ (by simp)) (h.countB _ (by simp)) p1
  have hg := getHits_stacked b' h.ok h.recorded
  have he : extract (stackedHits b'.muons.length b'.hits) = .ok ⟨shape1 a1, shape1 c1, o1, o2, o3, o4⟩ := by
    simp only [extract, bind, Except.bind, x1, y1, z1, z2, z3, z4, m1, m2, m3, m4]
  have ht : ∃ ts, computeTracks gen lw ⟨shape1 a1, shape1 c1, o1, o2, o3, o4⟩ = .ok ts := by
    apply mapE_exists
    rintro ⟨r1, r2, r3, r4⟩ hr
    simp only [Hits.rows] at hr
    have hr1 : r1 ∈ o1 := (List.of_mem_zip hr).1
    have hr' := (List.of_mem_zip hr).2
    have hr2 : r2 ∈ o2 := (List.of_mem_zip hr').1
    have hr'' := (List.of_mem_zip hr').2
    have hr3 : r3 ∈ o3 := (List.of_mem_zip hr'').1
    have hr4 : r4 ∈ o4 := (List.of_mem_zip hr'').2
    have hn : shape1 a1 = zA.length := by
      cases a1 with
      | nil => simp [mapE] at m1; subst m1; simp at hr1
      | cons r a1 => exact w1 r (by simp)
    have k1 := l1 r1 hr1
    have k2 := l2 r2 hr2
    have k3 := l3 r3 hr3
    have k4 := l4 r4 hr4
    unfold rowTracks
    cases gen with
    | true =>
      simp only [if_true, muonTracksGen, hn]
      obtain ⟨t1, e1⟩ := trajectory_two lw ((r2.take zA.length).map fun h => (h, ones3 h)) (by simp; omega)
      obtain ⟨t2, e2⟩ := trajectory_two lw ((r2.drop zA.length).map fun h => (h, ones3 h)) (by simp; omega)
      exact ⟨(t1, t2), by simp only [e1, e2, bind, Except.bind]⟩
    | false =>
      simp only [Bool.false_eq_true, if_false, muonTracks, hn]
      obtain ⟨t1, e1⟩ := trajectory_two lw ((r1.take zA.length).zip (List.zipWith scaleUnc (r3.take zA.length) (r4.take zA.length))) (by simp; omega)
      obtain ⟨t2, e2⟩ := trajectory_two lw ((r1.drop zA.length).zip (List.zipWith scaleUnc (r3.drop zA.length) (r4.drop zA.length))) (by simp; omega)
      exact ⟨(t1, t2), by simp only [e1, e2, bind, Except.bind]⟩
  obtain ⟨ts, ht⟩ := ht
  exact ⟨_, _, ts, hg, he, ht, ⟨h.ok, h.recorded, ⟨_, hg, he⟩, ht⟩⟩

/-! ### Lines -/

theorem len3_dir (th ph : ℝ) : len3 (dir th ph) = 1 := by
  have : (sin th * cos ph) ^ 2 + (sin th * sin ph) ^ 2 + (-cos th) ^ 2 = 1 := by
    have h1 := sin_sq_add_cos_sq th
    have h2 := sin_sq_add_cos_sq ph
    nlinarith [h1, h2, mul_self_nonneg (sin th)]
  unfold len3
  simp only [dir, this, sqrt_one]

theorem len3_scale (c : ℝ) (hc : 0 < c) (p : V3) : len3 (scale3 c p) = c * len3 p := by
  unfold len3
  simp only [scale3]
  rw [show (c * p.1) ^ 2 + (c * p.2.1) ^ 2 + (c * p.2.2) ^ 2 = c ^ 2 * (p.1 ^ 2 + p.2.1 ^ 2 + p.2.2 ^ 2) by ring, sqrt_mul (sq_nonneg c), sqrt_sq hc.le]

theorem scale3_inj {c : ℝ} (hc : c ≠ 0) {p q : V3} (h : scale3 c p = scale3 c q) : p = q := by
  simp only [scale3, Prod.mk.injEq] at h
  exact Prod.ext (mul_left_cancel₀ hc h.1) (Prod.ext (mul_left_cancel₀ hc h.2.1) (mul_left_cancel₀ hc h.2.2))

theorem sameWay_dir (a c : V3) (m m' : Muon) (ha : SameWay (dir m.th m.ph) a) (hc : SameWay (dir m'.th m'.ph) c) :
    SameWay a c ↔ dir m.th m.ph = dir m'.th m'.ph := by
  obtain ⟨x, hx, rfl⟩ := ha
  obtain ⟨y, hy, rfl⟩ := hc
  constructor
  · rintro ⟨k, hk, h⟩
    have hl := congrArg len3 h
    rw [len3_scale y hy, len3_scale k hk, len3_scale x hx, len3_dir, len3_dir] at hl
    have e : scale3 k (scale3 x (dir m.th m.ph)) = scale3 (k * x) (dir m.th m.ph) := by
      simp only [scale3, mul_assoc]
    rw [e, show k * x = y by linarith] at h
    exact (scale3_inj hy.ne' h).symm
  · intro h
    refine ⟨y / x, div_pos hy hx, ?_⟩
    rw [h]
    simp only [scale3, Prod.mk.injEq]
    refine ⟨?_, ?_, ?_⟩ <;> field_simp

theorem steep_dir (m : Muon) (hd : Downward m) (a : V3) (ha : SameWay (dir m.th m.ph) a) : C32.Steep a ↔ m.th < π / 2 - 1e-5 := by
  obtain ⟨x, hx, rfl⟩ := ha
  unfold C32.Steep
  rw [len3_scale x hx, len3_dir]
  simp only [scale3, dir]
  have h3 := pi_gt_three
  rw [show -(x * -cos m.th) = x * cos m.th by ring, show sin 1e-5 * (x * 1) = x * sin 1e-5 by ring, mul_lt_mul_iff_right₀ hx, ← cos_pi_div_two_sub,
    strictAntiOn_cos.lt_iff_gt ⟨by norm_num; linarith, by norm_num; linarith⟩ ⟨hd.1, by linarith [hd.2.1]⟩]

theorem near_dir (m : Muon) (hd : Downward m) (t : Track) (ht : IsLineOf t m) (lw : ℝ × ℝ) (z : ℝ) :
    C32.NearAt lw z t ↔ |(crossing m z).1| < 10 * lw.1 ∧ |(crossing m z).2| < 10 * lw.2 := by
  obtain ⟨⟨x, hx, h1⟩, s, h2⟩ := ht
  have hc : 0 < cos m.th := cos_pos_of_mem_Ioo ⟨by linarith [hd.1, pi_pos], hd.2.1⟩
  have hz : t.1.2.2 ≠ 0 := by
    rw [h1]; simp only [scale3, dir]
    have := mul_pos hx hc
    intro h
    linarith
  rw [C32.near_iff lw z t hz, h1, h2]
  have e1 : (m.at s).1 + (z - (m.at s).2.2) / (scale3 x (dir m.th m.ph)).2.2 * (scale3 x (dir m.th m.ph)).1 = (crossing m z).1 := by
    simp only [MuonOf.at, scale3, dir, crossing, tan_eq_sin_div_cos]
    field_simp
    ring
  have e2 : (m.at s).2.1 + (z - (m.at s).2.2) / (scale3 x (dir m.th m.ph)).2.2 * (scale3 x (dir m.th m.ph)).2.1 = (crossing m z).2 := by
    simp only [MuonOf.at, scale3, dir, crossing, tan_eq_sin_div_cos]
    field_simp
    ring
  rw [e1, e2]

theorem usable_iff (lw zr : ℝ × ℝ) (m m' : Muon) (hd : Downward m) (hd' : Downward m') (a c : Track) (ha : IsLineOf a m) (hc : IsLineOf c m') (g : List X3) :
    C32.Usable lw zr (some a, some c) (g.map ones3) ↔ Bends lw zr m m' := by
  have hu : ∀ u ∈ g.map ones3, (u.1 = .ninf ∨ ∃ a, u.1 = .num a ∧ a < 1e10) ∧ (u.2.1 = .ninf ∨ ∃ a, u.2.1 = .num a ∧ a < 1e10) := by
    intro u hu
    obtain ⟨q, _, rfl⟩ := List.mem_map.mp hu
    exact ⟨Or.inr ⟨1, rfl, by norm_num⟩, Or.inr ⟨1, rfl, by norm_num⟩⟩
  unfold Bends
  rw [← steep_dir m hd a.1 ha.1, ← steep_dir m' hd' c.1 hc.1, ne_eq, ← sameWay_dir a.1 c.1 m m' ha.1 hc.1]
  have n1 := near_dir m hd a ha lw zr.2
  have n2 := near_dir m' hd' c hc lw zr.1
  constructor
  · rintro ⟨t1, t2, he, h1, h2, h3, h4, h5, _⟩
    simp only [Prod.mk.injEq, Option.some.injEq] at he
    obtain ⟨rfl, rfl⟩ := he
    exact ⟨h1, h2, h3, (n1.mp h4).1, (n1.mp h4).2, n2.mp h5⟩
  · rintro ⟨h1, h2, h3, h4, h5, h6⟩
    exact ⟨a, c, rfl, h1, h2, h3, n1.mpr ⟨h4, h5⟩, n2.mpr h6, hu⟩

end

end Tomopt
