import Verif.Spec.ExchangeHits
import Verif.Lemmas.ExchangeHits

/- Helper lemmas: reconstructed tracks and scatterings when the horizontal axes are exchanged. -/
namespace Tomopt

noncomputable section
open Real Scatter

namespace Exchange

theorem mapE_sw {β γ : Type} {f f' : β → Except Err γ} (w : β → β) (v : γ → γ) (h : ∀ x y, f x = .ok y → f' (w x) = .ok (v y)) : ∀ (xs : List β) (ys : List γ), mapE f xs = .ok ys → mapE f' (xs.map w) = .ok (ys.map v)
  | [], ys, e => by
    simp only [mapE, Except.ok.injEq] at e
    subst e
    rfl
  | x :: xs, ys, e => by
    unfold mapE at e
    cases hx : f x with
    | error _ => rw [hx] at e; simp at e
    | ok y =>
      rw [hx] at e
      cases hr : mapE f xs with
      | error _ => rw [hr] at e; simp at e
      | ok r =>
        rw [hr] at e
        simp only [Except.ok.injEq] at e
        subst e
        simp only [List.map_cons, mapE, h x y hx, mapE_sw w v h xs r hr]

/-- the stacked hits -/
theorem hitVar_sw {b c : Batch Row} (hl : c.muons.length = b.muons.length) (ho : HitsOk b.muons.length b.hits) (ho' : HitsOk c.muons.length c.hits) (pos var : String)
    (ht : c.tensors pos var = (b.tensors pos var).map fun t => t.map (swRow var)) (t : List (List Row)) (h : hitVar (stackedHits b.muons.length b.hits) pos var = .ok t) :
    hitVar (stackedHits c.muons.length c.hits) pos var = .ok (t.map fun r => r.map (swRow var)) := by
  rcases hitVar_tensors b ho pos var with ⟨_, e, he⟩ | ⟨hne, he⟩
  · rw [he] at h; simp at h
  · rw [he] at h
    simp only [Except.ok.injEq] at h
    subst h
    rcases hitVar_tensors c ho' pos var with ⟨h0, _⟩ | ⟨_, he'⟩
    · rw [ht, List.map_eq_nil_iff] at h0
      exact absurd h0 hne
    · rw [he', ht, hl, List.map_map]
      congr 1
      apply List.map_congr_left
      intro i _
      simp only [Function.comp_def, List.filterMap_map, List.map_filterMap, List.getElem?_map]

def swHits (H : Hits) : Hits := ⟨H.nAbove, H.nBelow, H.reco.map fun r => r.map sw3, H.gen.map fun r => r.map sw3, H.unc.map fun r => r.map sw3, H.eff⟩

theorem parse3_sw {var : String} (hv : var ≠ "eff") (r : Row) (x : X3) (h : parse3 r = .ok x) : parse3 (swRow var r) = .ok (sw3 x) := by
  unfold parse3 at h
  split at h
  · simp only [Except.ok.injEq] at h
    subst h
    simp only [swRow, if_neg hv, parse3, sw3]
  · simp at h

theorem catDim1_sw {a b r : List (List Row)} (w : Row → Row) (h : catDim1 a b = .ok r) : catDim1 (a.map fun x => x.map w) (b.map fun x => x.map w) = .ok (r.map fun x => x.map w) := by
  unfold catDim1 at h ⊢
  simp only [List.length_map]
  split at h
  · rename_i hl
    simp only [Except.ok.injEq] at h
    subst h
    rw [if_pos hl, List.zipWith_map, List.map_zipWith]
    simp
  · simp at h

theorem shape1_sw (a : List (List Row)) (w : Row → Row) : shape1 (a.map fun x => x.map w) = shape1 a := by
  cases a <;> simp [shape1]

theorem swRow_eff : swRow "eff" = id := by
  funext r
  simp [swRow]

theorem extract_sw {d e : Dict String (Dict String (List (List Row)))} (h : ∀ pos var t, hitVar d pos var = .ok t → hitVar e pos var = .ok (t.map fun r => r.map (swRow var))) {H : Hits} (hd : extract d = .ok H) :
    extract e = .ok (swHits H) := by
  obtain ⟨ra, rb, ga, gb, ua, ub, ea, eb, r, g, u, f, h1, h2, h3, h4, h5, h6, h7, h8, k1, k2, k3, k4, l1, l2, l3, l4, n1, n2⟩ := extract_parts hd
  have p3 : ∀ var, var ≠ "eff" → ∀ (t : List (List Row)) (y : List (List X3)), mapE (mapE parse3) t = .ok y → mapE (mapE parse3) (t.map fun r => r.map (swRow var)) = .ok (y.map fun r => r.map sw3) := by
    intro var hv t y ht
    exact mapE_sw _ _ (fun x y hxy => mapE_sw _ _ (parse3_sw hv) x y hxy) t y ht
  have e4 := catDim1_sw (swRow "eff") k4
  have q4 : mapE (mapE parse1) (f.map fun r => r.map (swRow "eff")) = .ok H.eff := by
    rw [swRow_eff]
    simpa using l4
  simp only [extract, bothSides, bind, Except.bind, h _ _ _ h1, h _ _ _ h2, h _ _ _ h3, h _ _ _ h4, h _ _ _ h5, h _ _ _ h6, h _ _ _ h7, h _ _ _ h8, catDim1_sw (swRow "reco_xyz") k1, catDim1_sw (swRow "gen_xyz") k2, catDim1_sw (swRow "unc_xyz") k3, e4,
    p3 "reco_xyz" (by decide) _ _ l1, p3 "gen_xyz" (by decide) _ _ l2, p3 "unc_xyz" (by decide) _ _ l3, q4, shape1_sw, swHits, n1, n2]

/-! ### Tracks -/

theorem hitCoord_sw (lw : ℝ × ℝ) : hitCoord (lw.2, lw.1) = hitCoord lw := by
  funext x
  cases x <;> simp [hitCoord, add_comm]

theorem axisPts_sw (lw : ℝ × ℝ) (c c' : X3 → XF) (hc : ∀ h, c' (sw3 h) = c h) : ∀ hits : List (X3 × X3), axisPts (lw.2, lw.1) c' (hits.map fun h => (sw3 h.1, sw3 h.2)) = axisPts lw c hits
  | [] => rfl
  | (h, u) :: l => by
    simp only [List.map_cons, axisPts, hitCoord_sw, hc, axisPts_sw lw c c' hc l]
    rfl

theorem trajectory_sw (lw : ℝ × ℝ) (hits : List (X3 × X3)) (t : Option Track) (h : trajectory lw hits = .ok t) : trajectory (lw.2, lw.1) (hits.map fun h => (sw3 h.1, sw3 h.2)) = .ok (t.map swTrack) := by
  unfold trajectory at h ⊢
  simp only [List.getElem?_map]
  cases h0 : hits[0]? with
  | none => rw [h0] at h; simp at h
  | some a =>
    cases h1 : hits[1]? with
    | none => rw [h0, h1] at h; simp at h
    | some b =>
      rw [h0, h1] at h
      simp only [Except.ok.injEq, Option.map_some] at h ⊢
      subst h
      rw [axisPts_sw lw (·.2.1) (·.1) (fun _ => rfl), axisPts_sw lw (·.1) (·.2.1) (fun _ => rfl), hitCoord_sw]
      cases axisPts lw (·.1) hits with
      | none => cases axisPts lw (·.2.1) hits <;> rfl
      | some px =>
        cases axisPts lw (·.2.1) hits with
        | none => rfl
        | some py =>
          simp only [Option.bind_eq_bind, Option.bind_some]
          cases fitAxis px with
          | none => cases fitAxis py <;> rfl
          | some fx =>
            cases fitAxis py with
            | none => rfl
            | some fy =>
              simp only [Option.bind_some, sw3]
              cases hitCoord lw a.1.2.2 with
              | none => rfl
              | some z0 => cases hitCoord lw b.1.2.2 <;> rfl

abbrev swT (t : Option Track × Option Track) : Option Track × Option Track := (t.1.map swTrack, t.2.map swTrack)

theorem scale_sw (u : X3) (e : XF) : scaleUnc (sw3 u) e = sw3 (scaleUnc u e) := rfl

theorem zip_scale_sw : ∀ (r u : List X3) (e : List XF), (r.map sw3).zip (List.zipWith scaleUnc (u.map sw3) e) = (r.zip (List.zipWith scaleUnc u e)).map fun h => (sw3 h.1, sw3 h.2)
  | [], _, _ => by simp
  | _ :: _, [], _ => by simp
  | _ :: _, _ :: _, [] => by simp
  | r :: rs, u :: us, e :: es => by
    simp only [List.map_cons, List.zipWith_cons_cons, List.zip_cons_cons, scale_sw, zip_scale_sw rs us es]

abbrev swR (r : List X3 × List X3 × List X3 × List XF) : List X3 × List X3 × List X3 × List XF := (r.1.map sw3, r.2.1.map sw3, r.2.2.1.map sw3, r.2.2.2)

theorem rowTracks_sw (gen : Bool) (lw : ℝ × ℝ) (n : Nat) (r : List X3 × List X3 × List X3 × List XF) (t : Option Track × Option Track) (h : rowTracks gen lw n r = .ok t) : rowTracks gen (lw.2, lw.1) n (swR r) = .ok (swT t) := by
  cases gen
  · simp only [rowTracks, Bool.false_eq_true, if_false, muonTracks] at h ⊢
    obtain ⟨t1, e1, h⟩ := bind_ok h
    obtain ⟨t2, e2, h⟩ := bind_ok h
    simp only [Except.ok.injEq] at h
    subst h
    simp only [← List.map_take, ← List.map_drop, zip_scale_sw, bind, Except.bind, trajectory_sw _ _ _ e1, trajectory_sw _ _ _ e2]
  · simp only [rowTracks, if_true, muonTracksGen] at h ⊢
    obtain ⟨t1, e1, h⟩ := bind_ok h
    obtain ⟨t2, e2, h⟩ := bind_ok h
    simp only [Except.ok.injEq] at h
    subst h
    have f1 := trajectory_sw _ _ _ e1
    have f2 := trajectory_sw _ _ _ e2
    rw [List.map_map] at f1 f2
    simp only [← List.map_take, ← List.map_drop, List.map_map, bind, Except.bind]
    have k : ((fun h : X3 => (h, ones3 h)) ∘ sw3) = ((fun h : X3 × X3 => (sw3 h.1, sw3 h.2)) ∘ fun h => (h, ones3 h)) := rfl
    rw [k, f1]
    simp only [f2]

theorem rows_sw (H : Hits) : (swHits H).rows = H.rows.map swR := by
  simp only [Hits.rows, swHits]
  rw [← List.map_id H.eff, List.zip_map, List.zip_map, List.zip_map, List.map_id]
  rfl

theorem computeTracks_sw (gen : Bool) (lw : ℝ × ℝ) (H : Hits) (ts : List (Option Track × Option Track)) (h : computeTracks gen lw H = .ok ts) : computeTracks gen (lw.2, lw.1) (swHits H) = .ok (ts.map swT) := by
  unfold computeTracks at h ⊢
  rw [rows_sw]
  exact mapE_sw swR swT (fun r t => rowTracks_sw gen lw H.nAbove r t) _ _ h

/-! ### Scatterings -/

theorem vdot_sw (p q : V3) : vdot (sw3 p) (sw3 q) = vdot p q := by
  simp only [vdot, sw3]; ring

theorem vnorm_sw (p : V3) : vnorm (sw3 p) = vnorm p := by simp only [vnorm, vdot_sw]

theorem thetaMsc_sw (p q : V3) : thetaMsc (sw3 p) (sw3 q) = thetaMsc p q := by simp only [thetaMsc, vdot_sw, vnorm_sw]

theorem thetaOf_sw (p : V3) : thetaOf (sw3 p) = thetaOf p := by
  simp only [thetaOf, vnorm_sw]
  rfl

theorem xyzIn_sw (zr : ℝ × ℝ) (t : Track) : xyzIn zr (swTrack t) = (xyzIn zr t).map sw3 := by
  by_cases h : t.1.2.2 = 0
  · have h' : (swTrack t).1.2.2 = 0 := h
    rw [xyzIn, xyzIn, if_pos h, if_pos h']
    rfl
  · have h' : ¬ (swTrack t).1.2.2 = 0 := h
    rw [xyzIn, xyzIn, if_neg h, if_neg h']
    rfl

theorem xyzOut_sw (zr : ℝ × ℝ) (t : Track) : xyzOut zr (swTrack t) = (xyzOut zr t).map sw3 := by
  by_cases h : t.1.2.2 = 0
  · have h' : (swTrack t).1.2.2 = 0 := h
    rw [xyzOut, xyzOut, if_pos h, if_pos h']
    rfl
  · have h' : ¬ (swTrack t).1.2.2 = 0 := h
    rw [xyzOut, xyzOut, if_neg h, if_neg h']
    rfl

theorem near_sw (lw : ℝ × ℝ) (q : Option V3) :
    (match q.map sw3 with
      | some q => decide (q.1 > -10 * lw.2) && decide (q.2.1 > -10 * lw.1) && decide (q.1 < 10 * lw.2) && decide (q.2.1 < 10 * lw.1)
      | none => false) =
    (match q with
      | some q => decide (q.1 > -10 * lw.1) && decide (q.2.1 > -10 * lw.2) && decide (q.1 < 10 * lw.1) && decide (q.2.1 < 10 * lw.2)
      | none => false) := by
  cases q with
  | none => rfl
  | some q =>
    simp only [Option.map_some, sw3]
    cases decide (q.1 > -10 * lw.1) <;> cases decide (q.2.1 > -10 * lw.2) <;> cases decide (q.1 < 10 * lw.1) <;> cases decide (q.2.1 < 10 * lw.2) <;> rfl

theorem keepMuon_sw (lw zr : ℝ × ℝ) (t : Option Track × Option Track) (unc : List X3) : keepMuon (lw.2, lw.1) zr (swT t) (unc.map sw3) = keepMuon lw zr t unc := by
  obtain ⟨t1, t2⟩ := t
  cases t1 with
  | none => rfl
  | some t1 =>
    cases t2 with
    | none => rfl
    | some t2 =>
      simp only [swT, Option.map_some, keepMuon]
      rw [xyzIn_sw, xyzOut_sw]
      refine congrArg₂ and (congrArg₂ and (congrArg₂ and (congrArg₂ and (congrArg₂ and ?_ ?_) ?_) (near_sw lw (xyzIn zr t1))) (near_sw lw (xyzOut zr t2))) ?_
      · simp only [swTrack, thetaMsc_sw]
      · simp only [swTrack, thetaOf_sw]
      · simp only [swTrack, thetaOf_sw]
      · simp only [List.all_map, Function.comp_def, sw3]
        congr 1
        funext u
        exact Bool.and_comm _ _

theorem rowUnc_sw (gen : Bool) (r : List X3 × List X3 × List X3 × List XF) : rowUnc gen (swR r) = (rowUnc gen r).map sw3 := by
  cases gen
  · rfl
  · simp only [rowUnc, if_true, List.map_map]
    rfl

theorem keepMask_sw (gen : Bool) (lw zr : ℝ × ℝ) (b c : Batch Row) (H : Hits) (ts : List (Option Track × Option Track)) : keepMask gen (lw.2, lw.1) zr ⟨c, swHits H, ts.map swT⟩ = keepMask gen lw zr ⟨b, H, ts⟩ := by
  simp only [keepMask, rows_sw, List.zipWith_map]
  congr 1
  funext t r
  rw [rowUnc_sw, keepMuon_sw]

abbrev swC (c : Track × Track × (ℝ × ℝ × ℝ)) : Track × Track × (ℝ × ℝ × ℝ) := (swTrack c.1, swTrack c.2.1, (c.2.2.1, c.2.2.2.1, -c.2.2.2.2))

theorem trackCoefs_sw (a b : Track) (c : ℝ × ℝ × ℝ) (h : trackCoefs a b = some c) : trackCoefs (swTrack a) (swTrack b) = some (c.1, c.2.1, -c.2.2) := by
  unfold trackCoefs at h ⊢
  simp only at h ⊢
  split at h
  · simp at h
  · rename_i hd
    simp only [Option.some.injEq] at h
    subst h
    have e : ∀ p q r : V3, det3 (sw3 p) (sw3 q) (sw3 r) = -det3 p q r := by
      intro p q r
      simp only [det3, vdot, vcross, sw3]; ring
    have e0 : ∀ p q : V3, det3 p q (vcross (sw3 a.1) (sw3 b.1)) = det3 (sw3 p) (sw3 q) (vcross a.1 b.1) := by
      intro p q
      simp only [det3, vdot, vcross, sw3]; ring
    have d1 : det3 (swTrack a).1 (-(swTrack b).1.1, -(swTrack b).1.2.1, -(swTrack b).1.2.2) (vcross (swTrack a).1 (swTrack b).1) = det3 a.1 (-b.1.1, -b.1.2.1, -b.1.2.2) (vcross a.1 b.1) := e0 _ _
    have d2 : det3 ((swTrack b).2.1 - (swTrack a).2.1, (swTrack b).2.2.1 - (swTrack a).2.2.1, (swTrack b).2.2.2 - (swTrack a).2.2.2) (-(swTrack b).1.1, -(swTrack b).1.2.1, -(swTrack b).1.2.2) (vcross (swTrack a).1 (swTrack b).1) =
      det3 (b.2.1 - a.2.1, b.2.2.1 - a.2.2.1, b.2.2.2 - a.2.2.2) (-b.1.1, -b.1.2.1, -b.1.2.2) (vcross a.1 b.1) := e0 _ _
    have d3 : det3 (swTrack a).1 ((swTrack b).2.1 - (swTrack a).2.1, (swTrack b).2.2.1 - (swTrack a).2.2.1, (swTrack b).2.2.2 - (swTrack a).2.2.2) (vcross (swTrack a).1 (swTrack b).1) =
      det3 a.1 (b.2.1 - a.2.1, b.2.2.1 - a.2.2.1, b.2.2.2 - a.2.2.2) (vcross a.1 b.1) := e0 _ _
    have d4 : det3 (swTrack a).1 (-(swTrack b).1.1, -(swTrack b).1.2.1, -(swTrack b).1.2.2) ((swTrack b).2.1 - (swTrack a).2.1, (swTrack b).2.2.1 - (swTrack a).2.2.1, (swTrack b).2.2.2 - (swTrack a).2.2.2) =
      -det3 a.1 (-b.1.1, -b.1.2.1, -b.1.2.2) (b.2.1 - a.2.1, b.2.2.1 - a.2.2.1, b.2.2.2 - a.2.2.2) := e a.1 (-b.1.1, -b.1.2.1, -b.1.2.2) (b.2.1 - a.2.1, b.2.2.1 - a.2.2.1, b.2.2.2 - a.2.2.2)
    rw [if_neg (by rw [d1]; exact hd), d1, d2, d3, d4, neg_div]

theorem coefsOf_sw (t : Option Track × Option Track) (c : Track × Track × (ℝ × ℝ × ℝ)) (h : coefsOf t = .ok c) : coefsOf (swT t) = .ok (swC c) := by
  obtain ⟨t1, t2⟩ := t
  cases t1 with
  | none => simp [coefsOf] at h
  | some t1 =>
    cases t2 with
    | none => simp [coefsOf] at h
    | some t2 =>
      simp only [coefsOf] at h
      cases hc : trackCoefs t1 t2 with
      | none => rw [hc] at h; simp at h
      | some k =>
        rw [hc] at h
        simp only [Except.ok.injEq] at h
        subst h
        simp only [swT, Option.map_some, coefsOf, trackCoefs_sw t1 t2 k hc]

theorem forall₂_pick {β γ : Type} {R : β → γ → Prop} {xs : List β} {ys : List γ} (h : List.Forall₂ R xs ys) : ∀ m : List Bool, List.Forall₂ R (pick m xs) (pick m ys) := by
  induction h with
  | nil => intro m; cases m <;> simp
  | cons h _ ih =>
    intro m
    cases m with
    | nil => simp
    | cons x m =>
      cases x
      · simpa using ih m
      · simpa using ⟨h, ih m⟩

theorem pick_map' {β γ : Type} (f : β → γ) (m : List Bool) (xs : List β) : pick m (xs.map f) = (pick m xs).map f := pick_map f m xs

theorem build_sw {gen : Bool} {V W : Volume} {b c : Batch Row} {s : SB} {cs : List (Track × Track × (ℝ × ℝ × ℝ))} (hlw : ∀ lw, V.lw = .ok lw → W.lw = .ok (lw.2, lw.1)) (hzr : ∀ zr, V.zRange = .ok zr → W.zRange = .ok zr)
    (h : List.Forall₂ Sw b.muons c.muons) (ho : HitsOk b.muons.length b.hits) (ho' : HitsOk c.muons.length c.hits) (hne : b.hits ≠ []) (ht : ∀ pos var, c.tensors pos var = (b.tensors pos var).map fun t => t.map (swRow var))
    (hb : build gen V b = .ok (s, cs)) : ∃ s' : SB, build gen W c = .ok (s', cs.map swC) ∧ List.Forall₂ Sw s.mu.muons s'.mu.muons := by
  obtain ⟨lw, zr, H, ts, vlw, vzr, hcon, hfil, hcs, hmu, htr⟩ := build_parts ho hne hb
  have hl : c.muons.length = b.muons.length := h.length_eq.symm
  obtain ⟨hh, hg, he⟩ := hcon.hits
  simp only at hg he
  rw [getHits_stacked b ho hne] at hg
  simp only [Except.ok.injEq] at hg
  subst hg
  have hv := fun pos var => hitVar_sw hl ho ho' pos var (ht pos var)
  have hne' : c.hits ≠ [] := by
    intro h0
    obtain ⟨ra, _, _, _, _, _, _, _, _, _, _, _, h1, -⟩ := extract_parts he
    have := hv _ _ _ h1
    rw [h0] at this
    simp [stackedHits, hitVar, Dict.mapVals, Dict.get?] at this
  have he' := extract_sw hv he
  have hct := computeTracks_sw gen lw H ts hcon.tracks
  have hcon' : C32.Consistent gen (lw.2, lw.1) ⟨c, swHits H, ts.map swT⟩ := ⟨ho', hne', ⟨_, getHits_stacked c ho' hne', he'⟩, hct⟩
  have hk := keepMask_sw gen lw zr b c H ts
  have h1 : c.muons.length ≠ 1 ∨ (keepMask gen (lw.2, lw.1) zr ⟨c, swHits H, ts.map swT⟩).all id = true := by
    rw [hk, hl]
    by_contra hc
    push Not at hc
    rw [C32.single_violated gen lw zr _ hcon hc.1 (by simpa using hc.2)] at hfil
    simp at hfil
  obtain ⟨_, s', e1, e2, e3, e4, _⟩ := C32.filter_spec_partial gen (lw.2, lw.1) zr _ hcon' h1
  refine ⟨s', ?_, ?_⟩
  · unfold build
    simp only [getHits_stacked c ho' hne', he', hlw _ vlw, hzr _ vzr, hct, e1, bind, Except.bind]
    rw [e4, hk, pick_map', ← htr, mapE_sw swT swC coefsOf_sw _ _ hcs]
  · rw [hmu, e3, hk]
    exact forall₂_pick h _

theorem poca_sw (c : Track × Track × (ℝ × ℝ × ℝ)) : poca (swC c).1 (swC c).2.1 (swC c).2.2 = sw3 (poca c.1 c.2.1 c.2.2) := by
  simp only [poca, swTrack, vcross, sw3, Prod.mk.injEq]
  refine ⟨by ring, by ring, by ring⟩

theorem dxy_sw (c : Track × Track × (ℝ × ℝ × ℝ)) : dxy (swC c).1 (swC c).2.1 (swC c).2.2 = ((dxy c.1 c.2.1 c.2.2).2, (dxy c.1 c.2.1 c.2.2).1) := by
  simp only [dxy, swTrack, vcross, sw3, Prod.mk.injEq]
  refine ⟨by ring, by ring⟩

theorem passives_sw {ls ls' : List AnyLayer} (h : List.Forall₂ ExD ls ls') :
    List.Forall₂ ExL (ls.filterMap fun l => match l with | .passive L => some L | _ => none) (ls'.filterMap fun l => match l with | .passive L => some L | _ => none) := by
  induction h with
  | nil => exact .nil
  | cons h _ ih =>
    cases h with
    | passive L L' h _ => exact .cons h ih
    | detector D => exact ih

theorem getLast_sw {β γ : Type} {R : β → γ → Prop} {xs : List β} {ys : List γ} (h : List.Forall₂ R xs ys) : (xs.getLast? = none ∧ ys.getLast? = none) ∨ ∃ x y, xs.getLast? = some x ∧ ys.getLast? = some y ∧ R x y := by
  induction h with
  | nil => exact .inl ⟨rfl, rfl⟩
  | @cons x y xs ys h hs ih =>
    right
    rcases ih with ⟨h1, h2⟩ | ⟨a, b, h1, h2, h3⟩
    · rw [List.getLast?_eq_none_iff] at h1 h2
      subst h1 h2
      exact ⟨x, y, rfl, rfl, h⟩
    · refine ⟨a, b, ?_, ?_, h3⟩
      · rw [List.getLast?_cons, h1]; rfl
      · rw [List.getLast?_cons, h2]; rfl

theorem lw_sw {V W : Volume} (h : List.Forall₂ ExL V.passives W.passives) (lw : ℝ × ℝ) (hv : V.lw = .ok lw) : W.lw = .ok (lw.2, lw.1) := by
  unfold Volume.lw at hv ⊢
  rcases getLast_sw h with ⟨h1, _⟩ | ⟨a, b, h1, h2, h3⟩
  · rw [h1] at hv; simp at hv
  · rw [h1] at hv
    simp only [Except.ok.injEq] at hv
    subst hv
    rw [h2]
    simp only [h3.lw]

theorem zRange_sw {V W : Volume} (h : List.Forall₂ ExL V.passives W.passives) (zr : ℝ × ℝ) (hv : V.zRange = .ok zr) : W.zRange = .ok zr := by
  unfold Volume.zRange at hv ⊢
  rcases getLast_sw h with ⟨h1, _⟩ | ⟨a, b, h1, h2, h3⟩
  · rw [h1] at hv
    cases V.passives.head? <;> simp at hv
  · rw [h1] at hv
    rw [h2]
    revert hv
    generalize V.passives = P at *
    generalize W.passives = Q at *
    cases h with
    | nil => intro hv; simp at hv
    | cons h _ =>
      intro hv
      simp only [List.head?_cons, Except.ok.injEq] at hv ⊢
      subst hv
      rw [h3.z, h3.size, h.z]

end Exchange

end

end Tomopt
