import Verif.Lemmas.TrueTracks

/- C99: from the muons entering a telescope to the tracks reconstructed from their true hits. -/
namespace Tomopt

noncomputable section
open Real Scatter

namespace C99

/-- through any chain of layers, muons going down keep going down -/
theorem chain_down (argsort : List ℝ → List Nat) (ha : IsArgsort argsort) (rng : Nat → Nat → Nat → Draw) (noise : Nat → Nat → Nat → ℝ × ℝ) (fuel : Nat) :
    ∀ (ls : List AnyLayer) (i : Nat) (b b' : Batch Row), C14.Chain argsort rng noise fuel i ls b b' → (∀ m ∈ b.muons, Downward m) → ∀ m ∈ b'.muons, Downward m
  | [], _, _, _, h, hd => by cases h; exact hd
  | l :: ls, i, b, b', h, hd => by
    cases h with
    | next _ _ _ _ b1 _ h1 h2 =>
      refine chain_down argsort ha rng noise fuel ls (i + 1) _ b' h2 ?_
      cases l with
      | passive P => exact (carries_forward P (rng i) fuel b b1 h1).2 hd
      | detector D =>
        simp only [Volume.layerForward] at h1
        cases hf : D.forward argsort (noise i) b with
        | error e => rw [hf] at h1; simp at h1
        | ok b2 =>
          rw [hf] at h1
          simp only [Except.ok.injEq, Option.some.injEq] at h1
          subst h1
          obtain ⟨zs, _, _, e⟩ := seen_layer argsort ha (noise i) D b b2 hf
          exact e.downward hd

/-- **C03, a whole volume.** Whatever the layers and the random draws, every muon that comes out of the volume points strictly down, if all that entered did. -/
theorem stays_down (argsort : List ℝ → List Nat) (ha : IsArgsort argsort) (rng : Nat → Nat → Nat → Draw) (noise : Nat → Nat → Nat → ℝ × ℝ) (fuel : Nat)
    (V V' : Volume) (b b' : Batch Row) (hf : V.forward argsort rng noise fuel b = .ok (V', some b')) (hd : ∀ m ∈ b.muons, Downward m) :
    ∀ m ∈ b'.muons, Downward m :=
  chain_down argsort ha rng noise fuel _ 0 b b' (C14.forward_spec argsort ha rng noise fuel V V' b b' hf).2.1 hd

/-- **C99.** Let muons going down, none of them with hits yet, pass through a telescope: detectors above, passive layers with any material and any random
draws, detectors below, at least two panels on each side. If a `GenScatterBatch` is built from the outcome, its muons are muons that came out, in order, and
for each of them the incoming track is the line on which this very muon entered, the outgoing track the line on which it left. -/
theorem true_tracks (argsort : List ℝ → List Nat) (ha : IsArgsort argsort) (rng : Nat → Nat → Nat → Draw) (noise : Nat → Nat → Nat → ℝ × ℝ) (fuel : Nat)
    (V V' : Volume) (ht : Telescope V.layers) (b b' : Batch Row) (h0 : b.hits = []) (hn : b.ids.Nodup) (hd : ∀ m ∈ b.muons, Downward m)
    (hf : V.forward argsort rng noise fuel b = .ok (V', some b')) (s : SB) (cs : List (Track × Track × (ℝ × ℝ × ℝ)))
    (hb : build true V' b' = .ok (s, cs)) :
    s.mu.muons.Sublist b'.muons ∧
    List.Forall₂ (fun m' c => ∃ m0 ∈ b.muons, m0.id = m'.id ∧ IsLineOf c.1 m0 ∧ IsLineOf c.2.1 m' ∧ trackCoefs c.1 c.2.1 = some c.2.2) s.mu.muons cs := by
  obtain ⟨zA, zB, dl⟩ := delivered argsort ha rng noise fuel V V' ht b b' h0 hn hd hf
  unfold build at hb
  obtain ⟨h, hh, hb⟩ := bind_ok hb
  obtain ⟨H, hH, hb⟩ := bind_ok hb
  obtain ⟨lw, hlw, hb⟩ := bind_ok hb
  obtain ⟨zr, hzr, hb⟩ := bind_ok hb
  obtain ⟨ts, hts, hb⟩ := bind_ok hb
  obtain ⟨s', hs', hb⟩ := bind_ok hb
  obtain ⟨cs', hcs, hb⟩ := bind_ok hb
  simp only [Except.ok.injEq, Prod.mk.injEq] at hb
  obtain ⟨rfl, rfl⟩ := hb
  unfold filterScatters at hs'
  simp only at hs'
  split at hs'
  · simp only [Except.ok.injEq] at hs'
    subst hs'
    exact ⟨List.Sublist.refl _, coefs_lines _ _ _ (dl.lines hn hd (Carries.refl _) (List.Sublist.refl _) lw h hh H hH ts hts) hcs⟩
  · split at hs'
    · simp at hs'
    · obtain ⟨mu, hmu, hs'⟩ := bind_ok hs'
      obtain ⟨h1, hh1, hs'⟩ := bind_ok hs'
      obtain ⟨H1, hH1, hs'⟩ := bind_ok hs'
      obtain ⟨ts1, hts1, hs'⟩ := bind_ok hs'
      simp only [Except.ok.injEq] at hs'
      subst hs'
      obtain ⟨hc, hsub⟩ := carries_filterMuons hmu
      exact ⟨hsub, coefs_lines _ _ _ (dl.lines hn hd hc hsub lw h1 hh1 H1 hH1 ts1 hts1) hcs⟩

/-- the mask of the filter, in terms of what the muons did -/
theorem mask_bends {b b' : Batch Row} {zA zB : List ℝ} (dl : Delivered b b' zA zB) (hn : b.ids.Nodup) (hd : ∀ m ∈ b.muons, Downward m) (lw zr : ℝ × ℝ) (h)
    (hh : b'.getHits none none = .ok h) (H : Hits) (hH : extract h = .ok H) (ts) (hts : computeTracks true lw H = .ok ts) :
    List.Forall₂ (fun (m' : Muon) (k : Bool) => ∃ m0 ∈ b.muons, m0.id = m'.id ∧ (k = true ↔ Bends lw zr m0 m')) b'.muons (keepMask true lw zr ⟨b', H, ts⟩) := by
  have hl := dl.lines hn hd (Carries.refl _) (List.Sublist.refl _) lw h hh H hH ts hts
  obtain ⟨lr, lt⟩ := C32.lengths (gen := true) (lw := lw) (s := ⟨b', H, ts⟩) ⟨dl.ok, dl.recorded, ⟨h, hh, hH⟩, hts⟩
  simp only at lr lt
  rw [List.forall₂_iff_get] at hl ⊢
  have hml : (keepMask true lw zr ⟨b', H, ts⟩).length = b'.muons.length := by simp [keepMask, lr, lt]
  refine ⟨hml.symm, ?_⟩
  intro i hi hi'
  have hti : i < ts.length := by omega
  have hri : i < H.rows.length := by omega
  obtain ⟨m0, hm0, e0, a, c, ht, la, lc⟩ := hl.2 i hi hti
  refine ⟨m0, hm0, e0, ?_⟩
  simp only [List.get_eq_getElem] at ht ⊢
  rw [← usable_iff lw zr m0 b'.muons[i] (hd m0 hm0) (dl.down _ (List.getElem_mem hi)) a c la lc (H.rows[i]).2.1, ← ht]
  have := C32.mask_iff true lw zr ⟨b', H, ts⟩ i ts[i] H.rows[i] (List.getElem?_eq_getElem hti) (List.getElem?_eq_getElem hri)
  rw [List.getElem?_eq_getElem hi'] at this
  simpa using this

/-- **C99, who is kept.** The muons of the `GenScatterBatch` are exactly those that changed direction on their way, came and left at more than 1e-5 to the
horizontal and passed not too far out. -/
theorem kept (argsort : List ℝ → List Nat) (ha : IsArgsort argsort) (rng : Nat → Nat → Nat → Draw) (noise : Nat → Nat → Nat → ℝ × ℝ) (fuel : Nat)
    (V V' : Volume) (ht : Telescope V.layers) (b b' : Batch Row) (h0 : b.hits = []) (hn : b.ids.Nodup) (hd : ∀ m ∈ b.muons, Downward m)
    (hf : V.forward argsort rng noise fuel b = .ok (V', some b')) (s : SB) (cs : List (Track × Track × (ℝ × ℝ × ℝ)))
    (hb : build true V' b' = .ok (s, cs)) :
    ∃ lw zr keep, V.lw = .ok lw ∧ V.zRange = .ok zr ∧ s.mu.muons = pick keep b'.muons ∧
      List.Forall₂ (fun (m' : Muon) (k : Bool) => ∃ m0 ∈ b.muons, m0.id = m'.id ∧ (k = true ↔ Bends lw zr m0 m')) b'.muons keep := by
  obtain ⟨zA, zB, dl⟩ := delivered argsort ha rng noise fuel V V' ht b b' h0 hn hd hf
  have hpas := passives_budget argsort V V' (C14.forward_spec argsort ha rng noise fuel V V' b b' hf).1
  unfold build at hb
  obtain ⟨h, hh, hb⟩ := bind_ok hb
  obtain ⟨H, hH, hb⟩ := bind_ok hb
  obtain ⟨lw, hlw, hb⟩ := bind_ok hb
  obtain ⟨zr, hzr, hb⟩ := bind_ok hb
  obtain ⟨ts, hts, hb⟩ := bind_ok hb
  obtain ⟨s', hs', hb⟩ := bind_ok hb
  obtain ⟨cs', hcs, hb⟩ := bind_ok hb
  simp only [Except.ok.injEq, Prod.mk.injEq] at hb
  obtain ⟨rfl, rfl⟩ := hb
  have hc : C32.Consistent true lw ⟨b', H, ts⟩ := ⟨dl.ok, dl.recorded, ⟨h, hh, hH⟩, hts⟩
  have h1 : b'.muons.length ≠ 1 ∨ (keepMask true lw zr ⟨b', H, ts⟩).all id = true := by
    by_contra hcon
    push Not at hcon
    rw [C32.single_violated true lw zr _ hc hcon.1 (by simpa using hcon.2)] at hs'
    simp at hs'
  obtain ⟨_, s'', hs'', _, hpick, _⟩ := C32.filter_spec_partial true lw zr ⟨b', H, ts⟩ hc h1
  rw [hs'] at hs''
  simp only [Except.ok.injEq] at hs''
  subst hs''
  refine ⟨lw, zr, _, ?_, ?_, hpick, mask_bends dl hn hd lw zr h hh H hH ts hts⟩
  · unfold Volume.lw at hlw ⊢; rwa [← hpas]
  · unfold Volume.zRange at hzr ⊢; rwa [← hpas]

/-- No batch makes the construction fail, neither with the true nor with the recorded hits, whatever the panels' positions, sizes and responses, except
one in which a single muon is left. Missing: the single muon (see `single_violated`). -/
theorem built_partial (argsort : List ℝ → List Nat) (ha : IsArgsort argsort) (rng : Nat → Nat → Nat → Draw) (noise : Nat → Nat → Nat → ℝ × ℝ) (fuel : Nat)
    (V V' : Volume) (ht : Telescope V.layers) (hp : V.passives ≠ []) (b b' : Batch Row) (h0 : b.hits = []) (hn : b.ids.Nodup) (hd : ∀ m ∈ b.muons, Downward m)
    (hf : V.forward argsort rng noise fuel b = .ok (V', some b')) (gen : Bool) (h1 : b'.muons.length ≠ 1) :
    ∃ s cs, build gen V' b' = .ok (s, cs) ∧ cs.length = s.mu.muons.length := by
  obtain ⟨zA, zB, dl⟩ := delivered argsort ha rng noise fuel V V' ht b b' h0 hn hd hf
  have hp' : V'.passives ≠ [] := by
    rw [passives_budget argsort V V' (C14.forward_spec argsort ha rng noise fuel V V' b b' hf).1]; exact hp
  obtain ⟨lw, hlw⟩ : ∃ lw, V'.lw = .ok lw := by
    unfold Volume.lw
    cases hl : V'.passives.getLast? with
    | none => simp at hl; exact absurd hl hp'
    | some L => exact ⟨_, rfl⟩
  obtain ⟨zr, hzr⟩ : ∃ zr, V'.zRange = .ok zr := by
    unfold Volume.zRange
    cases hl : V'.passives.getLast? with
    | none => simp at hl; exact absurd hl hp'
    | some L =>
      cases hh : V'.passives.head? with
      | none => simp at hh; exact absurd hh hp'
      | some T => exact ⟨_, rfl⟩
  obtain ⟨g, H, ts, e1, e2, e3, hc⟩ := dl.consistent gen lw
  obtain ⟨_, s, hs, _⟩ := C32.filter_spec_partial gen lw zr ⟨b', H, ts⟩ hc (Or.inl h1)
  obtain ⟨cs, hcs, hl⟩ := C27.batch_never_singular gen lw zr _ s hc hs
  exact ⟨s, cs, by simp only [build, bind, Except.bind, e1, e2, hlw, hzr, e3, hs, hcs], hl⟩

/-- A single muon that bent is no obstacle. -/
theorem single_built (argsort : List ℝ → List Nat) (ha : IsArgsort argsort) (rng : Nat → Nat → Nat → Draw) (noise : Nat → Nat → Nat → ℝ × ℝ) (fuel : Nat)
    (V V' : Volume) (ht : Telescope V.layers) (lw zr : ℝ × ℝ) (hlw : V.lw = .ok lw) (hzr : V.zRange = .ok zr) (b b' : Batch Row) (h0 : b.hits = []) (hn : b.ids.Nodup)
    (hd : ∀ m ∈ b.muons, Downward m) (hf : V.forward argsort rng noise fuel b = .ok (V', some b')) (m m' : Muon) (h1 : b'.muons = [m']) (hm : m ∈ b.muons)
    (hid : m.id = m'.id) (hu : Bends lw zr m m') : ∃ s c, build true V' b' = .ok (s, [c]) ∧ s.mu.muons = [m'] := by
  obtain ⟨zA, zB, dl⟩ := delivered argsort ha rng noise fuel V V' ht b b' h0 hn hd hf
  have hpas := passives_budget argsort V V' (C14.forward_spec argsort ha rng noise fuel V V' b b' hf).1
  have hlw' : V'.lw = .ok lw := by unfold Volume.lw at hlw ⊢; rwa [hpas]
  have hzr' : V'.zRange = .ok zr := by unfold Volume.zRange at hzr ⊢; rwa [hpas]
  obtain ⟨g, H, ts, e1, e2, e3, hc⟩ := dl.consistent true lw
  have hmask := mask_bends dl hn hd lw zr g e1 H e2 ts e3
  have hall : keepMask true lw zr ⟨b', H, ts⟩ = [true] := by
    rw [h1] at hmask
    generalize keepMask true lw zr ⟨b', H, ts⟩ = keep at hmask ⊢
    cases hmask with
    | @cons _ k _ ks hk hr =>
      cases hr
      obtain ⟨m0, hm0, e0, hk⟩ := hk
      have : m0 = m := List.inj_on_of_nodup_map hn hm0 hm (e0.trans hid.symm)
      subst this
      rw [hk.mpr hu]
  obtain ⟨_, s, hs, _, hp, _⟩ := C32.filter_spec_partial true lw zr ⟨b', H, ts⟩ hc (Or.inr (by simp [hall]))
  rw [hall] at hp
  simp only [h1, pick] at hp
  obtain ⟨cs, hcs, hl⟩ := C27.batch_never_singular true lw zr _ s hc hs
  rw [hp] at hl
  obtain ⟨c, rfl⟩ := List.length_eq_one_iff.mp hl
  exact ⟨s, c, by simp only [build, bind, Except.bind, e1, e2, hlw', hzr', e3, hs, hcs], hp⟩

/-- The single muon: if it did not bend, the construction fails. -/
theorem single_violated (argsort : List ℝ → List Nat) (ha : IsArgsort argsort) (rng : Nat → Nat → Nat → Draw) (noise : Nat → Nat → Nat → ℝ × ℝ) (fuel : Nat)
    (V V' : Volume) (ht : Telescope V.layers) (lw zr : ℝ × ℝ) (hlw : V.lw = .ok lw) (hzr : V.zRange = .ok zr) (b b' : Batch Row) (h0 : b.hits = []) (hn : b.ids.Nodup)
    (hd : ∀ m ∈ b.muons, Downward m) (hf : V.forward argsort rng noise fuel b = .ok (V', some b')) (m m' : Muon) (h1 : b'.muons = [m']) (hm : m ∈ b.muons)
    (hid : m.id = m'.id) (hu : ¬ Bends lw zr m m') : ∃ e, build true V' b' = .error e := by
  obtain ⟨zA, zB, dl⟩ := delivered argsort ha rng noise fuel V V' ht b b' h0 hn hd hf
  have hpas := passives_budget argsort V V' (C14.forward_spec argsort ha rng noise fuel V V' b b' hf).1
  have hlw' : V'.lw = .ok lw := by unfold Volume.lw at hlw ⊢; rwa [hpas]
  have hzr' : V'.zRange = .ok zr := by unfold Volume.zRange at hzr ⊢; rwa [hpas]
  obtain ⟨g, H, ts, e1, e2, e3, hc⟩ := dl.consistent true lw
  have hmask := mask_bends dl hn hd lw zr g e1 H e2 ts e3
  have hall : (keepMask true lw zr ⟨b', H, ts⟩).all id = false := by
    rw [h1] at hmask
    generalize keepMask true lw zr ⟨b', H, ts⟩ = keep at hmask
    cases hmask with
    | @cons _ k _ ks hk hr =>
      cases hr
      obtain ⟨m0, hm0, e0, hk⟩ := hk
      have : m0 = m := List.inj_on_of_nodup_map hn hm0 hm (e0.trans hid.symm)
      subst this
      cases k with
      | false => rfl
      | true => exact absurd (hk.mp rfl) hu
  refine ⟨if b'.removed.isEmpty then .runtimeError else .valueError, ?_⟩
  unfold build
  rw [e1]; simp only [bind, Except.bind]
  rw [e2]; simp only
  rw [hlw']; simp only
  rw [hzr']; simp only
  rw [e3]; simp only
  rw [C32.single_violated true lw zr _ hc (by simp [h1]) hall]

/-! ### What the tracks say about the muons -/

/-- an angle in [0, 2π) is determined by its cosine and sine -/
theorem cos_sin_inj {a b : ℝ} (ha : 0 ≤ a) (ha' : a < 2 * π) (hb : 0 ≤ b) (hb' : b < 2 * π) (hc : cos a = cos b) (hs : sin a = sin b) : a = b := by
  have : (a : Real.Angle) = (b : Real.Angle) := Real.Angle.cos_sin_inj hc hs
  obtain ⟨k, hk⟩ := Real.Angle.angle_eq_iff_two_pi_dvd_sub.mp this
  have h1 : (k : ℝ) < 1 := by
    by_contra h; push Not at h; nlinarith [pi_pos]
  have h2 : (-1 : ℝ) < k := by
    by_contra h; push Not at h; nlinarith [pi_pos]
  have h1' : k < 1 := by exact_mod_cast h1
  have h2' : -1 < k := by exact_mod_cast h2
  have : k = 0 := by omega
  subst this
  simp at hk; linarith

/-- the zenith angle of a track is that of the muon whose line it is, the azimuth too unless the muon is vertical -/
theorem angles (t : Track) (m : Muon) (hd : Downward m) (h : IsLineOf t m) :
    thetaOf t.1 = some m.th ∧ (m.th ≠ 0 → phiOf t.1.1 t.1.2.1 = m.ph) := by
  obtain ⟨⟨c, hc, hv⟩, _⟩ := h
  have hl : len3 t.1 = c := by rw [hv, len3_scale c hc, len3_dir, mul_one]
  have hne : t.1 ≠ (0, 0, 0) := by
    intro h0; rw [h0] at hl; simp [len3] at hl; exact hc.ne hl
  obtain ⟨th, h1, h2, h3, h4, h5, h6, _⟩ := C28.angles t.1 hne
  rw [hl] at h6
  have he : dir th (phiOf t.1.1 t.1.2.1) = dir m.th m.ph := scale3_inj hc.ne' (h6.trans hv)
  obtain ⟨d1, d2, d3, d4⟩ := hd
  simp only [dir, Prod.mk.injEq, neg_inj] at he
  obtain ⟨e1, e2, e3⟩ := he
  have hth : th = m.th := injOn_cos ⟨h2, h3⟩ ⟨d1, by linarith [pi_pos]⟩ e3
  subst hth
  refine ⟨h1, fun hnz => ?_⟩
  have hs : sin m.th ≠ 0 := (sin_pos_of_pos_of_lt_pi (lt_of_le_of_ne d1 (Ne.symm hnz)) (by linarith [pi_pos])).ne'
  exact cos_sin_inj h4 h5 d3 d4 (mul_left_cancel₀ hs e1) (mul_left_cancel₀ hs e2)

/-- the points of the track are the points of the muon's line -/
theorem points (t : Track) (m : Muon) (h : IsLineOf t m) : (∀ s, ∃ s', t.point s = m.at s') ∧ ∀ s', ∃ s, t.point s = m.at s' := by
  obtain ⟨⟨c, hc, hv⟩, s0, hs⟩ := h
  constructor
  · intro s
    refine ⟨s0 + s * c, ?_⟩
    unfold Track.point
    rw [hv, hs]
    simp only [MuonOf.at, scale3]
    refine Prod.ext ?_ (Prod.ext ?_ ?_) <;> simp only <;> ring
  · intro s'
    refine ⟨(s' - s0) / c, ?_⟩
    unfold Track.point
    rw [hv, hs]
    simp only [MuonOf.at, scale3]
    refine Prod.ext ?_ (Prod.ext ?_ ?_) <;> simp only <;> field_simp <;> ring

/-- two unit directions that both point down and differ: the lines through a common point along them meet nowhere else -/
theorem meet_once (d1 d2 d3 e1 e2 e3 x y : ℝ) (l1 : d1 ^ 2 + d2 ^ 2 + d3 ^ 2 = 1) (l2 : e1 ^ 2 + e2 ^ 2 + e3 ^ 2 = 1) (z1 : d3 < 0) (z2 : e3 < 0)
    (q1 : x * d1 = y * e1) (q2 : x * d2 = y * e2) (q3 : x * d3 = y * e3) (hne : ¬ (d1 = e1 ∧ d2 = e2 ∧ d3 = e3)) : x = 0 := by
  by_contra hx
  have hsq : x ^ 2 = y ^ 2 := by
    have : x ^ 2 * (d1 ^ 2 + d2 ^ 2 + d3 ^ 2) = y ^ 2 * (e1 ^ 2 + e2 ^ 2 + e3 ^ 2) := by
      linear_combination (x * d1 + y * e1) * q1 + (x * d2 + y * e2) * q2 + (x * d3 + y * e3) * q3
    rwa [l1, l2, mul_one, mul_one] at this
  rcases sq_eq_sq_iff_eq_or_eq_neg.mp hsq with h | h
  · subst h
    exact hne ⟨mul_left_cancel₀ hx q1, mul_left_cancel₀ hx q2, mul_left_cancel₀ hx q3⟩
  · have : x * (d3 + e3) = 0 := by
      have : y = -x := by linarith
      subst this; linarith
    rcases mul_eq_zero.mp this with h' | h'
    · exact hx h'
    · linarith

theorem sq3_zero (x y z : ℝ) (h : x ^ 2 + y ^ 2 + z ^ 2 ≤ 0) : x = 0 ∧ y = 0 ∧ z = 0 := by
  have h1 := sq_nonneg x
  have h2 := sq_nonneg y
  have h3 := sq_nonneg z
  exact ⟨pow_eq_zero_iff two_ne_zero |>.mp (by linarith), pow_eq_zero_iff two_ne_zero |>.mp (by linarith), pow_eq_zero_iff two_ne_zero |>.mp (by linarith)⟩

/-- If the two lines meet, the reconstructed location is where they meet. -/
theorem meeting_point (m m' : Muon) (u w s t : ℝ) (h : ∀ u' w', dist2 (m.at u) (m'.at w) ≤ dist2 (m.at u') (m'.at w')) (hst : m.at s = m'.at t)
    (hne : dir m.th m.ph ≠ dir m'.th m'.ph) (hd : Downward m) (hd' : Downward m') : mid3 (m.at u) (m'.at w) = m.at s := by
  have h1 := h s t
  rw [hst] at h1
  obtain ⟨d1, d2, -, -⟩ := hd
  obtain ⟨d1', d2', -, -⟩ := hd'
  have c1 : 0 < cos m.th := cos_pos_of_mem_Ioo ⟨by linarith [pi_pos], d2⟩
  have c2 : 0 < cos m'.th := cos_pos_of_mem_Ioo ⟨by linarith [pi_pos], d2'⟩
  have h0 : dist2 (m'.at t) (m'.at t) = 0 := by simp [dist2]
  rw [h0] at h1
  have l1 : (dir m.th m.ph).1 ^ 2 + (dir m.th m.ph).2.1 ^ 2 + (dir m.th m.ph).2.2 ^ 2 = 1 := by
    have := len3_dir m.th m.ph; unfold len3 at this; exact (sqrt_eq_one).mp this
  have l2 : (dir m'.th m'.ph).1 ^ 2 + (dir m'.th m'.ph).2.1 ^ 2 + (dir m'.th m'.ph).2.2 ^ 2 = 1 := by
    have := len3_dir m'.th m'.ph; unfold len3 at this; exact (sqrt_eq_one).mp this
  obtain ⟨f1, f2, f3⟩ := sq3_zero _ _ _ h1
  obtain ⟨g1, g2, g3⟩ : (m.at s).1 = (m'.at t).1 ∧ (m.at s).2.1 = (m'.at t).2.1 ∧ (m.at s).2.2 = (m'.at t).2.2 := by rw [hst]; simp
  have hx : u - s = 0 := by
    refine meet_once _ _ _ _ _ _ (u - s) (w - t) l1 l2 (by simp only [dir]; linarith) (by simp only [dir]; linarith) ?_ ?_ ?_
      (fun e => hne (Prod.ext e.1 (Prod.ext e.2.1 e.2.2)))
    · simp only [MuonOf.at] at f1 g1; linarith
    · simp only [MuonOf.at] at f2 g2; linarith
    · simp only [MuonOf.at] at f3 g3; linarith
  obtain rfl : u = s := by linarith
  have e : m'.at w = m.at u := Prod.ext (by linarith) (Prod.ext (by linarith) (by linarith))
  rw [e]
  refine Prod.ext ?_ (Prod.ext ?_ ?_) <;> simp only [mid3] <;> ring

/-- what tracks along the lines flown say about the muons -/
theorem of_lines (b : Batch Row) (hd : ∀ m ∈ b.muons, Downward m) (ms : List Muon) (cs : List (Track × Track × (ℝ × ℝ × ℝ))) (hmem : ∀ m' ∈ ms, Downward m')
    (hl : List.Forall₂ (fun m' c => ∃ m0 ∈ b.muons, m0.id = m'.id ∧ IsLineOf c.1 m0 ∧ IsLineOf c.2.1 m' ∧ trackCoefs c.1 c.2.1 = some c.2.2) ms cs) :
    List.Forall₂ (fun (m' : Muon) c => ∃ m0 ∈ b.muons, m0.id = m'.id ∧
      (thetaOf c.1.1 = some m0.th ∧ (m0.th ≠ 0 → phiOf c.1.1.1 c.1.1.2.1 = m0.ph)) ∧
      (thetaOf c.2.1.1 = some m'.th ∧ (m'.th ≠ 0 → phiOf c.2.1.1.1 c.2.1.1.2.1 = m'.ph)) ∧
      (∃ a, thetaMsc c.1.1 c.2.1.1 = some a ∧ 0 < a ∧ a ≤ π ∧ cos a = dot3 (dir m0.th m0.ph) (dir m'.th m'.ph)) ∧
      ∃ u w, poca c.1 c.2.1 c.2.2 = mid3 (m0.at u) (m'.at w) ∧ (∀ u' w', dist2 (m0.at u) (m'.at w) ≤ dist2 (m0.at u') (m'.at w')) ∧
        ∀ x y, m0.at x = m'.at y → poca c.1 c.2.1 c.2.2 = m0.at x) ms cs := by
  induction hl with
  | nil => exact .nil
  | @cons m' c ms cs h _ ih =>
    refine .cons ?_ (ih fun x hx => hmem x (List.mem_cons_of_mem _ hx))
    obtain ⟨m0, hm0, e0, l0, l1, hk⟩ := h
    have dn0 := hd m0 hm0
    have dn1 := hmem m' (List.mem_cons_self ..)
    refine ⟨m0, hm0, e0, angles _ _ dn0 l0, angles _ _ dn1 l1, ?_, ?_⟩
    · obtain ⟨⟨x, hx, hv⟩, _⟩ := l0
      obtain ⟨⟨y, hy, hw⟩, _⟩ := l1
      have n0 : dir m0.th m0.ph ≠ (0, 0, 0) := by intro h; have := len3_dir m0.th m0.ph; rw [h] at this; simp [len3] at this
      have n1 : dir m'.th m'.ph ≠ (0, 0, 0) := by intro h; have := len3_dir m'.th m'.ph; rw [h] at this; simp [len3] at this
      obtain ⟨a, h1, h2, h3, h4⟩ := C29.msc_is_angle _ _ n0 n1
      rw [len3_dir, len3_dir, one_mul, one_mul] at h4
      refine ⟨a, by rw [hv, hw, C29.msc_scale _ _ x y hx hy, h1], lt_of_le_of_ne h2 ?_, h3, h4⟩
      rintro rfl
      obtain ⟨z, hz, e⟩ := (C29.msc_zero_iff _ _ n0 n1).mp h1
      have : Parallel c.1.1 c.2.1.1 := by
        refine ⟨y * z, x, Or.inr hx.ne', ?_⟩
        rw [hv, hw, e]
        simp only [scale3]
        refine Prod.ext ?_ (Prod.ext ?_ ?_) <;> simp only <;> ring
      rw [(C27.singular_iff c.1 c.2.1).mpr this] at hk
      simp at hk
    · have hnp : ¬ Parallel c.1.1 c.2.1.1 := by
        intro hp; rw [(C27.singular_iff c.1 c.2.1).mpr hp] at hk; simp at hk
      obtain ⟨k, hk', h1, h2, _⟩ := C27.poca_midpoint c.1 c.2.1 hnp
      rw [hk] at hk'
      simp only [Option.some.injEq] at hk'
      subst hk'
      obtain ⟨u, hu⟩ := (points _ _ l0).1 c.2.2.1
      obtain ⟨w, hw⟩ := (points _ _ l1).1 c.2.2.2.1
      rw [hu, hw] at h1 h2
      have h3 : ∀ u' w', dist2 (m0.at u) (m'.at w) ≤ dist2 (m0.at u') (m'.at w') := by
        intro u' w'
        obtain ⟨x, hx⟩ := (points _ _ l0).2 u'
        obtain ⟨y, hy⟩ := (points _ _ l1).2 w'
        rw [← hx, ← hy]
        exact h2 x y
      refine ⟨u, w, h1, h3, fun x y hxy => ?_⟩
      rw [h1]
      refine meeting_point m0 m' u w x y h3 hxy (fun e => hnp ?_) dn0 dn1
      obtain ⟨⟨x, hx, hv⟩, _⟩ := l0
      obtain ⟨⟨y, hy, hw⟩, _⟩ := l1
      refine ⟨y, x, Or.inr hx.ne', ?_⟩
      rw [hv, hw, e]
      simp only [scale3]
      refine Prod.ext ?_ (Prod.ext ?_ ?_) <;> simp only <;> ring

/-- **C99, what is reconstructed.** For the muon of each row of the `GenScatterBatch`: the angles are those with which it entered and left (the azimuth of a vertical muon is
arbitrary), the scattering angle is the angle between its two directions, and the scattering location is the middle of the shortest segment between the two lines it
flew along; if these meet, it is where they meet. -/
theorem reconstructed (argsort : List ℝ → List Nat) (ha : IsArgsort argsort) (rng : Nat → Nat → Nat → Draw) (noise : Nat → Nat → Nat → ℝ × ℝ) (fuel : Nat)
    (V V' : Volume) (ht : Telescope V.layers) (b b' : Batch Row) (h0 : b.hits = []) (hn : b.ids.Nodup) (hd : ∀ m ∈ b.muons, Downward m)
    (hf : V.forward argsort rng noise fuel b = .ok (V', some b')) (s : SB) (cs : List (Track × Track × (ℝ × ℝ × ℝ)))
    (hb : build true V' b' = .ok (s, cs)) :
    List.Forall₂ (fun (m' : Muon) c => ∃ m0 ∈ b.muons, m0.id = m'.id ∧
      (thetaOf c.1.1 = some m0.th ∧ (m0.th ≠ 0 → phiOf c.1.1.1 c.1.1.2.1 = m0.ph)) ∧
      (thetaOf c.2.1.1 = some m'.th ∧ (m'.th ≠ 0 → phiOf c.2.1.1.1 c.2.1.1.2.1 = m'.ph)) ∧
      (∃ a, thetaMsc c.1.1 c.2.1.1 = some a ∧ 0 < a ∧ a ≤ π ∧ cos a = dot3 (dir m0.th m0.ph) (dir m'.th m'.ph)) ∧
      ∃ u w, poca c.1 c.2.1 c.2.2 = mid3 (m0.at u) (m'.at w) ∧ (∀ u' w', dist2 (m0.at u) (m'.at w) ≤ dist2 (m0.at u') (m'.at w')) ∧
        ∀ x y, m0.at x = m'.at y → poca c.1 c.2.1 c.2.2 = m0.at x) s.mu.muons cs := by
  obtain ⟨zA, zB, dl⟩ := delivered argsort ha rng noise fuel V V' ht b b' h0 hn hd hf
  obtain ⟨hsub, hl⟩ := true_tracks argsort ha rng noise fuel V V' ht b b' h0 hn hd hf s cs hb
  have hmem : ∀ m' ∈ s.mu.muons, Downward m' := fun m' h => dl.down m' (hsub.subset h)
  exact of_lines b hd _ _ hmem hl

/-! ### A muon that is scattered by 45 degrees -/

/-- a layer of unit radiation length, one voxel -/
def slab : PassiveLayer := ⟨(1, 1), 2, 1, 1, "pdg", some [[1]]⟩

/-- a detector layer with two panels -/
def pair (pos : String) (z : ℝ) : DetLayer := ⟨pos, (1, 1), z, 1, [.panel ⟨.gauss, 1000, 1, 1, (0.5, 0.5), z - 0.8, (1, 1), 1, true, true⟩,
  .panel ⟨.gauss, 1000, 1, 1, (0.5, 0.5), z - 0.2, (1, 1), 1, true, true⟩]⟩

def scope : Volume := ⟨[.detector (pair "above" 3), .passive slab, .detector (pair "below" 1)], none, [], []⟩

/-- no displacement, a turn by 45 degrees -/
def turn : Draw := ⟨-(sqrt 12 * (π / 8)), 0, π / 4, 0⟩

theorem scope_telescope : Telescope scope.layers := by
  refine ⟨[pair "above" 3], [slab], [pair "below" 1], rfl, by simp [pair], by simp [pair], ⟨?_, by simp⟩, ⟨?_, by simp⟩, ?_, ?_⟩
  · simp [pair, DetLayer.heights, AnyPanel.z]; norm_num
  · simp [pair, DetLayer.heights, AnyPanel.z]; norm_num
  · simp [pair, DetLayer.heights]
  · simp [pair, DetLayer.heights]

theorem turn_scatter : pdgScatter 1 0 0 (thetaXFromThetaPhi 0 0) (thetaYFromThetaPhi 0 0) 0.0136 1 turn = ⟨0, 0, 0, some (-(π / 4)), some 0⟩ := by
  have h0 : pdgTheta0 1 0.0136 1 = 1 := by simp [pdgTheta0, scatterCoefA]; norm_num
  have hx : thetaXFromThetaPhi 0 0 = some 0 := by
    unfold thetaXFromThetaPhi; rw [if_neg (by have := pi_pos; simp; linarith)]; simp
  have hy : thetaYFromThetaPhi 0 0 = some 0 := by
    unfold thetaYFromThetaPhi; rw [if_neg (by have := pi_pos; simp; linarith)]; simp
  have ha : pdgDtheta (π / 4) 1 = π / 4 := by
    unfold pdgDtheta; rw [mul_one]; apply min_eq_left; have := pi_pos; norm_num; linarith
  have ha0 : pdgDtheta 0 1 = 0 := by
    unfold pdgDtheta; rw [zero_mul]; apply min_eq_left; have := pi_pos; positivity
  have hd : pdgDxy 1 1 (-(sqrt 12 * (π / 8))) (π / 4) = 0 := by
    unfold pdgDxy
    have : sqrt 12 ≠ 0 := by positivity
    field_simp; ring
  have hd0 : pdgDxy 1 1 0 0 = 0 := by simp [pdgDxy]
  have ho : pdgDOut 0 0 0 0 (π / 4) 0 = (1, 0, -1) := by simp [pdgDOut]
  have e1 : arctanDiv 1 (-1) = some (-(π / 4)) := by simp [arctanDiv]
  have e2 : arctanDiv 0 (-1) = some 0 := by simp [arctanDiv]
  unfold pdgScatter
  simp only [h0, hx, hy, turn, ha, ha0, hd, hd0, ho, e1, e2]
  simp [pdgDxVol, pdgDyVol, pdgDzVol]

/-- the scattering in the slab -/
theorem slab_turns (k : Nat) (ids : List Nat) (b : Batch Row) (h : b.muons = (k :: ids).map fun i => ⟨i, 0.5, 0.5, 2, 0.0136, 0, 0⟩) :
    ∃ b', slab.forward (fun _ _ => turn) 1 b = .ok (some b') ∧ b'.muons = (k :: ids).map fun i => ⟨i, 0.5, 0.5, 1, 0.0136, π / 4, π⟩ := by
  have hb1 : ({ b with muons := b.muons.map fun m => Batch.propDzRow m (m.z - slab.z) } : Batch Row) = b := by
    have : b.muons.map (fun m => Batch.propDzRow m (m.z - slab.z)) = b.muons := by
      rw [h]; simp [Batch.propDzRow, slab]
    rw [this]
  have hstep : ∀ i, slab.scatterStep ⟨i, 0.5, 0.5, 2, 0.0136, 0, 0⟩ = 1 := by simp [PassiveLayer.scatterStep, slab]
  have hl : ∀ i, slab.lookupX0 [[1]] ⟨i, 0.5, 0.5, 2, 0.0136, 0, 0⟩ = .ok 1 := by
    have : slab.abs2idx 0.5 = 0 := by simp [PassiveLayer.abs2idx, slab, Int.floor_eq_zero_iff]; norm_num
    simp [PassiveLayer.lookupX0, this, getIdx]
  have hs : ∀ i, slab.scatterOf [[1]] (fun _ => turn) ⟨i, 0.5, 0.5, 2, 0.0136, 0, 0⟩ = .ok ⟨0, 0, 0, some (-(π / 4)), some 0⟩ := by
    intro i
    unfold PassiveLayer.scatterOf
    rw [hl, hstep]
    simp only
    rw [turn_scatter]
  have hfoot : ∀ i, slab.footprint ⟨i, 0.5, 0.5, 2, 0.0136, 0, 0⟩ = true := by
    intro i
    simp [PassiveLayer.footprint, Batch.inWindow, slab]; norm_num
  have hpass := PassiveLayer.pass_rows_ok slab [[1]] rfl (by simp [PassiveLayer.checkModel, slab]) (fun _ => turn) b (fun _ => true)
    (by
      intro m' hm' _ _
      rw [h, List.mem_map] at hm'
      obtain ⟨i, -, rfl⟩ := hm'
      exact ⟨_, hs i⟩)
  have hrow : ∀ i, slab.rowPass (slab.footprint ⟨i, 0.5, 0.5, 2, 0.0136, 0, 0⟩ && true) true (slab.scatVal [[1]] (fun _ => turn) ⟨i, 0.5, 0.5, 2, 0.0136, 0, 0⟩) ⟨i, 0.5, 0.5, 2, 0.0136, 0, 0⟩ =
      ⟨i, 0.5, 0.5, 1, 0.0136, some (π / 4), some π⟩ := by
    intro i
    have hv : slab.scatVal [[1]] (fun _ => turn) ⟨i, 0.5, 0.5, 2, 0.0136, 0, 0⟩ = ⟨0, 0, 0, some (-(π / 4)), some 0⟩ := by unfold PassiveLayer.scatVal; rw [hs]
    rw [hv, hfoot]
    have hpos : slab.rowPos (true && true) true ⟨0, 0, 0, some (-(π / 4)), some 0⟩ ⟨i, 0.5, 0.5, 2, 0.0136, 0, 0⟩ = ⟨i, 0.5, 0.5, 1, 0.0136, 0, 0⟩ := by
      simp [PassiveLayer.rowPos, shiftXYZ, Batch.propDRow, slab]; norm_num
    unfold PassiveLayer.rowPass
    rw [hpos]
    simp only [Bool.and_self, if_true, PassiveLayer.scatterXYRowO, MuonOf.toRaw, Batch.scatterXYRow]
    have hx : thetaXFromThetaPhi 0 0 = some 0 := by
      unfold thetaXFromThetaPhi; rw [if_neg (by have := pi_pos; simp; linarith)]; simp
    have hy : thetaYFromThetaPhi 0 0 = some 0 := by
      unfold thetaYFromThetaPhi; rw [if_neg (by have := pi_pos; simp; linarith)]; simp
    have hr : ¬ (|-(π / 4)| ≥ π / 2 ∨ |(0 : ℝ)| ≥ π / 2) := by
      have := pi_pos
      rw [abs_neg, abs_of_pos (by positivity), abs_zero]
      push Not; constructor <;> linarith
    simp only [hx, hy, zero_add, thetaFromThetaXY, phiFromThetaXY, if_neg hr]
    have : -(π / 4) < 0 := by have := pi_pos; linarith
    simp [arctanDiv, this]
  have hkeep : ∀ i, Batch.keepRow (⟨i, 0.5, 0.5, 1, 0.0136, some (π / 4), some π⟩ : RawMuon) = true := by
    intro i
    have := pi_pos
    simp [Batch.keepRow]; linarith
  have hpass2 : slab.pass (fun _ => turn) b ((k :: ids).map fun _ => true) = .ok { b with muons := (k :: ids).map fun i => ⟨i, 0.5, 0.5, 1, 0.0136, π / 4, π⟩ } := by
    rw [h, List.map_map, List.map_map] at hpass
    have hmap : (k :: ids).map ((fun m => slab.rowPass (slab.footprint m && true) true (slab.scatVal [[1]] (fun _ => turn) m) m) ∘
        fun i => (⟨i, 0.5, 0.5, 2, 0.0136, 0, 0⟩ : Muon)) = (k :: ids).map fun i => ⟨i, 0.5, 0.5, 1, 0.0136, some (π / 4), some π⟩ :=
      List.map_congr_left fun i _ => hrow i
    refine Eq.trans ?_ (hpass.trans ?_)
    · rfl
    · rw [hmap]
      have hk1 : ∀ l : List Nat, (l.map fun i => (⟨i, 0.5, 0.5, 1, 0.0136, some (π / 4), some π⟩ : RawMuon)).filterMap RawMuon.toMuon? =
          l.map fun i => ⟨i, 0.5, 0.5, 1, 0.0136, π / 4, π⟩ := by
        intro l
        induction l with
        | nil => rfl
        | cons x l ih => rw [List.map_cons, List.filterMap_cons_some (by rfl), ih]; rfl
      have hk2 : ∀ l : List Nat, countTrue ((l.map fun i => (⟨i, 0.5, 0.5, 1, 0.0136, some (π / 4), some π⟩ : RawMuon)).map Batch.keepRow) = l.length := by
        intro l
        induction l with
        | nil => rfl
        | cons x l ih => rw [List.map_cons, List.map_cons, hkeep, countTrue_true, ih]; rfl
      unfold Batch.removeUpwards
      simp only
      rw [hk2, if_neg (by simp), hk1]
  have hout : ∀ i, slab.inside ⟨i, 0.5, 0.5, 1, 0.0136, π / 4, π⟩ = false := by intro i; simp [PassiveLayer.inside, slab]; norm_num
  have hloop : slab.loop (fun _ _ => turn) 1 0 b ((k :: ids).map fun _ => true) = .ok (some { b with muons := (k :: ids).map fun i => ⟨i, 0.5, 0.5, 1, 0.0136, π / 4, π⟩ }) := by
    unfold PassiveLayer.loop
    simp only [bind, Except.bind, hpass2]
    simp only [List.map_cons, List.any_cons, id, Bool.true_or, if_true, hout]
    unfold PassiveLayer.loop
    simp [hout]
  refine ⟨_, PassiveLayer.forward_returns_of slab (fun _ _ => turn) 1 b (b2 := { b with muons := (k :: ids).map fun i => ⟨i, 0.5, 0.5, 1, 0.0136, π / 4, π⟩ }) ?_, ?_⟩
  · rw [hb1, ← hloop]
    congr 1
    rw [h]; simp [List.map_const']
    rfl
  · simp [Batch.propDzRow, slab]; norm_num

theorem slab_turn (b : Batch Row) (h : b.muons = [⟨0, 0.5, 0.5, 2, 0.0136, 0, 0⟩]) :
    ∃ b', slab.forward (fun _ _ => turn) 1 b = .ok (some b') ∧ b'.muons = [⟨0, 0.5, 0.5, 1, 0.0136, π / 4, π⟩] :=
  slab_turns 0 [] b h

/-- A vertical muon is turned by 45 degrees in the slab: it is kept, reconstructed with this angle, and located where it was turned. -/
theorem scope_turns_any (argsort : List ℝ → List Nat) (ha : IsArgsort argsort) : ∃ b' s c,
    scope.forward argsort (fun _ _ _ => turn) (fun _ _ _ => (0, 0)) 1 ⟨[⟨0, 0.5, 0.5, 3, 0.0136, 0, 0⟩], [], [], []⟩ = .ok (scope, some b') ∧
    build true scope b' = .ok (s, [c]) ∧ thetaMsc c.1.1 c.2.1.1 = some (π / 4) ∧ poca c.1 c.2.1 c.2.2 = (0.5, 0.5, 1) := by
  have hd : ∀ m ∈ [(⟨0, 0.5, 0.5, 3, 0.0136, 0, 0⟩ : Muon)], Downward m := by
    have := pi_pos
    simp [Downward, this]
  obtain ⟨b1, _, h1, _, _, _, hm1, _⟩ := C13.layer_spec argsort ha (fun _ _ => (0, 0)) (pair "above" 3) ⟨[⟨0, 0.5, 0.5, 3, 0.0136, 0, 0⟩], [], [], []⟩
    (by simp [pair, AnyPanel.CanRespond, Panel.scaledSpan])
  obtain ⟨b2, h2, hm2⟩ := slab_turn b1.snapshot (by simp [Batch.snapshot, hm1, atHeight, pair, crossing]; norm_num)
  obtain ⟨b3, _, h3, _, _, _, hm3, _⟩ := C13.layer_spec argsort ha (fun _ _ => (0, 0)) (pair "below" 1) b2.snapshot
    (by simp [pair, AnyPanel.CanRespond, Panel.scaledSpan])
  have hf : scope.forward argsort (fun _ _ _ => turn) (fun _ _ _ => (0, 0)) 1 ⟨[⟨0, 0.5, 0.5, 3, 0.0136, 0, 0⟩], [], [], []⟩ = .ok (scope, some b3.snapshot) := by
    simp only [scope, Volume.forward, Volume.assignBudget, Volume.runLayers, Volume.layerForward, h1, h2, h3]
  have hm3' : b3.snapshot.muons = [⟨0, -0.5, 0.5, 0, 0.0136, π / 4, π⟩] := by
    simp [Batch.snapshot, hm3, hm2, atHeight, pair, crossing]; norm_num
  have hdir0 : dir 0 0 = (0, 0, -1) := by simp [dir]
  have hdir1 : dir (π / 4) π = (-(sqrt 2 / 2), 0, -(sqrt 2 / 2)) := by simp [dir]
  have hlw : scope.lw = .ok (1, 1) := rfl
  have hzr : scope.zRange = .ok (1, 2) := by
    have : scope.zRange = .ok (2 - 1, 2) := rfl
    rw [this]; norm_num
  obtain ⟨s, c, hb, hsm⟩ := single_built argsort ha _ _ 1 scope scope scope_telescope (1, 1) (1, 2) hlw hzr _ _ rfl (by simp [Batch.ids]) hd hf
    ⟨0, 0.5, 0.5, 3, 0.0136, 0, 0⟩ ⟨0, -0.5, 0.5, 0, 0.0136, π / 4, π⟩ hm3' (by simp) rfl (by
      have := pi_gt_three
      refine ⟨by simp only; norm_num; linarith, by simp only; norm_num; linarith, by simp only [hdir0, hdir1]; simp, ?_, ?_, ?_, ?_⟩ <;> simp [crossing] <;> norm_num)
  refine ⟨_, s, c, hf, hb, ?_⟩
  have hr := reconstructed argsort ha _ _ 1 scope scope scope_telescope _ _ rfl (by simp [Batch.ids]) hd hf s [c] hb
  rw [hsm] at hr
  cases hr with
  | cons h _ =>
    obtain ⟨m0, hm0, -, -, -, ⟨a, ha1, ha2, ha3, ha4⟩, u, w, -, -, hp⟩ := h
    simp only [List.mem_singleton] at hm0
    subst hm0
    simp only [hdir0, hdir1, dot3] at ha4
    constructor
    · rw [ha1]
      congr 1
      have hpi := pi_pos
      apply injOn_cos ⟨ha2.le, ha3⟩ ⟨by linarith, by linarith⟩
      rw [ha4, cos_pi_div_four]; ring
    · have h2 : sqrt 2 ≠ 0 := by positivity
      rw [hp 2 (-(2 / sqrt 2))]
      · simp only [MuonOf.at, hdir0]; norm_num
      · simp only [MuonOf.at, hdir0, hdir1, Prod.mk.injEq]
        refine ⟨?_, ?_, ?_⟩ <;> field_simp <;> norm_num

theorem scope_turns : ∃ argsort b' s c, IsArgsort argsort ∧
    scope.forward argsort (fun _ _ _ => turn) (fun _ _ _ => (0, 0)) 1 ⟨[⟨0, 0.5, 0.5, 3, 0.0136, 0, 0⟩], [], [], []⟩ = .ok (scope, some b') ∧
    build true scope b' = .ok (s, [c]) ∧ thetaMsc c.1.1 c.2.1.1 = some (π / 4) ∧ poca c.1 c.2.1 c.2.2 = (0.5, 0.5, 1) := by
  obtain ⟨argsort, ha⟩ := C13.argsort_exists
  obtain ⟨b', s, c, h⟩ := scope_turns_any argsort ha
  exact ⟨argsort, b', s, c, ha, h⟩

end C99

end

end Tomopt
