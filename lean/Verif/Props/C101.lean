import Verif.Props.C99
import Verif.Lemmas.PerfectTracks

/- C101: panels without noise reconstruct what happened. -/
namespace Tomopt

noncomputable section
open Real Scatter

namespace C101

/-- panels that add no noise to what they record -/
def quiet : Nat → Nat → Nat → ℝ × ℝ := fun _ _ _ => (0, 0)

/-- the muon that came out as `m'` was watched by all panels and can be used -/
theorem watched_iff {V : Volume} {rA rB : List Reader} (cA : Covers V "above" rA) (cB : Covers V "below" rB) (m m' : Muon) :
    ((∀ r ∈ rA, r.2.2.Sees m) ∧ ∀ r ∈ rB, r.2.2.Sees m') ↔ Watched V m m' := by
  constructor
  · rintro ⟨h1, h2⟩ D hD p hp
    refine ⟨fun e => ?_, fun e => ?_⟩
    · obtain ⟨r, hr, rfl⟩ := (cA p).mpr ⟨D, hD, e, hp⟩
      exact h1 r hr
    · obtain ⟨r, hr, rfl⟩ := (cB p).mpr ⟨D, hD, e, hp⟩
      exact h2 r hr
  · intro h
    constructor
    · intro r hr
      obtain ⟨D, hD, e, hp⟩ := (cA r.2.2).mp ⟨r, hr, rfl⟩
      exact (h D hD _ hp).1 e
    · intro r hr
      obtain ⟨D, hD, e, hp⟩ := (cB r.2.2).mp ⟨r, hr, rfl⟩
      exact (h D hD _ hp).2 e

/-- the tracks of a batch all of whose muons are usable -/
theorem lines_of {b b' : Batch Row} {rA rB : List Reader} (ro : ReadOut quiet b b' rA rB) (hn : b.ids.Nodup) (hd : ∀ m ∈ b.muons, Downward m)
    (hp : ∀ r ∈ rA ++ rB, 0 < r.2.2.res ∧ 0 < r.2.2.eff) (lw zr : ℝ × ℝ) (s : SB) (hc : Carries b' s.mu) (hsub : s.mu.muons.Sublist b'.muons)
    (hcon : C32.Consistent false lw s) (hall : (keepMask false lw zr s).all id = true) :
    List.Forall₂ (fun (m' : Muon) (t : Option Track × Option Track) => ∃ m0 ∈ b.muons, m0.id = m'.id ∧ ∃ a c, t = (some a, some c) ∧ IsLineOf a m0 ∧ IsLineOf c m')
      s.mu.muons s.tracks := by
  obtain ⟨lr, lt⟩ := C32.lengths hcon
  obtain ⟨_, _, ⟨h, hh, hH⟩, hts⟩ := hcon
  rw [List.forall₂_iff_get]
  refine ⟨lt.symm, ?_⟩
  intro i hi hi'
  have hri : i < s.hits.rows.length := by omega
  obtain ⟨m0, hm0, e0, -, hl⟩ := ro.exact hn hd hp hc hsub lw zr h hh _ hH _ hts i hi _ (List.getElem?_eq_getElem hi') _ (List.getElem?_eq_getElem hri)
  refine ⟨m0, hm0, e0, hl ?_⟩
  refine (C32.mask_iff false lw zr s i _ _ (List.getElem?_eq_getElem hi') (List.getElem?_eq_getElem hri)).mp ?_
  have hk : i < (keepMask false lw zr s).length := by simp [keepMask, lr, lt]; omega
  rw [List.getElem?_eq_getElem hk]
  have := List.all_eq_true.mp hall _ (List.getElem_mem hk)
  simpa using this

/-- **C101.** Let muons going down pass through a telescope whose panels, of positive resolution and efficiency, add no noise. If a `ScatterBatch` is built from what they
recorded, its muons are muons that came out, in order, and for each of them the incoming track is the line on which this very muon entered, the outgoing track the line on which
it left: the reconstruction itself adds no error, whatever the kind, size, position, resolution and efficiency of the panels. -/
theorem reco_tracks (argsort : List ℝ → List Nat) (ha : IsArgsort argsort) (rng : Nat → Nat → Nat → Draw) (fuel : Nat)
    (V V' : Volume) (ht : Telescope V.layers) (hsnd : ∀ D, .detector D ∈ V.layers → Sound D) (b b' : Batch Row) (h0 : b.hits = []) (hn : b.ids.Nodup)
    (hd : ∀ m ∈ b.muons, Downward m) (hf : V.forward argsort rng quiet fuel b = .ok (V', some b')) (s : SB) (cs : List (Track × Track × (ℝ × ℝ × ℝ)))
    (hb : build false V' b' = .ok (s, cs)) :
    s.mu.muons.Sublist b'.muons ∧
    List.Forall₂ (fun m' c => ∃ m0 ∈ b.muons, m0.id = m'.id ∧ IsLineOf c.1 m0 ∧ IsLineOf c.2.1 m' ∧ trackCoefs c.1 c.2.1 = some c.2.2) s.mu.muons cs := by
  obtain ⟨rA, rB, ro, cA, cB, hp⟩ := readout argsort ha rng quiet fuel V V' ht hsnd b b' h0 hn hd hf
  unfold build at hb
  obtain ⟨h, hh, hb⟩ := bind_ok hb
  obtain ⟨H, hH, hb⟩ := bind_ok hb
  obtain ⟨lw, hlw, hb⟩ := bind_ok hb
  obtain ⟨zr, hzr, hb⟩ := bind_ok hb
  obtain ⟨ts, hts, hb⟩ := bind_ok hb
  obtain ⟨s', hs', hb⟩ := bind_ok hb
  obtain ⟨cs', hcs, hb⟩ := bind_ok hb
  simp only [Except.ok.injEq, Prod.mk.injEq] at hb
  obtain ⟨rfl, rfl⟩ := hb
  have hc : C32.Consistent false lw ⟨b', H, ts⟩ := ⟨ro.dl.ok, ro.dl.recorded, ⟨h, hh, hH⟩, hts⟩
  have h1 : b'.muons.length ≠ 1 ∨ (keepMask false lw zr ⟨b', H, ts⟩).all id = true := by
    by_contra hcon
    push Not at hcon
    rw [C32.single_violated false lw zr _ hc hcon.1 (by simpa using hcon.2)] at hs'
    simp at hs'
  obtain ⟨_, s'', hs'', hcon, _, _, _, hall⟩ := C32.filter_spec_partial false lw zr ⟨b', H, ts⟩ hc h1
  rw [hs'] at hs''
  simp only [Except.ok.injEq] at hs''
  subst hs''
  have hcar : Carries b' s'.mu ∧ s'.mu.muons.Sublist b'.muons := by
    unfold filterScatters at hs'
    simp only at hs'
    split at hs'
    · simp only [Except.ok.injEq] at hs'
      subst hs'
      exact ⟨Carries.refl _, List.Sublist.refl _⟩
    · split at hs'
      · simp at hs'
      · obtain ⟨mu, hmu, hs'⟩ := bind_ok hs'
        obtain ⟨h1, hh1, hs'⟩ := bind_ok hs'
        obtain ⟨H1, hH1, hs'⟩ := bind_ok hs'
        obtain ⟨ts1, hts1, hs'⟩ := bind_ok hs'
        simp only [Except.ok.injEq] at hs'
        subst hs'
        exact carries_filterMuons hmu
  exact ⟨hcar.2, coefs_lines _ _ _ (lines_of ro hn hd hp lw zr s' hcar.1 hcar.2 hcon hall) hcs⟩

/-- the mask of the filter, in terms of what the muons did and the panels saw -/
theorem mask_watched {V : Volume} {b b' : Batch Row} {rA rB : List Reader} (ro : ReadOut quiet b b' rA rB) (cA : Covers V "above" rA) (cB : Covers V "below" rB)
    (hn : b.ids.Nodup) (hd : ∀ m ∈ b.muons, Downward m) (hp : ∀ r ∈ rA ++ rB, 0 < r.2.2.res ∧ 0 < r.2.2.eff) (lw zr : ℝ × ℝ) (h)
    (hh : b'.getHits none none = .ok h) (H : Hits) (hH : extract h = .ok H) (ts) (hts : computeTracks false lw H = .ok ts) :
    List.Forall₂ (fun (m' : Muon) (k : Bool) => ∃ m0 ∈ b.muons, m0.id = m'.id ∧ (k = true ↔ Bends lw zr m0 m' ∧ Watched V m0 m')) b'.muons
      (keepMask false lw zr ⟨b', H, ts⟩) := by
  obtain ⟨lr, lt⟩ := C32.lengths (gen := false) (lw := lw) (s := ⟨b', H, ts⟩) ⟨ro.dl.ok, ro.dl.recorded, ⟨h, hh, hH⟩, hts⟩
  simp only at lr lt
  rw [List.forall₂_iff_get]
  have hml : (keepMask false lw zr ⟨b', H, ts⟩).length = b'.muons.length := by simp [keepMask, lr, lt]
  refine ⟨hml.symm, ?_⟩
  intro i hi hi'
  have hti : i < ts.length := by omega
  have hri : i < H.rows.length := by omega
  obtain ⟨m0, hm0, e0, hU, -⟩ := ro.exact hn hd hp (Carries.refl _) (List.Sublist.refl _) lw zr h hh _ hH _ hts i hi _ (List.getElem?_eq_getElem hti) _
    (List.getElem?_eq_getElem hri)
  refine ⟨m0, hm0, e0, ?_⟩
  rw [watched_iff cA cB] at hU
  simp only [List.get_eq_getElem]
  rw [← hU]
  have := C32.mask_iff false lw zr ⟨b', H, ts⟩ i ts[i] H.rows[i] (List.getElem?_eq_getElem hti) (List.getElem?_eq_getElem hri)
  rw [List.getElem?_eq_getElem hi'] at this
  simpa using this

/-- **C101, who is kept.** The muons of the `ScatterBatch` are exactly those a `GenScatterBatch` keeps that were seen by every panel. -/
theorem kept (argsort : List ℝ → List Nat) (ha : IsArgsort argsort) (rng : Nat → Nat → Nat → Draw) (fuel : Nat)
    (V V' : Volume) (ht : Telescope V.layers) (hsnd : ∀ D, .detector D ∈ V.layers → Sound D) (b b' : Batch Row) (h0 : b.hits = []) (hn : b.ids.Nodup)
    (hd : ∀ m ∈ b.muons, Downward m) (hf : V.forward argsort rng quiet fuel b = .ok (V', some b')) (s : SB) (cs : List (Track × Track × (ℝ × ℝ × ℝ)))
    (hb : build false V' b' = .ok (s, cs)) :
    ∃ lw zr keep, V.lw = .ok lw ∧ V.zRange = .ok zr ∧ s.mu.muons = pick keep b'.muons ∧
      List.Forall₂ (fun (m' : Muon) (k : Bool) => ∃ m0 ∈ b.muons, m0.id = m'.id ∧ (k = true ↔ Bends lw zr m0 m' ∧ Watched V' m0 m')) b'.muons keep := by
  obtain ⟨rA, rB, ro, cA, cB, hp⟩ := readout argsort ha rng quiet fuel V V' ht hsnd b b' h0 hn hd hf
  have hpas := passives_budget argsort V V' (C14.forward_spec argsort ha rng quiet fuel V V' b b' hf).1
  unfold build at hb
  obtain ⟨h, hh, hb⟩ := bind_ok hb
  obtain ⟨H, hH, hb⟩ := bind_ok hb
  obtain ⟨lw, hlw, hb⟩ := bind_ok hb
  obtain ⟨zr, hzr, hb⟩ := bind_ok hb
  obtain ⟨ts, hts, hb⟩ := bind_ok hb
  obtain ⟨s', hs', hb⟩ := bind_ok hb
  obtain ⟨cs', hcs, hb⟩ := bind_ok hb
  simp only [Except.ok.injEq, Prod.mk.injEq] at hb
  obtain ⟨rfl, rfl⟩ := hb
  have hc : C32.Consistent false lw ⟨b', H, ts⟩ := ⟨ro.dl.ok, ro.dl.recorded, ⟨h, hh, hH⟩, hts⟩
  have h1 : b'.muons.length ≠ 1 ∨ (keepMask false lw zr ⟨b', H, ts⟩).all id = true := by
    by_contra hcon
    push Not at hcon
    rw [C32.single_violated false lw zr _ hc hcon.1 (by simpa using hcon.2)] at hs'
    simp at hs'
  obtain ⟨_, s'', hs'', _, hpick, _⟩ := C32.filter_spec_partial false lw zr ⟨b', H, ts⟩ hc h1
  rw [hs'] at hs''
  simp only [Except.ok.injEq] at hs''
  subst hs''
  refine ⟨lw, zr, _, ?_, ?_, hpick, mask_watched ro cA cB hn hd hp lw zr h hh H hH ts hts⟩
  · unfold Volume.lw at hlw ⊢; rwa [← hpas]
  · unfold Volume.zRange at hzr ⊢; rwa [← hpas]

/-- A single muon that bent and was seen by every panel is built. -/
theorem single_built (argsort : List ℝ → List Nat) (ha : IsArgsort argsort) (rng : Nat → Nat → Nat → Draw) (fuel : Nat)
    (V V' : Volume) (ht : Telescope V.layers) (hsnd : ∀ D, .detector D ∈ V.layers → Sound D) (lw zr : ℝ × ℝ) (hlw : V.lw = .ok lw) (hzr : V.zRange = .ok zr)
    (b b' : Batch Row) (h0 : b.hits = []) (hn : b.ids.Nodup) (hd : ∀ m ∈ b.muons, Downward m) (hf : V.forward argsort rng quiet fuel b = .ok (V', some b'))
    (m m' : Muon) (h1 : b'.muons = [m']) (hm : m ∈ b.muons) (hid : m.id = m'.id) (hu : Bends lw zr m m') (hw : Watched V' m m') :
    ∃ s c, build false V' b' = .ok (s, [c]) ∧ s.mu.muons = [m'] := by
  obtain ⟨rA, rB, ro, cA, cB, hp⟩ := readout argsort ha rng quiet fuel V V' ht hsnd b b' h0 hn hd hf
  have hpas := passives_budget argsort V V' (C14.forward_spec argsort ha rng quiet fuel V V' b b' hf).1
  have hlw' : V'.lw = .ok lw := by unfold Volume.lw at hlw ⊢; rwa [hpas]
  have hzr' : V'.zRange = .ok zr := by unfold Volume.zRange at hzr ⊢; rwa [hpas]
  obtain ⟨g, H, ts, e1, e2, e3, hc⟩ := ro.dl.consistent false lw
  have hmask := mask_watched ro cA cB hn hd hp lw zr g e1 H e2 ts e3
  have hall : keepMask false lw zr ⟨b', H, ts⟩ = [true] := by
    rw [h1] at hmask
    generalize keepMask false lw zr ⟨b', H, ts⟩ = keep at hmask ⊢
    cases hmask with
    | @cons _ k _ ks hk hr =>
      cases hr
      obtain ⟨m0, hm0, e0, hk⟩ := hk
      have : m0 = m := List.inj_on_of_nodup_map hn hm0 hm (e0.trans hid.symm)
      subst this
      rw [hk.mpr ⟨hu, hw⟩]
  obtain ⟨_, s, hs, _, hpk, _⟩ := C32.filter_spec_partial false lw zr ⟨b', H, ts⟩ hc (Or.inr (by simp [hall]))
  rw [hall] at hpk
  simp only [h1, pick] at hpk
  obtain ⟨cs, hcs, hl⟩ := C27.batch_never_singular false lw zr _ s hc hs
  rw [hpk] at hl
  obtain ⟨c, rfl⟩ := List.length_eq_one_iff.mp hl
  exact ⟨s, c, by simp only [build, bind, Except.bind, e1, e2, hlw', hzr', e3, hs, hcs], hpk⟩

/-- **C101, what is reconstructed.** Without noise, angles, scattering angle and scattering location of every muon of the `ScatterBatch` are the true ones. -/
theorem reconstructed (argsort : List ℝ → List Nat) (ha : IsArgsort argsort) (rng : Nat → Nat → Nat → Draw) (fuel : Nat)
    (V V' : Volume) (ht : Telescope V.layers) (hsnd : ∀ D, .detector D ∈ V.layers → Sound D) (b b' : Batch Row) (h0 : b.hits = []) (hn : b.ids.Nodup)
    (hd : ∀ m ∈ b.muons, Downward m) (hf : V.forward argsort rng quiet fuel b = .ok (V', some b')) (s : SB) (cs : List (Track × Track × (ℝ × ℝ × ℝ)))
    (hb : build false V' b' = .ok (s, cs)) :
    List.Forall₂ (fun (m' : Muon) c => ∃ m0 ∈ b.muons, m0.id = m'.id ∧
      (thetaOf c.1.1 = some m0.th ∧ (m0.th ≠ 0 → phiOf c.1.1.1 c.1.1.2.1 = m0.ph)) ∧
      (thetaOf c.2.1.1 = some m'.th ∧ (m'.th ≠ 0 → phiOf c.2.1.1.1 c.2.1.1.2.1 = m'.ph)) ∧
      (∃ a, thetaMsc c.1.1 c.2.1.1 = some a ∧ 0 < a ∧ a ≤ π ∧ cos a = dot3 (dir m0.th m0.ph) (dir m'.th m'.ph)) ∧
      ∃ u w, poca c.1 c.2.1 c.2.2 = mid3 (m0.at u) (m'.at w) ∧ (∀ u' w', dist2 (m0.at u) (m'.at w) ≤ dist2 (m0.at u') (m'.at w')) ∧
        ∀ x y, m0.at x = m'.at y → poca c.1 c.2.1 c.2.2 = m0.at x) s.mu.muons cs := by
  obtain ⟨hsub, hl⟩ := reco_tracks argsort ha rng fuel V V' ht hsnd b b' h0 hn hd hf s cs hb
  exact C99.of_lines b hd _ _ (fun m' h => C99.stays_down argsort ha rng quiet fuel V V' b b' hf hd m' (hsub.subset h)) hl

/-! ### The muon scattered by 45 degrees, seen by realistic panels -/

/-- two panels four metres wide, in evaluation mode -/
def wide (pos : String) (z : ℝ) : DetLayer := ⟨pos, (1, 1), z, 1, [.panel ⟨.gauss, 1000, 0.9, 1, (0.5, 0.5), z - 0.8, (4, 4), 1, true, false⟩,
  .panel ⟨.gauss, 100, 0.5, 1, (0.5, 0.5), z - 0.2, (4, 4), 1, true, false⟩]⟩

def scope : Volume := ⟨[.detector (wide "above" 3), .passive C99.slab, .detector (wide "below" 1)], none, [], []⟩

theorem scope_telescope : Telescope scope.layers := by
  refine ⟨[wide "above" 3], [C99.slab], [wide "below" 1], rfl, by simp [wide], by simp [wide], ⟨?_, by simp⟩, ⟨?_, by simp⟩, ?_, ?_⟩
  · simp [wide, DetLayer.heights, AnyPanel.z]; norm_num
  · simp [wide, DetLayer.heights, AnyPanel.z]; norm_num
  · simp [wide, DetLayer.heights]
  · simp [wide, DetLayer.heights]

theorem scope_sound : ∀ D, .detector D ∈ scope.layers → Sound D := by
  intro D hD
  simp only [scope, List.mem_cons, AnyLayer.detector.injEq, reduceCtorEq, List.not_mem_nil, or_false, false_or] at hD
  rcases hD with rfl | rfl <;> intro p hp <;> simp only [wide, List.mem_cons, List.not_mem_nil, or_false] at hp <;> rcases hp with rfl | rfl <;>
    exact ⟨_, rfl, by norm_num, by norm_num⟩

/-- The noise-free panels find the turn by 45 degrees and where it happened. -/
example : ∃ argsort V' b' s c, IsArgsort argsort ∧
    scope.forward argsort (fun _ _ _ => C99.turn) quiet 1 ⟨[⟨0, 0.5, 0.5, 3, 0.0136, 0, 0⟩], [], [], []⟩ = .ok (V', some b') ∧
    build false V' b' = .ok (s, [c]) ∧ thetaMsc c.1.1 c.2.1.1 = some (π / 4) ∧ poca c.1 c.2.1 c.2.2 = (0.5, 0.5, 1) := by
  obtain ⟨argsort, ha⟩ := C13.argsort_exists
  have hd : ∀ m ∈ [(⟨0, 0.5, 0.5, 3, 0.0136, 0, 0⟩ : Muon)], Downward m := by
    have := pi_pos
    simp [Downward, this]
  obtain ⟨b1, _, h1, _, _, _, hm1, _⟩ := C13.layer_spec argsort ha (quiet 0) (wide "above" 3) ⟨[⟨0, 0.5, 0.5, 3, 0.0136, 0, 0⟩], [], [], []⟩
    (by simp [wide, AnyPanel.CanRespond, Panel.scaledSpan])
  obtain ⟨b2, h2, hm2⟩ := C99.slab_turn b1.snapshot (by simp [Batch.snapshot, hm1, atHeight, wide, crossing]; norm_num)
  obtain ⟨b3, _, h3, _, _, _, hm3, _⟩ := C13.layer_spec argsort ha (quiet 2) (wide "below" 1) b2.snapshot
    (by simp [wide, AnyPanel.CanRespond, Panel.scaledSpan])
  have hf : scope.forward argsort (fun _ _ _ => C99.turn) quiet 1 ⟨[⟨0, 0.5, 0.5, 3, 0.0136, 0, 0⟩], [], [], []⟩ = .ok (scope, some b3.snapshot) := by
    simp only [scope, Volume.forward, Volume.assignBudget, Volume.runLayers, Volume.layerForward, h1, h2, h3]
  have hm3' : b3.snapshot.muons = [⟨0, -0.5, 0.5, 0, 0.0136, π / 4, π⟩] := by
    simp [Batch.snapshot, hm3, hm2, atHeight, wide, crossing]; norm_num
  have hdir0 : dir 0 0 = (0, 0, -1) := by simp [dir]
  have hdir1 : dir (π / 4) π = (-(sqrt 2 / 2), 0, -(sqrt 2 / 2)) := by simp [dir]
  have hlw : scope.lw = .ok (1, 1) := rfl
  have hzr : scope.zRange = .ok (1, 2) := by
    have : scope.zRange = .ok (2 - 1, 2) := rfl
    rw [this]; norm_num
  have hw : Watched scope ⟨0, 0.5, 0.5, 3, 0.0136, 0, 0⟩ ⟨0, -0.5, 0.5, 0, 0.0136, π / 4, π⟩ := by
    intro D hD p hp
    simp only [scope, List.mem_cons, AnyLayer.detector.injEq, reduceCtorEq, List.not_mem_nil, or_false, false_or] at hD
    rcases hD with rfl | rfl <;> simp only [wide, List.mem_cons, List.not_mem_nil, or_false, AnyPanel.panel.injEq] at hp <;> rcases hp with rfl | rfl <;>
      constructor <;> intro he <;> simp [wide] at he <;>
      simp [Panel.Sees, Panel.low, Panel.high, Panel.scaledSpan, crossing] <;> norm_num
  obtain ⟨s, c, hb, hsm⟩ := single_built argsort ha _ 1 scope scope scope_telescope scope_sound (1, 1) (1, 2) hlw hzr _ _ rfl (by simp [Batch.ids]) hd hf
    ⟨0, 0.5, 0.5, 3, 0.0136, 0, 0⟩ ⟨0, -0.5, 0.5, 0, 0.0136, π / 4, π⟩ hm3' (by simp) rfl (by
      have := pi_gt_three
      refine ⟨by simp only; norm_num; linarith, by simp only; norm_num; linarith, by simp only [hdir0, hdir1]; simp, ?_, ?_, ?_, ?_⟩ <;> simp [crossing] <;> norm_num) hw
  refine ⟨argsort, _, _, s, c, ha, hf, hb, ?_⟩
  have hr := reconstructed argsort ha _ 1 scope scope scope_telescope scope_sound _ _ rfl (by simp [Batch.ids]) hd hf s [c] hb
  rw [hsm] at hr
  cases hr with
  | cons h _ =>
    obtain ⟨m0, hm0, -, -, -, ⟨a, ha1, ha2, ha3, ha4⟩, u, w, -, -, hp⟩ := h
    simp only [List.mem_singleton] at hm0
    subst hm0
    simp only [hdir0, hdir1, dot3] at ha4
    constructor
    · rw [ha1]
      congr 1
      have hpi := pi_pos
      apply injOn_cos ⟨ha2.le, ha3⟩ ⟨by linarith, by linarith⟩
      rw [ha4, cos_pi_div_four]; ring
    · have h2 : sqrt 2 ≠ 0 := by positivity
      rw [hp 2 (-(2 / sqrt 2))]
      · simp only [MuonOf.at, hdir0]; norm_num
      · simp only [MuonOf.at, hdir0, hdir1, Prod.mk.injEq]
        refine ⟨?_, ?_, ?_⟩ <;> field_simp <;> norm_num

end C101

end

end Tomopt
