import Verif.Lemmas.Subbatch
import Verif.Props.C104

/- C105: what happens to a muon, and what is recorded and reconstructed of it, does not depend on the other muons of the batch. -/
namespace Tomopt

noncomputable section
open Real Scatter

namespace C105

variable {q : Nat → Bool}

/-- **C105, the passage.** A batch passes a volume. Send only some of its muons, with the same random numbers for each: the passage succeeds too and assigns the same
budget; the muons that come out, and those removed on the way, are the selected ones of those of the whole batch, at the same places in the same directions; and every
recording holds the same row for each of them, under every name. -/
theorem alone (argsort : List ℝ → List Nat) (ha : IsArgsort argsort) (rng : Nat → Nat → Nat → Draw) (noise : Nat → Nat → Nat → ℝ × ℝ) (fuel : Nat)
    (V V' : Volume) (b b' c : Batch Row) (hs : Sub q b c) (hb0 : b.hits = []) (hc0 : c.hits = []) (hn : b.ids.Nodup)
    (hf : V.forward argsort rng noise fuel b = .ok (V', some b')) :
    ∃ c', V.forward argsort rng noise fuel c = .ok (V', some c') ∧ Sub q b' c' ∧ ∀ pos var, SameRows b' c' pos var := by
  obtain ⟨h1, h2⟩ := C104.forward_parts hf
  obtain ⟨c', e, s, -⟩ := sub_run argsort ha rng noise noise fuel _ _ 0 b b' c (outside_refl _) (.inl (run_responds argsort ha rng noise fuel _ 0 b b' h2)) hs h2
  refine ⟨c', by simp only [Volume.forward, h1, e], s, fun pos var => ?_⟩
  exact (shared_run argsort ha rng noise fuel pos var _ 0 b b' c c' hs hn
    ⟨[], by simp [C01.Inv, Batch.tensors, hb0, Dict.get?], by simp [C01.Inv, Batch.tensors, hc0, Dict.get?]⟩ h2 e).rows

theorem build_recorded {gen : Bool} {V : Volume} {b : Batch Row} {r : SB × List (Track × Track × (ℝ × ℝ × ℝ))} (h : build gen V b = .ok r) : b.hits ≠ [] := by
  intro h0
  unfold build at h
  simp [Batch.getHits, h0, bind, Except.bind] at h

/-- **C105, the reconstruction.** If a scatter batch of either kind can be made from the whole batch, then in that of the selected muons, if it can be made, the rows are those
of the selected muons: the same muons kept, the same tracks, the same coefficients of the closest approach. It can be made unless there is only one muon in
it, and that one is not kept in the whole batch: then the constructor raises (see C32). -/
theorem alone_scatters_partial (gen : Bool) (argsort : List ℝ → List Nat) (ha : IsArgsort argsort) (rng : Nat → Nat → Nat → Draw) (noise : Nat → Nat → Nat → ℝ × ℝ)
    (fuel : Nat) (V V' : Volume) (b b' c c' : Batch Row) (hs : Sub q b c) (hb0 : b.hits = []) (hc0 : c.hits = []) (hn : b.ids.Nodup)
    (hf : V.forward argsort rng noise fuel b = .ok (V', some b')) (hf' : V.forward argsort rng noise fuel c = .ok (V', some c'))
    (s : SB) (cs : List (Track × Track × (ℝ × ℝ × ℝ))) (hb : build gen V' b' = .ok (s, cs)) :
    ((∃ s' cs', build gen V' c' = .ok (s', cs')) ↔ c'.muons.length ≠ 1 ∨ ∀ m ∈ c'.muons, m ∈ s.mu.muons) ∧
    ∀ s' cs', build gen V' c' = .ok (s', cs') → s'.mu.muons.zip cs' = (s.mu.muons.zip cs).filter fun mc => q mc.1.id := by
  obtain ⟨c'', e, hs', hr⟩ := alone argsort ha rng noise fuel V V' b b' c hs hb0 hc0 hn hf
  rw [hf'] at e
  simp only [Except.ok.injEq, Prod.mk.injEq, Option.some.injEq, true_and] at e
  subst e
  obtain ⟨h1, h2⟩ := C104.forward_parts hf
  obtain ⟨_, g2⟩ := C104.forward_parts hf'
  have hcn : c.ids.Nodup := by
    unfold Batch.ids at hn ⊢
    rw [hs.muons]
    exact hn.sublist (List.filter_sublist.map _)
  obtain ⟨ok1, hn'⟩ := hitsOk_run argsort ha rng noise fuel _ 0 b b' (by simp [hb0, HitsOk]) hn h2
  obtain ⟨ok2, _⟩ := hitsOk_run argsort ha rng noise fuel _ 0 c c' (by simp [hc0, HitsOk]) hcn g2
  exact build_sub hs' ok1 (build_recorded hb) ok2 hn' hr hb

/-- Non-vacuity: two muons pass the telescope of C99 and are turned; all that is assumed of the whole batch holds, and it applies to the first of them alone. -/
example : ∃ argsort b' c' s cs, IsArgsort argsort ∧
    C99.scope.forward argsort (fun _ _ _ => C99.turn) (fun _ _ _ => (0, 0)) 1 ⟨[⟨0, 0.5, 0.5, 3, 0.0136, 0, 0⟩, ⟨1, 0.5, 0.5, 3, 0.0136, 0, 0⟩], [], [], []⟩ =
      .ok (C99.scope, some b') ∧ b'.muons.length = 2 ∧ build true C99.scope b' = .ok (s, cs) ∧
    C99.scope.forward argsort (fun _ _ _ => C99.turn) (fun _ _ _ => (0, 0)) 1 ⟨[⟨0, 0.5, 0.5, 3, 0.0136, 0, 0⟩], [], [], []⟩ = .ok (C99.scope, some c') ∧
    Sub (· == 0) b' c' ∧ c'.muons = [⟨0, -0.5, 0.5, 0, 0.0136, π / 4, π⟩] := by
  obtain ⟨argsort, ha⟩ := C13.argsort_exists
  have hd : ∀ m ∈ [(⟨0, 0.5, 0.5, 3, 0.0136, 0, 0⟩ : Muon), ⟨1, 0.5, 0.5, 3, 0.0136, 0, 0⟩], Downward m := by
    have := pi_pos
    simp [Downward, this]
  obtain ⟨b1, _, h1, _, _, _, hm1, _⟩ := C13.layer_spec argsort ha (fun _ _ => (0, 0)) (C99.pair "above" 3)
    ⟨[⟨0, 0.5, 0.5, 3, 0.0136, 0, 0⟩, ⟨1, 0.5, 0.5, 3, 0.0136, 0, 0⟩], [], [], []⟩ (by simp [C99.pair, AnyPanel.CanRespond, Panel.scaledSpan])
  obtain ⟨b2, h2, hm2⟩ := C99.slab_turns 0 [1] b1.snapshot (by simp [Batch.snapshot, hm1, atHeight, C99.pair, crossing]; norm_num)
  obtain ⟨b3, _, h3, _, _, _, hm3, _⟩ := C13.layer_spec argsort ha (fun _ _ => (0, 0)) (C99.pair "below" 1) b2.snapshot
    (by simp [C99.pair, AnyPanel.CanRespond, Panel.scaledSpan])
  have hf : C99.scope.forward argsort (fun _ _ _ => C99.turn) (fun _ _ _ => (0, 0)) 1 ⟨[⟨0, 0.5, 0.5, 3, 0.0136, 0, 0⟩, ⟨1, 0.5, 0.5, 3, 0.0136, 0, 0⟩], [], [], []⟩ =
      .ok (C99.scope, some b3.snapshot) := by
    simp only [C99.scope, Volume.forward, Volume.assignBudget, Volume.runLayers, Volume.layerForward, h1, h2, h3]
  have hm3' : b3.snapshot.muons = [⟨0, -0.5, 0.5, 0, 0.0136, π / 4, π⟩, ⟨1, -0.5, 0.5, 0, 0.0136, π / 4, π⟩] := by
    simp [Batch.snapshot, hm3, hm2, atHeight, C99.pair, crossing]; norm_num
  obtain ⟨s, cs, hb, -⟩ := C99.built_partial argsort ha _ _ 1 C99.scope C99.scope C99.scope_telescope (by simp [C99.scope, Volume.passives]) _ _ rfl
    (by simp [Batch.ids]) hd hf true (by rw [hm3']; simp)
  obtain ⟨c', hc, hs, -⟩ := alone (q := (· == 0)) argsort ha _ _ 1 _ _ _ _ ⟨[⟨0, 0.5, 0.5, 3, 0.0136, 0, 0⟩], [], [], []⟩ ⟨by simp, by simp⟩ rfl rfl (by simp [Batch.ids]) hf
  exact ⟨argsort, _, c', s, cs, ha, hf, by rw [hm3']; rfl, hb, hc, hs, by rw [hs.muons, hm3']; simp⟩

end C105

end

end Tomopt
