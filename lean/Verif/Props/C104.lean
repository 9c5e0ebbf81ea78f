import Verif.Lemmas.Subbatch
import Verif.Props.C99

/- C104: detectors observe the muons without disturbing them. -/
namespace Tomopt

noncomputable section
open Real

namespace C104

/-- the passage of a batch, in its two parts -/
theorem forward_parts {argsort : List ℝ → List Nat} {rng : Nat → Nat → Nat → Draw} {noise : Nat → Nat → Nat → ℝ × ℝ} {fuel : Nat} {V V' : Volume} {b : Batch Row}
    {r : Option (Batch Row)} (h : V.forward argsort rng noise fuel b = .ok (V', r)) :
    V.assignBudget argsort = .ok V' ∧ Volume.runLayers argsort rng noise fuel 0 V'.layers b = .ok r := by
  unfold Volume.forward at h
  cases hv : V.assignBudget argsort with
  | error e => rw [hv] at h; simp at h
  | ok W =>
    rw [hv] at h
    simp only at h
    cases hr : Volume.runLayers argsort rng noise fuel 0 W.layers b with
    | error e => rw [hr] at h; simp at h
    | ok r' =>
      rw [hr] at h
      simp only [Except.ok.injEq, Prod.mk.injEq] at h
      obtain ⟨rfl, rfl⟩ := h
      exact ⟨rfl, hr⟩

/-- **C104.** Two volumes with the same passive layers between detector layers of the same extent, but with any panels: other numbers, kinds, positions, sizes,
responses, modes, other budgets, other noise. The same muons pass through both, with the same random numbers for the scattering. If the second passage does
not raise, then in both the same muons come out at the same places in the same directions, the same were removed on the way, and the positions after every
layer are the same. -/
theorem undisturbed (argsort : List ℝ → List Nat) (ha : IsArgsort argsort) (rng : Nat → Nat → Nat → Draw) (noise noise' : Nat → Nat → Nat → ℝ × ℝ) (fuel : Nat)
    (V V' W W' : Volume) (hl : List.Forall₂ SameOutside V.layers W.layers) (b c b' : Batch Row) (r : Option (Batch Row))
    (hm : c.muons = b.muons) (hrm : c.removed = b.removed) (hh : c.hist = b.hist)
    (hV : V.forward argsort rng noise fuel b = .ok (V', some b')) (hW : W.forward argsort rng noise' fuel c = .ok (W', r)) :
    ∃ c', r = some c' ∧ c'.muons = b'.muons ∧ c'.removed = b'.removed ∧ c'.hist = b'.hist := by
  obtain ⟨hV1, hV2⟩ := forward_parts hV
  obtain ⟨hW1, hW2⟩ := forward_parts hW
  have hout := outside_trans (outside_trans (outside_symm (assign_outside argsort V V' hV1)) hl) (assign_outside argsort W W' hW1)
  have hs : Sub (fun _ => true) b c := ⟨by simp [hm], by simp [hrm]⟩
  obtain ⟨c', e, s, h⟩ := sub_run argsort ha rng noise noise' fuel _ _ 0 b b' c hout (.inr ⟨r, hW2⟩) hs hV2
  rw [hW2] at e
  simp only [Except.ok.injEq] at e
  exact ⟨c', e, by simp [s.muons], by simp [s.removed], (h (fun _ => rfl) hh.symm).symm⟩

/-- The second passage only raises if the budget cannot be assigned or a panel cannot respond. -/
theorem runs (argsort : List ℝ → List Nat) (ha : IsArgsort argsort) (rng : Nat → Nat → Nat → Draw) (noise noise' : Nat → Nat → Nat → ℝ × ℝ) (fuel : Nat)
    (V V' W W' : Volume) (hl : List.Forall₂ SameOutside V.layers W.layers) (b c b' : Batch Row) (hm : c.muons = b.muons) (hrm : c.removed = b.removed)
    (hV : V.forward argsort rng noise fuel b = .ok (V', some b')) (hW : W.assignBudget argsort = .ok W')
    (hp : ∀ D, .detector D ∈ W'.layers → ∀ p ∈ D.panels, p.CanRespond) : ∃ c', W.forward argsort rng noise' fuel c = .ok (W', some c') := by
  obtain ⟨hV1, hV2⟩ := forward_parts hV
  have hout := outside_trans (outside_trans (outside_symm (assign_outside argsort V V' hV1)) hl) (assign_outside argsort W W' hW)
  have hs : Sub (fun _ => true) b c := ⟨by simp [hm], by simp [hrm]⟩
  obtain ⟨c', e, s, h⟩ := sub_run argsort ha rng noise noise' fuel _ _ 0 b b' c hout (.inl hp) hs hV2
  exact ⟨c', by simp only [Volume.forward, hW, e]⟩

/-- In particular: measuring the same muons again with other noise changes what is recorded and nothing else. -/
theorem again (argsort : List ℝ → List Nat) (ha : IsArgsort argsort) (rng : Nat → Nat → Nat → Draw) (noise noise' : Nat → Nat → Nat → ℝ × ℝ) (fuel : Nat)
    (V V' : Volume) (b b' : Batch Row) (hV : V.forward argsort rng noise fuel b = .ok (V', some b')) :
    ∃ c', V.forward argsort rng noise' fuel b = .ok (V', some c') ∧ c'.muons = b'.muons ∧ c'.removed = b'.removed ∧ c'.hist = b'.hist := by
  obtain ⟨hV1, hV2⟩ := forward_parts hV
  obtain ⟨c', e⟩ := runs argsort ha rng noise noise' fuel V V' V V' (outside_refl _) b b b' rfl rfl hV hV1 (run_responds argsort ha rng noise fuel _ 0 b b' hV2)
  obtain ⟨c'', h1, h2⟩ := undisturbed argsort ha rng noise noise' fuel V V' V V' (outside_refl _) b b b' _ rfl rfl rfl hV e
  simp only [Option.some.injEq] at h1
  subst h1
  exact ⟨c', e, h2⟩

/-! Non-vacuity: the telescope of C99, in which a muon is turned by an eighth of a circle, and the same one with other panels and noise. -/

/-- the telescope with one large sigmoid panel in each detector layer -/
def other : Volume := ⟨[.detector { C99.pair "above" 3 with panels := [.panel ⟨.sigmoid 0.1, 10, 0.5, 7, (0.1, 0.9), 2.5, (3, 2), 1, false, false⟩] },
  .passive C99.slab, .detector { C99.pair "below" 1 with panels := [] }], none, [], []⟩

example : ∃ argsort b', IsArgsort argsort ∧ other.forward argsort (fun _ _ _ => C99.turn) (fun _ _ _ => (5, -7)) 1 ⟨[⟨0, 0.5, 0.5, 3, 0.0136, 0, 0⟩], [], [], []⟩ = .ok (other, some b') ∧
    b'.muons = [⟨0, -0.5, 0.5, 0, 0.0136, π / 4, π⟩] := by
  obtain ⟨argsort, ha⟩ := C13.argsort_exists
  obtain ⟨b1, _, h1, _, _, _, hm1, _⟩ := C13.layer_spec argsort ha (fun _ _ => (0, 0)) (C99.pair "above" 3) ⟨[⟨0, 0.5, 0.5, 3, 0.0136, 0, 0⟩], [], [], []⟩
    (by simp [C99.pair, AnyPanel.CanRespond, Panel.scaledSpan])
  obtain ⟨b2, h2, hm2⟩ := C99.slab_turn b1.snapshot (by simp [Batch.snapshot, hm1, atHeight, C99.pair, crossing]; norm_num)
  obtain ⟨b3, _, h3, _, _, _, hm3, _⟩ := C13.layer_spec argsort ha (fun _ _ => (0, 0)) (C99.pair "below" 1) b2.snapshot
    (by simp [C99.pair, AnyPanel.CanRespond, Panel.scaledSpan])
  have hf : C99.scope.forward argsort (fun _ _ _ => C99.turn) (fun _ _ _ => (0, 0)) 1 ⟨[⟨0, 0.5, 0.5, 3, 0.0136, 0, 0⟩], [], [], []⟩ = .ok (C99.scope, some b3.snapshot) := by
    simp only [C99.scope, Volume.forward, Volume.assignBudget, Volume.runLayers, Volume.layerForward, h1, h2, h3]
  have hout : List.Forall₂ SameOutside C99.scope.layers other.layers :=
    .cons ⟨rfl, rfl⟩ (.cons rfl (.cons ⟨rfl, rfl⟩ .nil))
  obtain ⟨c', hc⟩ := runs argsort ha _ _ (fun _ _ _ => (5, -7)) 1 _ _ other other hout _ _ _ rfl rfl hf rfl (by
    intro D hD p hp
    simp only [other, List.mem_cons, AnyLayer.detector.injEq, reduceCtorEq, List.not_mem_nil, or_false, false_or] at hD
    rcases hD with rfl | rfl
    · simp only [List.mem_cons, List.not_mem_nil, or_false] at hp
      subst hp
      simp [AnyPanel.CanRespond]
    · simp at hp)
  obtain ⟨c'', h4, h5, _⟩ := undisturbed argsort ha _ _ _ 1 _ _ other other hout _ _ _ _ rfl rfl rfl hf hc
  simp only [Option.some.injEq] at h4
  subst h4
  refine ⟨argsort, c', ha, hc, ?_⟩
  rw [h5]
  simp [Batch.snapshot, hm3, hm2, atHeight, C99.pair, crossing]; norm_num

end C104

end

end Tomopt
