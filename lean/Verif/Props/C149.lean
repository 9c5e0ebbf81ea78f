import Verif.Lemmas.Exchange
import Verif.Props.C99

/- C149: the flight of muons through a volume has no preferred horizontal axis.  Property theorems; what exchanging the axes means is in Spec/Exchange.lean, the lemmas are in Lemmas/Exchange.lean. -/
namespace Tomopt

noncomputable section
open Real

namespace C149

open Exchange

/-- **C149: passage.** Muons pass a stack of layers. Exchange the horizontal axes of the voxels of every passive layer and of every muon that enters; detectors may be any others at the same heights. Then there are random numbers,
each the given one up to signs of two of its numbers or exchanged axes and so just as probable, for which the exchanged muons pass the exchanged stack: the same muons come out as before, in the same order,
each at the exchanged place with the exchanged direction, and so is every position recorded after a layer. Assumed is that no deflection reaches the limit set on them. -/
theorem passage (argsort : List ℝ → List Nat) (ha : IsArgsort argsort) (rng : Nat → Nat → Nat → Draw) (noise noise' : Nat → Nat → Nat → ℝ × ℝ) (fuel : Nat) (V V₁ W W₁ : Volume) (hV : V.assignBudget argsort = .ok V₁)
    (hW : W.assignBudget argsort = .ok W₁) (hx : List.Forall₂ ExA V₁.layers W₁.layers) (b b' c : Batch Row) (hn : b.ids.Nodup) (hbc : List.Forall₂ Sw b.muons c.muons) (hb0 : b.hist = []) (hc0 : c.hist = [])
    (hfree : ∀ L, .passive L ∈ V₁.layers → ∀ i k j, Free L (b.muons.map (·.p)) (rng i k j)) (hf : V.forward argsort rng noise fuel b = .ok (V₁, some b')) :
    ∃ rng', (∀ i k j, Mirrored (rng i k j) (rng' i k j)) ∧ ∃ c', W.forward argsort rng' noise' fuel c = .ok (W₁, some c') ∧ List.Forall₂ Sw b'.muons c'.muons ∧
      List.Forall₂ (List.Forall₂ SwXyz) b'.hist c'.hist := by
  have h2 : Volume.runLayers argsort rng noise fuel 0 V₁.layers b = .ok (some b') := by
    unfold Volume.forward at hf
    rw [hV] at hf
    simp only at hf
    cases h : Volume.runLayers argsort rng noise fuel 0 V₁.layers b with
    | error e => rw [h] at hf; simp at hf
    | ok r => rw [h] at hf; simp at hf; rw [hf]
  obtain ⟨rng', h0, c', h1, h3, h4⟩ := runLayers_sw argsort ha (b.muons.map (·.p)) rng noise noise' fuel _ _ hx 0 b b' c hfree (fun m hm => List.mem_map_of_mem hm) hn hbc (by rw [hb0, hc0]; exact .nil) h2
  exact ⟨rng', h0, c', by simp only [Volume.forward, hW, h1], h3, h4⟩

/-- **C149: layers.** The same for one passive layer, for all numbers of passes. -/
theorem layer (L L' : PassiveLayer) (hL : ExL L L') (hs : 0 < L.size) (rng : Nat → Nat → Draw) (fuel : Nat) (b b' c : Batch Row) (hd : ∀ k i, Free L (b.muons.map (·.p)) (rng k i)) (hn : b.ids.Nodup) (h : List.Forall₂ Sw b.muons c.muons)
    (hf : L.forward rng fuel b = .ok (some b')) : ∃ rng', (∀ k i, Mirrored (rng k i) (rng' k i)) ∧ ∃ c', L'.forward rng' fuel c = .ok (some c') ∧ List.Forall₂ Sw b'.muons c'.muons := by
  obtain ⟨rng', h0, c', h1, h2, -⟩ := forward_sw hL hs (b.muons.map (·.p)) rng hd fuel b b' c (fun m hm => List.mem_map_of_mem hm) hn h hf
  exact ⟨rng', h0, c', h1, h2⟩

/-- **C149 is refuted by the code for large deflections.** Only positive deflections are limited, to `π/2.2`: take any inclined muon, not flying along y, and a deflection in the horizontal direction
beyond that limit, to the side on which there is none. For the exchanged muon with the mirrored random numbers the same deflection is cut off: it does not turn by the same angle. -/
theorem limit_violated (m m' : Muon) (h : Sw m m') (h0 : 0 < m.th) (h1 : m.th < π / 2) (hc : cos m.ph ≠ 0) (x0 s : ℝ) (d : Draw) (hy : d.z2y = 0) (hlo : -(π / 2) < d.z2x * pdgTheta0 x0 m.p s)
    (hhi : d.z2x * pdgTheta0 x0 m.p s < -(π / 2.2)) :
    ∃ t t', (pdgScatter x0 m.th m.ph (thetaXFromThetaPhi m.th m.ph) (thetaYFromThetaPhi m.th m.ph) m.p s d).dty = some t ∧
      (pdgScatter x0 m'.th m'.ph (thetaXFromThetaPhi m'.th m'.ph) (thetaYFromThetaPhi m'.th m'.ph) m'.p s ⟨-d.z1x, d.z1y, -d.z2x, d.z2y⟩).dtx = some t' ∧ t' ≠ t := by
  obtain ⟨e1, e2⟩ := thetaX_sw h
  have hpi := pi_pos
  have hx : thetaXFromThetaPhi m.th m.ph = some (arctan (tan m.th * cos m.ph)) := by unfold thetaXFromThetaPhi; rw [if_neg (by linarith)]
  have hyy : thetaYFromThetaPhi m.th m.ph = some (arctan (tan m.th * sin m.ph)) := by unfold thetaYFromThetaPhi; rw [if_neg (by linarith)]
  rw [e1, e2, hx, hyy, h.th, h.p]
  simp only [pdgScatter]
  generalize hT : pdgTheta0 x0 m.p s = T at *
  have ha : pdgDtheta d.z2x T = d.z2x * T := by
    unfold pdgDtheta
    exact min_eq_left (by have : 0 < π / 2.2 := by positivity
                          linarith)
  have ha' : pdgDtheta (-d.z2x) T = π / 2.2 := by
    unfold pdgDtheta
    exact min_eq_right (by linarith)
  have ha1 : pdgDtheta d.z2y T = 0 := by
    unfold pdgDtheta
    rw [hy, zero_mul]
    exact min_eq_left (by positivity)
  rw [ha, ha', ha1]
  have hth : m.th ≠ 0 := h0.ne'
  generalize hX : tan m.th * cos m.ph = X
  generalize hY : tan m.th * sin m.ph = Y
  have hr : sqrt (X ^ 2 + Y ^ 2 + 1 ^ 2) ≠ 0 := by positivity
  simp only [pdgDOut, tan_arctan, hth, ne_eq, not_false_eq_true, if_true, Real.tan_zero, mul_zero, zero_mul, sub_zero, add_zero, h.cosPh, h.sinPh, add_comm (Y ^ 2)]
  refine ⟨_, _, by simp [arctanDiv]; rfl, by simp [arctanDiv]; rfl, ?_⟩
  intro e
  have e := arctan_injective (sub_left_injective e)
  have e3 : sqrt (X ^ 2 + Y ^ 2 + 1) * cos m.ph * (tan (π / 2.2) + tan (d.z2x * T)) = 0 := by linear_combination e
  have hr' : sqrt (X ^ 2 + Y ^ 2 + 1) ≠ 0 := by simpa using hr
  have e4 : tan (π / 2.2) = tan (-(d.z2x * T)) := by
    rw [Real.tan_neg]
    have := (mul_eq_zero.mp e3).resolve_left (mul_ne_zero hr' hc)
    linarith
  have hmem : ∀ t, 0 < t → t < π / 2 → t ∈ Set.Ioo (-(π / 2)) (π / 2) := fun t ht ht' => ⟨by linarith, ht'⟩
  have hl : 0 < π / 2.2 := by positivity
  have hl' : π / 2.2 < π / 2 := by
    rw [div_lt_div_iff₀ (by norm_num) (by norm_num)]
    nlinarith
  have := Real.strictMonoOn_tan.injOn (hmem (π / 2.2) hl hl') (hmem (-(d.z2x * T)) (by linarith) (by linarith)) e4
  linarith

/-! ### The hypotheses can be met -/

/-- transposed voxels -/
example : ExL ⟨(1, 2), 1, 1, 0.1, "pdg", some [[3, 4]]⟩ ⟨(2, 1), 1, 1, 0.1, "pdg", some [[3], [4]]⟩ := by
  refine ⟨rfl, rfl, rfl, rfl, rfl, by simp, ?_⟩
  intro c hc
  simp only [Option.some.injEq] at hc
  subst hc
  refine ⟨_, rfl, ?_⟩
  intro i j r v hi hj
  match i, j with
  | 0, 0 => simp at hi; subst hi; simp at hj; subst hj; exact ⟨[3], rfl, rfl⟩
  | 0, 1 => simp at hi; subst hi; simp at hj; subst hj; exact ⟨[4], rfl, rfl⟩
  | 0, j + 2 => simp at hi; subst hi; simp at hj
  | i + 1, j => simp at hi

theorem slab_exchanged : ExL C99.slab C99.slab := by
  refine ⟨rfl, rfl, rfl, rfl, rfl, fun h => h, ?_⟩
  intro c hc
  refine ⟨c, hc, ?_⟩
  simp only [C99.slab, Option.some.injEq] at hc
  subst hc
  intro i j r v hi hj
  match i, j with
  | 0, 0 => simp at hi; subst hi; exact ⟨[1], rfl, hj⟩
  | 0, j + 1 => simp at hi; subst hi; simp at hj
  | i + 1, j => simp at hi

theorem slab_free : Free C99.slab [0.0136] C99.turn := by
  intro c hc r hr x0 hx p hp s hs
  simp only [C99.slab, Option.some.injEq] at hc
  subst hc
  simp only [List.mem_singleton] at hr
  subst hr
  simp only [List.mem_singleton] at hx hp
  subst hx hp
  have hpi := pi_pos
  have hT : |pdgTheta0 1 0.0136 s| ≤ 1 := by
    unfold pdgTheta0 scatterCoefA scatterCoefB
    rw [div_self (by norm_num), one_mul, div_one]
    rcases le_or_gt s 0 with h | h
    · rw [Real.sqrt_eq_zero_of_nonpos h]; simp
    · have h1 : sqrt s ≤ 1 := by rw [← Real.sqrt_one]; exact Real.sqrt_le_sqrt hs
      have h2 : 0 < sqrt s := Real.sqrt_pos.mpr h
      have h3 : log s ≤ 0 := Real.log_nonpos h.le hs
      have h4 : log s = 2 * log (sqrt s) := by rw [Real.log_sqrt h.le]; ring
      have h5 := Real.one_sub_inv_le_log_of_pos h2
      have h6 : sqrt s * (1 - (sqrt s)⁻¹) ≤ sqrt s * log (sqrt s) := mul_le_mul_of_nonneg_left h5 h2.le
      have h7 : sqrt s * (1 - (sqrt s)⁻¹) = sqrt s - 1 := by field_simp
      rw [abs_le]
      constructor
      · rw [h4]; nlinarith
      · nlinarith
  rw [abs_mul]
  have ht : |C99.turn.z2x| = π / 4 := by simp only [C99.turn]; exact abs_of_pos (by positivity)
  rw [ht]
  have : π / 4 ≤ π / 2.2 := by apply div_le_div_of_nonneg_left hpi.le <;> norm_num
  nlinarith [abs_nonneg (pdgTheta0 1 0.0136 s)]

/-- a soft muon in one radiation length, deflected by 0.47 half turns -/
example : pdgTheta0 1 0.0136 1 = 1 ∧ -(π / 2) < (-(0.47 * π)) * pdgTheta0 1 0.0136 1 ∧ (-(0.47 * π)) * pdgTheta0 1 0.0136 1 < -(π / 2.2) ∧ Sw ⟨0, 0, 0, 0, 0.0136, π / 4, 0⟩ ⟨0, 0, 0, 0, 0.0136, π / 4, π / 2⟩ := by
  have hT : pdgTheta0 1 0.0136 1 = 1 := by unfold pdgTheta0 scatterCoefA scatterCoefB; norm_num
  have hpi := pi_pos
  rw [hT]
  refine ⟨rfl, by linarith, ?_, ⟨rfl, rfl, rfl, rfl, rfl, rfl, by simp, by simp⟩⟩
  have : π / 2.2 = π * (5 / 11) := by ring
  rw [this]
  linarith

/-- a vertical muon turned by 45 degrees in a slab, and the same muon with axes exchanged -/
example : ∃ b' : Batch Row, b'.muons.length = 1 ∧ (∃ rng', ∃ c', C99.slab.forward rng' 1 (⟨[⟨0, 0.5, 0.5, 2, 0.0136, 0, π / 2⟩], [], [], []⟩ : Batch Row) = .ok (some c') ∧ List.Forall₂ Sw b'.muons c'.muons) := by
  obtain ⟨b', h1, h2⟩ := C99.slab_turns 0 [] (⟨[⟨0, 0.5, 0.5, 2, 0.0136, 0, 0⟩], [], [], []⟩ : Batch Row) rfl
  obtain ⟨rng', -, c', h3, h4⟩ := layer C99.slab C99.slab slab_exchanged (by norm_num [C99.slab]) _ 1 _ b' ⟨[⟨0, 0.5, 0.5, 2, 0.0136, 0, π / 2⟩], [], [], []⟩ (fun _ _ => by simpa using slab_free) (by simp [Batch.ids])
    (.cons ⟨rfl, rfl, rfl, rfl, rfl, rfl, by simp, by simp⟩ .nil) h1
  exact ⟨b', by rw [h2]; rfl, rng', c', h3, h4⟩

end C149

end

end Tomopt
