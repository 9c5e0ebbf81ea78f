import Verif.Lemmas.Rescale
import Verif.Props.C99

/- C158: there is no preferred unit of length.  Property theorems; what a change of unit is is in Spec/Rescale.lean, the lemmas are in Lemmas/Rescale.lean. -/
namespace Tomopt

noncomputable section
open Real

namespace C158

open Rescale

/-- **C158: flights.** Give every length of a volume (places, sizes, steps, radiation lengths, inverse resolutions, costs per area) and of a batch of muons (with whatever was recorded of it) in another unit. With the same random numbers the
same happens: the same budgets are assigned, the same muons are lost in the same order, every muon has the same directions, panels record the same efficiencies, and all places and uncertainties are the same lengths in the new unit; if one
raises an error or does not end, so does the other. Panels are in evaluation with realistic validation, or heat maps, and those at equal heights are to be ordered alike. -/
theorem flight {k : ℝ} (hk : 0 < k) (argsort : List ℝ → List Nat) (ha : ∀ zs : List ℝ, argsort (zs.map (k * ·)) = argsort zs) (rng : Nat → Nat → Nat → Draw) (noise : Nat → Nat → Nat → ℝ × ℝ) (fuel : Nat) (V : Volume)
    (hp : ∀ l ∈ V.layers, PlainLayer l) (b : Batch Row) :
    (volume k V).forward argsort rng noise fuel (batch k b) = (V.forward argsort rng noise fuel b).map fun r => (volume k r.1, r.2.map (batch k)) := by
  unfold Volume.forward
  rw [budget_sc hk argsort ha]
  cases h : V.assignBudget argsort with
  | error e => rfl
  | ok V' =>
    simp only [Except.map]
    have e : (volume k V').layers = V'.layers.map (layer k) := rfl
    rw [e, runLayers_sc hk argsort ha _ _ _ _ (plain_budget argsort V V' hp h)]
    cases Volume.runLayers argsort rng noise fuel 0 V'.layers b <;> rfl

/-- **C158: costs.** The cost of a volume does not depend on the unit of length. -/
theorem cost {k : ℝ} (hk : 0 < k) (V : Volume) : (volume k V).getCost = V.getCost := cost_sc hk V

/-- **C158: responses.** In training, too, the efficiency at a place does not depend on the unit, and the resolution is the same inverse length as long as it is above the floor of 1e-10 in both units. -/
theorem response {k : ℝ} (hk : 0 < k) (p : Panel) (hc : p.continuous = true) (hs : 0 < p.scaledSpan.1 ∧ 0 < p.scaledSpan.2) (q : ℝ × ℝ) (c : Bool) :
    (simplePanel k p).effAt (pair k q) c = p.effAt q c ∧
      (1e-10 < (p.resAt q c).1 → 1e-10 < ((simplePanel k p).resAt (pair k q) c).1 → ((simplePanel k p).resAt (pair k q) c).1 = (p.resAt q c).1 / k) ∧
      (1e-10 < (p.resAt q c).2 → 1e-10 < ((simplePanel k p).resAt (pair k q) c).2 → ((simplePanel k p).resAt (pair k q) c).2 = (p.resAt q c).2 / k) := by
  have h2 : (simplePanel k p).continuous = true := hc
  have e1 := ratio_sc hk p.kind p.xy.1 p.scaledSpan.1 q.1 hs.1
  have e2 := ratio_sc hk p.kind p.xy.2 p.scaledSpan.2 q.2 hs.2
  have f1 : (simplePanel k p).xy = pair k p.xy := rfl
  have f2 : (simplePanel k p).kind = p.kind := rfl
  have f3 : (simplePanel k p).eff = p.eff := rfl
  have f4 : (simplePanel k p).res = p.res / k := rfl
  have key : ∀ a : ℝ, 1e-10 < max a 1e-10 → max a 1e-10 = a := fun a h => max_eq_left (by
    by_contra hn
    rw [max_eq_right (not_le.mp hn).le] at h
    exact lt_irrefl _ h)
  refine ⟨?_, ?_, ?_⟩
  · unfold Panel.effAt
    rw [hc, h2, f1, f2, f3, span_sc]
    simp only [pair, e1, e2]
  · unfold Panel.resAt
    rw [hc, h2, f1, f2, f4, span_sc]
    simp only [pair, e1, if_true]
    intro a b
    rw [key _ a, key _ b]
    ring
  · unfold Panel.resAt
    rw [hc, h2, f1, f2, f4, span_sc]
    simp only [pair, e2, if_true]
    intro a b
    rw [key _ a, key _ b]
    ring

/-- **C158, violated in training.** Where the resolution of a panel reaches the floor, its number is that of the floor in every smaller unit of length: the uncertainty of a hit is 1e10 metres, centimetres or whatever the unit is. -/
theorem floor_violated {k : ℝ} (hk : 1 ≤ k) (p : Panel) (hc : p.continuous = true) (hs : 0 < p.scaledSpan.1) (q : ℝ × ℝ) (c : Bool)
    (h0 : 0 ≤ p.res * Panel.ratio p.kind p.xy.1 p.scaledSpan.1 q.1) (h : (p.resAt q c).1 = 1e-10) :
    ((simplePanel k p).resAt (pair k q) c).1 = 1e-10 ∧ (p.hitUnc q c)[0]? = some (.num (1 / 1e-10)) ∧ ((simplePanel k p).hitUnc (pair k q) c)[0]? = some (.num (1 / 1e-10)) := by
  have hk0 : 0 < k := by linarith
  have h2 : (simplePanel k p).continuous = true := hc
  have e1 := ratio_sc hk0 p.kind p.xy.1 p.scaledSpan.1 q.1 hs
  have f1 : (simplePanel k p).xy = pair k p.xy := rfl
  have f2 : (simplePanel k p).kind = p.kind := rfl
  have f4 : (simplePanel k p).res = p.res / k := rfl
  have r : ((simplePanel k p).resAt (pair k q) c).1 = 1e-10 := by
    unfold Panel.resAt at h ⊢
    rw [hc] at h
    rw [h2, f1, f2, f4, span_sc]
    simp only [pair, e1, if_true] at h ⊢
    have h1 : p.res * Panel.ratio p.kind p.xy.1 p.scaledSpan.1 q.1 ≤ 1e-10 := by
      rw [← h]
      exact le_max_left _ _
    apply max_eq_right
    rw [div_mul_eq_mul_div]
    exact (div_le_self h0 hk).trans h1
  have hq : XF.quot 1 1e-10 = .num (1 / 1e-10) := by
    unfold XF.quot
    rw [if_pos (by norm_num)]
  refine ⟨r, ?_, ?_⟩
  · simp only [Panel.hitUnc, List.getElem?_cons_zero, h, hq]
  · simp only [Panel.hitUnc, List.getElem?_cons_zero, r, hq]

/-- **C158: keeping panels in their layer.** After an update panels and heat maps are moved back to the same places if the random margin at the faces of the layer is the same length. -/
theorem clamp {k : ℝ} (hk : 0 < k) (eps : ℝ) (low high : ℝ × ℝ × ℝ) :
    (∀ p : Panel, (simplePanel k p).clampParams (k * eps) (k * low.1, k * low.2.1, k * low.2.2) (k * high.1, k * high.2.1, k * high.2.2) = simplePanel k (p.clampParams eps low high)) ∧
    ∀ p : Heatmap, (heatmap k p).clampParams (k * eps) (k * low.1, k * low.2.1, k * low.2.2) (k * high.1, k * high.2.1, k * high.2.2) = heatmap k (p.clampParams eps low high) := by
  constructor
  · intro p
    have e : ∀ a : ℝ, 10 * (k * a) = k * (10 * a) := fun a => by ring
    simp only [Panel.clampParams, simplePanel, pair, ← mul_add, ← mul_sub, mul_div_assoc, e, clampR_sc hk]
  · intro p
    have e : ∀ a : ℝ, rangeMult * (k * a) = k * (rangeMult * a) := fun a => by ring
    simp only [Heatmap.clampParams, heatmap, ← mul_add, ← mul_sub, mul_div_assoc, e, clampR_sc hk, List.map_map]
    simp only [Function.comp_def, pair, clampR_sc hk]

/-- **C158, violated for the margin.** The margin is drawn between 0 and 1e-3 in any unit: with the same draw a panel above its layer is moved to another height, the nearer to the face the smaller the unit. -/
theorem clamp_violated {k : ℝ} (hk : 1 < k) (p : Panel) (eps : ℝ) (h0 : 0 < eps) (low high : ℝ × ℝ × ℝ) (hz : high.2.2 ≤ p.z) (hl : low.2.2 + eps ≤ high.2.2 - eps) :
    (p.clampParams eps low high).z = high.2.2 - eps ∧
    ((simplePanel k p).clampParams eps (k * low.1, k * low.2.1, k * low.2.2) (k * high.1, k * high.2.1, k * high.2.2)).z = k * (high.2.2 - eps / k) ∧ high.2.2 - eps < high.2.2 - eps / k := by
  have hk0 : 0 < k := by linarith
  have key : ∀ x lo hi : ℝ, lo ≤ hi → hi ≤ x → clampR x lo hi = hi := fun x lo hi h1 h2 => by
    unfold clampR
    rw [max_eq_left (h1.trans h2), min_eq_right h2]
  have e : k * high.2.2 - eps = k * (high.2.2 - eps / k) := by field_simp
  refine ⟨key _ _ _ hl (by linarith), ?_, ?_⟩
  · rw [← e]
    have h3 : k * (low.2.2 + 2 * eps) ≤ k * high.2.2 := mul_le_mul_of_nonneg_left (by linarith) hk0.le
    have h4 : k * high.2.2 ≤ k * p.z := mul_le_mul_of_nonneg_left hz hk0.le
    refine key _ _ _ ?_ ?_
    · have : 2 * eps ≤ k * (2 * eps) := by nlinarith
      linarith [mul_add k low.2.2 (2 * eps)]
    · change k * high.2.2 - eps ≤ k * p.z
      linarith
  · have : eps / k < eps := div_lt_self h0 hk
    linarith

/-- Non-vacuity: a panel 1 above a layer of height 1. -/
example : ∃ (p : Panel) (low high : ℝ × ℝ × ℝ), high.2.2 ≤ p.z ∧ low.2.2 + 0.0005 ≤ high.2.2 - 0.0005 :=
  ⟨{ kind := .gauss, realistic := true, training := true, res := 1, eff := 0.9, m2cost := 2, xy := (0.5, 0.5), z := 2, span := (1, 1), budgetScale := 1 }, (0, 0, 0), (1, 1, 1), by norm_num, by norm_num⟩

/-- Non-vacuity: there are argsorts that do not care about the unit. -/
theorem argsort_scales : ∃ argsort, IsArgsort argsort ∧ ∀ (k : ℝ) (zs : List ℝ), 0 < k → argsort (zs.map (k * ·)) = argsort zs := by
  obtain ⟨argsort, ha⟩ := C13.argsort_exists
  let n : List ℝ → ℝ := fun zs => (zs.map fun z => |z|).sum
  have n0 : ∀ zs, 0 ≤ n zs := fun zs => List.sum_nonneg (by
    intro x hx
    obtain ⟨z, -, rfl⟩ := List.mem_map.mp hx
    exact abs_nonneg z)
  have nz : ∀ zs, n zs = 0 → ∀ z ∈ zs, z = 0 := by
    intro zs h z hz
    have : |z| ≤ n zs := List.single_le_sum (by
      intro x hx
      obtain ⟨z, -, rfl⟩ := List.mem_map.mp hx
      exact abs_nonneg z) _ (List.mem_map_of_mem hz)
    rw [h] at this
    exact abs_eq_zero.mp (le_antisymm this (abs_nonneg z))
  refine ⟨fun zs => argsort (zs.map fun z => z / n zs), fun zs => ⟨?_, ?_⟩, fun k zs hk => ?_⟩
  · have := (ha (zs.map fun z => z / n zs)).1
    rwa [List.length_map] at this
  · refine (ha (zs.map fun z => z / n zs)).2.imp ?_
    intro i j hij a b h1 h2
    have h3 := hij (a / n zs) (b / n zs) (by rw [List.getElem?_map, h1]; rfl) (by rw [List.getElem?_map, h2]; rfl)
    rcases (n0 zs).eq_or_lt with h | h
    · rw [nz zs h.symm a (List.mem_of_getElem? h1), nz zs h.symm b (List.mem_of_getElem? h2)]
    · exact (div_le_div_iff_of_pos_right h).mp h3
  · have e : n (zs.map (k * ·)) = k * n zs := by
      simp only [n, List.map_map, ← List.sum_map_mul_left]
      congr 1
      refine List.map_congr_left fun z _ => ?_
      simp only [Function.comp, abs_mul, abs_of_pos hk]
    simp only [e, List.map_map]
    congr 2
    funext z
    simp only [Function.comp]
    rw [mul_div_mul_left _ _ hk.ne']

/-- An evaluated panel at height 3 over the slab of C99, in metres. -/
def stack : Volume := ⟨[.detector { pos := "above", lw := (1, 1), z := 3, size := 1, panels := [.panel { kind := .gauss, realistic := true, training := false, res := 1000, eff := 0.9, m2cost := 2, xy := (0.5, 0.5), z := 2.5, span := (1, 1), budgetScale := 1 }] }, .passive C99.slab], none, [], []⟩

/-- In metres and in centimetres the muon leaves the slab turned by 45 degrees, at height 1 m and at height 100 cm. -/
example : ∃ argsort b', IsArgsort argsort ∧ (∀ l ∈ stack.layers, PlainLayer l) ∧
    stack.forward argsort (fun _ _ _ => C99.turn) (fun _ _ _ => (0, 0)) 1 ⟨[⟨0, 0.5, 0.5, 3, 0.0136, 0, 0⟩], [], [], []⟩ = .ok (stack, some b') ∧ b'.muons = [⟨0, 0.5, 0.5, 1, 0.0136, π / 4, π⟩] ∧
    (volume 100 stack).forward argsort (fun _ _ _ => C99.turn) (fun _ _ _ => (0, 0)) 1 (batch 100 ⟨[⟨0, 0.5, 0.5, 3, 0.0136, 0, 0⟩], [], [], []⟩) = .ok (volume 100 stack, some (batch 100 b')) ∧
    (batch 100 b').muons = [⟨0, 50, 50, 100, 0.0136, π / 4, π⟩] := by
  obtain ⟨argsort, ha, hs⟩ := argsort_scales
  obtain ⟨b1, _, h1, _, _, _, hm1, _⟩ := C13.layer_spec argsort ha (fun _ _ => (0, 0)) { pos := "above", lw := (1, 1), z := 3, size := 1, panels := [.panel { kind := .gauss, realistic := true, training := false, res := 1000, eff := 0.9, m2cost := 2, xy := (0.5, 0.5), z := 2.5, span := (1, 1), budgetScale := 1 }] } ⟨[⟨0, 0.5, 0.5, 3, 0.0136, 0, 0⟩], [], [], []⟩
    (by simp [AnyPanel.CanRespond, Panel.scaledSpan])
  obtain ⟨b2, h2, hm2⟩ := C99.slab_turn b1.snapshot (by simp [Batch.snapshot, hm1, atHeight, crossing]; norm_num)
  have hp : ∀ l ∈ stack.layers, PlainLayer l := by simp [stack, PlainLayer, Plain]
  have hf : stack.forward argsort (fun _ _ _ => C99.turn) (fun _ _ _ => (0, 0)) 1 ⟨[⟨0, 0.5, 0.5, 3, 0.0136, 0, 0⟩], [], [], []⟩ = .ok (stack, some b2.snapshot) := by
    simp only [stack, Volume.forward, Volume.assignBudget, Volume.runLayers, Volume.layerForward, h1, h2]
  have hm : b2.snapshot.muons = [⟨0, 0.5, 0.5, 1, 0.0136, π / 4, π⟩] := by simpa [Batch.snapshot] using hm2
  refine ⟨argsort, b2.snapshot, ha, hp, hf, hm, ?_, ?_⟩
  · rw [flight (by norm_num) argsort (fun zs => hs 100 zs (by norm_num)) _ _ _ _ hp, hf]
    rfl
  · simp only [batch, hm, List.map_cons, List.map_nil, muon]
    norm_num

/-- Non-vacuity of the costs: a panel of one square metre at 2 per square metre is one of 10000 square centimetres at 0.0002. -/
example : stack.getCost = .ok 2 ∧ (volume 100 stack).getCost = .ok 2 := by
  have h : stack.getCost = .ok 2 := by
    simp [stack, Volume.getCost, Volume.detectors, Volume.costLoop, DetLayer.getCost, AnyPanel.getCost, Panel.getCost, Panel.scaledSpan]
  exact ⟨h, by rw [cost (by norm_num), h]⟩

/-- Non-vacuity of the responses: at the centre of a panel of continuous sigmoids the resolution of 2 per metre is above the floor in metres and in centimetres. -/
example : ∃ p : Panel, p.continuous = true ∧ (0 < p.scaledSpan.1 ∧ 0 < p.scaledSpan.2) ∧ 1e-10 < (p.resAt (0.5, 0.5) false).1 ∧ 1e-10 < ((simplePanel 100 p).resAt (pair 100 (0.5, 0.5)) false).1 := by
  refine ⟨{ kind := .gauss, realistic := true, training := true, res := 1000, eff := 0.9, m2cost := 2, xy := (0.5, 0.5), z := 2.5, span := (1, 1), budgetScale := 1 }, by simp [Panel.continuous], by simp [Panel.scaledSpan], ?_, ?_⟩
  · simp [Panel.resAt, Panel.continuous, Panel.ratio, Panel.gaussRatio, Panel.scaledSpan]
    norm_num
  · simp [Panel.resAt, Panel.continuous, Panel.ratio, Panel.gaussRatio, Panel.scaledSpan, simplePanel, pair]
    norm_num

/-- Non-vacuity of the floor: a panel whose resolution is 1e-10 per metre. -/
example : ∃ p : Panel, p.continuous = true ∧ 0 < p.scaledSpan.1 ∧ 0 ≤ p.res * Panel.ratio p.kind p.xy.1 p.scaledSpan.1 0.5 ∧ (p.resAt (0.5, 0.5) false).1 = 1e-10 := by
  refine ⟨{ kind := .gauss, realistic := true, training := true, res := 1e-10, eff := 0.9, m2cost := 2, xy := (0.5, 0.5), z := 2.5, span := (1, 1), budgetScale := 1 }, by simp [Panel.continuous], by simp [Panel.scaledSpan], ?_, ?_⟩
  · simp [Panel.ratio, Panel.gaussRatio, Panel.scaledSpan]
    norm_num
  · simp [Panel.resAt, Panel.continuous, Panel.ratio, Panel.gaussRatio, Panel.scaledSpan]

end C158

end

end Tomopt
