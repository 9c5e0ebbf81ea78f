import Verif.Lemmas.MapsCase

/- C130: the loss of a training batch is a differentiable function of the parameters of heat maps, alone or together with panels; and which gradient is followed. -/
namespace Tomopt

noncomputable section
open Real Filter Topology Scatter Uncert Chain

namespace C130
open C121

variable {n n' : Nat}

/-- What the inferrer predicts for a voxel when the parameter of the detector is `t`. -/
def actual (lw : ℝ × ℝ) (Φ : ℝ → ℝ) (big size : ℝ) (D : Plane n n' → ℝ → AnyPanel) (rs : List (Ray n n')) (low : ℝ × ℝ × ℝ) (t : ℝ) : XF :=
  C98.predicted big size (rs.map fun r => (told D r t).seen lw Φ size low ((told D r t).jacs lw) r.mom)

/-- The same as the function of the parameter which automatic differentiation at `t0` sees. -/
def tracked (lw : ℝ × ℝ) (Φ : ℝ → ℝ) (big size : ℝ) (D : Plane n n' → ℝ → AnyPanel) (rs : List (Ray n n')) (low : ℝ × ℝ × ℝ) (t0 t : ℝ) : XF :=
  C98.predicted big size (rs.map fun r =>
    (told D (frozen D t0 r) t).seen lw Φ size low (graphed asksGraph (fun t => (told D (frozen D t0 r) t).jacs lw) t0 t) r.mom)

/-- **C130: rows.** What is recorded of a muon in a batch is what is recorded of it alone. -/
theorem rows (P : AnyPanel) (hP : P.CanRespond) (noise : Nat → ℝ × ℝ) (b : Tomopt.Batch Row) (var : String) (hv : var ∈ ["reco_xyz", "gen_xyz", "unc_xyz", "eff"]) :
    P.tensorAt noise b var = some (b.muons.map fun m => note P (noise m.id) m var) := by
  cases P with
  | panel p =>
    rw [tensorAt_panel p noise b hP var hv]
    congr 2
    funext m
    rw [note, tensorAt_panel p _ _ hP var hv]
    rfl
  | heatmap h =>
    simp only [List.mem_cons, List.not_mem_nil, or_false] at hv
    rcases hv with rfl | rfl | rfl | rfl <;>
      simp only [note, AnyPanel.tensorAt, AnyPanel.getHits, AnyPanel.z, Heatmap.getHits, Dict.get?, Batch.atHeight, List.map_cons, List.map_nil, List.map_map, String.reduceEq, if_true, if_false] <;> rfl

/-- **C130: panels.** For a detector of panels only this is what was shown of them before (C121). -/
theorem panels (D : Plane n n' → ℝ → Panel) (r : Ray n n') (t : ℝ) (hD : ∀ p, (AnyPanel.panel (D p t)).CanRespond) : told (fun p t => .panel (D p t)) r t = C121.told D r t := by
  have := fun p => note_panel (D p t) (hD p) (r.noise p) (r.muon p)
  have e1 : ∀ k, (told (fun p t => .panel (D p t)) r t).hit k = hits D r t k := by
    rintro ⟨p, c⟩
    simp only [told, entry, (this p).1, hits]
    fin_cases c <;> rfl
  have e2 : ∀ k, (told (fun p t => .panel (D p t)) r t).unc k = uncs D r t k := by
    rintro ⟨p, c⟩
    simp only [told, entry, (this p).2.1, uncs]
    fin_cases c <;> rfl
  have e3 : ∀ k, (told (fun p t => .panel (D p t)) r t).wgt k = wgts D r t k := by
    rintro ⟨p, c⟩
    simp only [told, entry, (this p).2.1, (this p).2.2, wgts]
    fin_cases c <;> rfl
  have e4 : ∀ p, (told (fun p t => .panel (D p t)) r t).eff p = effs D r t p := by
    intro p
    simp only [told, entry, (this p).2.2, effs]
    rfl
  show Told.mk (told (fun p t => .panel (D p t)) r t).hit (told (fun p t => .panel (D p t)) r t).unc (told (fun p t => .panel (D p t)) r t).wgt (told (fun p t => .panel (D p t)) r t).eff = _
  rw [funext e1, funext e2, funext e3, funext e4]
  rfl

/-- **C130: predictions.** Near `t0` the X0 predicted for a voxel is a number, and a differentiable function of `t`. -/
theorem prediction (lw : ℝ × ℝ) (Φ : ℝ → ℝ) (hΦ : Differentiable ℝ Φ) (hm : Monotone Φ) (big size : ℝ) (hs : 0 ≤ size) (D : Plane n n' → ℝ → AnyPanel) (t0 : ℝ) (rs : List (Ray n n'))
    (hB : Batch lw D t0 rs) (low : ℝ × ℝ × ℝ) : ∃ f : ℝ → ℝ, (∀ᶠ t in 𝓝 t0, actual lw Φ big size D rs low t = .num (f t)) ∧ DifferentiableAt ℝ f t0 :=
  prediction_told lw Φ hΦ hm big size hs (fun r => told D r) Ray.mom t0 rs hB.some (fun r hr => telling lw D t0 rs hB r hr) hB.mom (fun r t => (told D r t).jacs lw)
    (fun r hr => jacs_any lw _ t0 (telling lw D t0 rs hB r hr)) (fun _ _ => rfl) low

/-- **C130: cost.** So is what panels and heat maps cost. -/
theorem cost (D : Plane n n' → ℝ → AnyPanel) (t0 : ℝ) (hM : ∀ p, Learns (D p) t0) (hc : ∀ p t, price (D p t) = price (D p t0)) : DifferentiableAt ℝ (fun t => ∑ p, (D p t).getCost) t0 := by
  refine DifferentiableAt.fun_sum fun p _ => ?_
  have h1 := hM p
  have h2 := hc p
  generalize D p = P at h1 h2
  cases h1 with
  | panel Q _ h he =>
    simp only [price] at h2
    simp only [AnyPanel.getCost, Panel.getCost, h2]
    exact ((h.long.mul h.share).mul (h.wide.mul h.share)).const_mul _
  | heatmap Q _ h =>
    simp only [price] at h2
    obtain ⟨l, r, c, hd, -, -, hs⟩ := h.clusters
    simp only [AnyPanel.getCost, Heatmap.getCost, h2, (hs _).2, List.length_map]
    exact ((sizes_diff t0 _ hd).div_const _).const_mul _

/-- **C130: the loss.** Mean squared error over any voxels plus cost term, after the first evaluation has fixed the coefficient: near `t0` all predictions are numbers, the loss is a number, and it is a
differentiable function of `t` - with the plain penalty unless the cost at `t0` is exactly the target budget. -/
theorem loss (lw : ℝ × ℝ) (Φ : ℝ → ℝ) (hΦ : Differentiable ℝ Φ) (hm : Monotone Φ) (big size : ℝ) (hs : 0 ≤ size) (D : Plane n n' → ℝ → AnyPanel) (t0 : ℝ) (rs : List (Ray n n'))
    (hB : Batch lw D t0 rs) (hc : ∀ p t, price (D p t) = price (D p t0)) (voxels : List (ℝ × ℝ × ℝ)) (hv : voxels ≠ []) (targ : List ℝ) (steep : Bool) (b s k : ℝ) (hb : b ≠ 0)
    (hk : steep = true ∨ ∑ p, (D p t0).getCost ≠ b) :
    ∃ L : ℝ → ℝ, DifferentiableAt ℝ L t0 ∧ ∀ᶠ t in 𝓝 t0, ∃ (ps : List ℝ) (e c : ℝ), voxels.map (fun low => actual lw Φ big size D rs low t) = ps.map .num ∧
      Loss.mse ps targ = .num e ∧ (Loss.forward steep (some b) s ⟨some k⟩ e (∑ p, (D p t).getCost)).2 = (e, .num c) ∧ L t = e + c :=
  loss_told lw Φ hΦ hm big size hs (fun r => told D r) Ray.mom t0 rs hB.some (fun r hr => telling lw D t0 rs hB r hr) hB.mom (fun r t => (told D r t).jacs lw)
    (fun r hr => jacs_any lw _ t0 (telling lw D t0 rs hB r hr)) (fun _ _ => rfl) voxels hv targ _ (cost D t0 hB.learns hc) steep b s k hb hk

/-- **C130: there is a gradient.** What automatic differentiation sees is the loss at `t0`, and a differentiable function of `t`: the gradient is a number. -/
theorem gradient (lw : ℝ × ℝ) (Φ : ℝ → ℝ) (hΦ : Differentiable ℝ Φ) (hm : Monotone Φ) (big size : ℝ) (hs : 0 ≤ size) (D : Plane n n' → ℝ → AnyPanel) (t0 : ℝ) (rs : List (Ray n n'))
    (hB : Batch lw D t0 rs) (hc : ∀ p t, price (D p t) = price (D p t0)) (voxels : List (ℝ × ℝ × ℝ)) (hv : voxels ≠ []) (targ : List ℝ) (steep : Bool) (b s k : ℝ) (hb : b ≠ 0)
    (hk : steep = true ∨ ∑ p, (D p t0).getCost ≠ b) :
    (∀ low, tracked lw Φ big size D rs low t0 t0 = actual lw Φ big size D rs low t0) ∧
    ∃ G : ℝ → ℝ, DifferentiableAt ℝ G t0 ∧ ∀ᶠ t in 𝓝 t0, ∃ (ps : List ℝ) (e c : ℝ), voxels.map (fun low => tracked lw Φ big size D rs low t0 t) = ps.map .num ∧
      Loss.mse ps targ = .num e ∧ (Loss.forward steep (some b) s ⟨some k⟩ e (∑ p, (D p t).getCost)).2 = (e, .num c) ∧ G t = e + c := by
  refine ⟨fun low => ?_, ?_⟩
  · unfold tracked actual
    refine congrArg _ (List.map_congr_left fun r _ => ?_)
    simp only [graphed, ite_self, frozen_told D t0 t0 r (fun _ => rfl)]
  · have hF := frozen_batch lw D t0 rs hB
    exact loss_told lw Φ hΦ hm big size hs (fun r => told D (frozen D t0 r)) Ray.mom t0 rs hB.some (fun r hr => telling lw D t0 _ hF _ (List.mem_map_of_mem hr)) hB.mom
      (fun r => graphed asksGraph (fun t => (told D (frozen D t0 r) t).jacs lw) t0) (fun _ _ _ _ => differentiableAt_const _) (fun _ _ => rfl) voxels hv targ _ (cost D t0 hB.learns hc) steep b s k hb hk

/-- **C130: muons all alike.** If the muons of a batch all fly and are recorded in the same way, and cross every panel at the same place wherever it is moved, the gradient is right. -/
theorem alike (lw : ℝ × ℝ) (Φ : ℝ → ℝ) (hΦ : Differentiable ℝ Φ) (hm : Monotone Φ) (big size : ℝ) (hs : 0 ≤ size) (D : Plane n n' → ℝ → AnyPanel) (t0 : ℝ) (rs : List (Ray n n')) (hB : Batch lw D t0 rs)
    (same : ∀ r ∈ rs, ∀ r' ∈ rs, r = r') (hc : ∀ r ∈ rs, ∀ p t, crossing (r.muon p) (D p t).z = crossing (r.muon p) (D p t0).z) (low : ℝ × ℝ × ℝ) :
    ∀ᶠ t in 𝓝 t0, tracked lw Φ big size D rs low t0 t = actual lw Φ big size D rs low t := by
  obtain ⟨r, hr⟩ := List.exists_mem_of_ne_nil rs hB.some
  obtain ⟨k, hk⟩ : ∃ k, rs = List.replicate (k + 1) r := by
    have e := List.eq_replicate_of_mem (fun b hb => same b hb r hr)
    obtain ⟨k, hk⟩ := Nat.exists_eq_succ_of_ne_zero (List.length_pos_iff.mpr hB.some).ne'
    exact ⟨k, e.trans (by rw [hk])⟩
  have hT := telling lw D t0 rs hB r hr
  have h1 := observed_any lw Φ hΦ hm size hs low (told D r) t0 hT r.mom (hB.mom r hr) (fun t => (told D r t).jacs lw) (jacs_any lw _ t0 hT) rfl
  have h2 := observed_any lw Φ hΦ hm size hs low (told D r) t0 hT r.mom (hB.mom r hr) (graphed asksGraph (fun t => (told D r t).jacs lw) t0) (fun _ _ => differentiableAt_const _) rfl
  filter_upwards [good_near _ t0 h1.1 h1.2, good_near _ t0 h2.1 h2.2] with t g1 g2
  have hf : tracked lw Φ big size D rs low t0 t = C98.predicted big size (rs.map fun r => (told D r t).seen lw Φ size low (graphed asksGraph (fun t => (told D r t).jacs lw) t0 t) r.mom) := by
    unfold tracked
    refine congrArg _ (List.map_congr_left fun r hr => ?_)
    simp only [graphed, frozen_told D t0 t r (fun p => hc r hr p t), frozen_told D t0 t0 r (fun _ => rfl)]
  rw [hf]
  unfold actual
  rw [hk, List.map_replicate, List.map_replicate, predicted_replicate _ _ _ _ g1, predicted_replicate _ _ _ _ g2]
  obtain ⟨a, b, c, d⟩ := told_row lw Φ size low (told D r t) ((told D r t).jacs lw) r.mom
  obtain ⟨a', b', c', d'⟩ := told_row lw Φ size low (told D r t) (graphed asksGraph (fun t => (told D r t).jacs lw) t0 t) r.mom
  rw [a, b, c, d, a', b', c', d']

/-- **C130 (violated): heights.** One muon without noise, seen by four heat maps. The height of the highest heat map does not matter for the prediction, but automatic differentiation sees a function of the
height that falls: it takes the place where the muon crosses the heat map as fixed. -/
theorem height_violated (lw : ℝ × ℝ) (big size : ℝ) (hs : 0 < size) (low : ℝ × ℝ × ℝ) : ∃ (H : Plane 2 2 → ℝ → Heatmap) (r : Ray 2 2) (x : ℝ) (g : ℝ → ℝ),
    Batch lw (fun p t => .heatmap (H p t)) 0 [r] ∧ (∀ p, r.noise p = (0, 0)) ∧ (∀ᶠ t in 𝓝 0, actual lw normalCdf big size (fun p t => .heatmap (H p t)) [r] low t = .num x) ∧
    (∀ᶠ t in 𝓝 0, tracked lw normalCdf big size (fun p t => .heatmap (H p t)) [r] low 0 t = .num (g t)) ∧ g 0 = x ∧ ∃ d < 0, HasDerivAt g d 0 := by
  have hΦ : Differentiable ℝ normalCdf := fun x => (normalCdf_deriv x).differentiableAt
  have hB := maps_batch lw
  have hB' := frozen_batch lw maps 0 _ hB
  have hT := telling lw maps 0 _ hB slanted (by simp)
  have hT' := telling lw maps 0 _ hB' (frozen maps 0 slanted) (by simp)
  have h1 := observed_any lw normalCdf hΦ normalCdf_mono size hs.le low _ 0 hT 1 one_pos (fun t => (told maps slanted t).jacs lw) (jacs_any lw _ 0 hT) rfl
  have h2 := observed_any lw normalCdf hΦ normalCdf_mono size hs.le low _ 0 hT' 1 one_pos (graphed asksGraph (fun t => (told maps (frozen maps 0 slanted) t).jacs lw) 0) (fun _ _ => differentiableAt_const _) rfl
  obtain ⟨d, hd, h, dh, -, eh, -⟩ := one_falls lw normalCdf hΦ normalCdf_mono big size hs low 0 (graphed asksGraph (jacs lw four (shot 1)) 0) (fun _ _ => differentiableAt_const _) rfl
  have near : ∀ᶠ t in 𝓝 (0 : ℝ), -1 < t := lt_mem_nhds (by norm_num)
  refine ⟨fun p t => blob (level p t), slanted, h 0, h, hB, fun _ => rfl, ?_, ?_, rfl, d, hd, dh⟩
  · filter_upwards [good_near _ 0 h1.1 h1.2, near] with t g ht
    have := predicted_replicate big size 0 _ g
    obtain ⟨w, a1, a2, a3, a4, a5, a6⟩ := maps_slanted t
    obtain ⟨-, v1, v2, v3⟩ := angles lw _ _ w _ _ (by linarith) (by linarith) a1 a2 a3 a4 a5 a6
    have e : (2 + t) / 2 / (2 + t) = 1 / (2 + 0) := by
      have : (2 + t) ≠ 0 := by linarith
      field_simp
      norm_num
    obtain ⟨b1, b2, b3, b4⟩ := told_row lw normalCdf size low (told maps slanted t) ((told maps slanted t).jacs lw) 1
    rw [b1, b2, b3, b4, v1, v2, v3, e] at this
    rw [eh]
    exact this
  · filter_upwards [good_near _ 0 h2.1 h2.2, near] with t g ht
    have := predicted_replicate big size 0 _ g
    obtain ⟨w, a1, a2, a3, a4, a5, a6⟩ := maps_frozen t
    obtain ⟨-, v1, v2, v3⟩ := angles lw _ _ w _ _ (by linarith) (by linarith) a1 a2 a3 a4 a5 a6
    obtain ⟨b1, b2, b3, b4⟩ := told_row lw normalCdf size low (told maps (frozen maps 0 slanted) t) (graphed asksGraph (fun t => (told maps (frozen maps 0 slanted) t).jacs lw) 0 t) 1
    rw [b1, b2, b3, b4, v1, v2, v3] at this
    rw [eh]
    exact this

/-- Four heat maps, one of which moves up, and a muon. -/
example (lw : ℝ × ℝ) : Batch lw maps 0 [slanted] ∧ ∀ p t, price (maps p t) = price (maps p 0) := ⟨maps_batch lw, fun _ _ => rfl⟩

/-- Two panels above, one of which moves up, and two heat maps below. -/
example (lw : ℝ × ℝ) : Batch lw mixed 0 [slanted] ∧ ∀ p t, price (mixed p t) = price (mixed p 0) := ⟨mixed_batch lw, fun p _ => by rcases p with i | i <;> rfl⟩

/-- The panels of C121 respond. -/
example (p : Plane 2 2) (t : ℝ) : (AnyPanel.panel (four p t)).CanRespond := four_responds p t

/-- A heat map which stays where it is, and muons all alike. -/
example : Learns (fun _ => .heatmap (blob 1)) 0 ∧ ∀ (m : Muon) (t : ℝ), crossing m ((fun _ : ℝ => AnyPanel.heatmap (blob 1)) t).z = crossing m (AnyPanel.heatmap (blob 1)).z :=
  ⟨.heatmap _ 0 (blob_adapts (fun _ => 1) 0 (differentiableAt_const _)), fun _ _ => rfl⟩

end C130

end

end Tomopt
