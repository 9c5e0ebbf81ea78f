import Verif.Lemmas.ChainMaps

/- Helper lemmas: what four heat maps, one of which moves up, record of a slanted muon without noise. -/
namespace Tomopt

noncomputable section
open Real Filter Topology Scatter Uncert Chain

namespace C130
open C121

/-- one cluster in the middle, with half of the full scale -/
def blob (z : ℝ) : Heatmap where
  res := 1
  eff := 1
  m2cost := 1
  xyFix := (0, 0)
  xySpanFix := (-1, 1)
  deltaXy := 2
  mu := [(0, 0)]
  sig := [(1, 1)]
  norm := 1 / 2
  z := z
  realistic := true
  training := true

/-- Four heat maps, the highest of which moves up with `t`. -/
def maps (p : Plane 2 2) (t : ℝ) : AnyPanel := .heatmap (blob (level p t))

theorem blob_gmm (z : ℝ) (q : ℝ × ℝ) : (blob z).gmm q = sqrt (1 / 2 * exp (-((q.1) ^ 2 / 2 + (q.2) ^ 2 / 2))) := by
  have hw : C123.Wide [(((0 : ℝ), (0 : ℝ)), ((1 : ℝ), (1 : ℝ)))] := by simp [C123.Wide]
  have hM : C123.Highest [(((0 : ℝ), (0 : ℝ)), ((1 : ℝ), (1 : ℝ)))] 1 := by
    have : C123.cover [(((0 : ℝ), (0 : ℝ)), ((1 : ℝ), (1 : ℝ)))] (0, 0) = 1 := by simp [C123.cover, C123.gauss]
    constructor
    · exact ⟨((0, 0), (1, 1)), List.mem_singleton.mpr rfl, this.symm⟩
    · rintro x ⟨c, hc, rfl⟩
      rw [List.mem_singleton] at hc
      rw [hc]
      exact this.le
  have := C123.gmm_eq (blob z) _ hw 1 hM q
  have e : C123.withClusters (blob z) [(((0 : ℝ), (0 : ℝ)), ((1 : ℝ), (1 : ℝ)))] = blob z := rfl
  rw [e] at this
  rw [this]
  simp [C123.cover, C123.gauss, blob]

theorem blob_below (z : ℝ) (q : ℝ × ℝ) : 0 < (blob z).gmm q ∧ (blob z).gmm q < 1 := by
  rw [blob_gmm]
  have h1 : exp (-((q.1) ^ 2 / 2 + (q.2) ^ 2 / 2)) ≤ 1 := exp_le_one_iff.mpr (by have := sq_nonneg q.1; have := sq_nonneg q.2; linarith)
  refine ⟨sqrt_pos.mpr (by positivity), ?_⟩
  rw [sqrt_lt' one_pos]
  linarith

theorem blob_adapts (z : ℝ → ℝ) (t0 : ℝ) (dz : DifferentiableAt ℝ z t0) : Adapts (fun t => blob (z t)) t0 where
  same _ := ⟨rfl, rfl, rfl⟩
  res := one_pos
  eff := ⟨one_pos, le_rfl⟩
  clusters := ⟨[], [], (fun _ => (0, 0), fun _ => (1, 1)), by simp, by simp [C123.Wide, C123.atTime], by simp [C123.Peaked], fun _ => ⟨rfl, rfl⟩⟩
  norm := ⟨differentiableAt_const _, by simp [blob]⟩
  z := dz

theorem level_diff (p : Plane 2 2) (t0 : ℝ) : DifferentiableAt ℝ (level p) t0 := by
  rcases p with i | i <;> fin_cases i
  · exact (differentiableAt_id).const_add 3
  · exact differentiableAt_const _
  · exact differentiableAt_const _
  · exact differentiableAt_const _

/-- what they record of a muon without noise: where it crosses them -/
theorem maps_exact (r : Ray 2 2) (hN : ∀ p, r.noise p = (0, 0)) (t : ℝ) :
    (∀ p, (told maps r t).hit (p, 0) = (crossing (r.muon p) (level p t)).1 ∧ (told maps r t).hit (p, 1) = (crossing (r.muon p) (level p t)).2 ∧ (told maps r t).hit (p, 2) = level p t) ∧
    ∀ k, 0 < (told maps r t).wgt k := by
  have key := fun p => note_map (blob (level p t)) (r.muon p) rfl (by show 0 < 1 * _; rw [one_mul]; exact (blob_below _ _).1) (0, 0)
  have pg := fun p => (blob_below (level p t) (crossing (r.muon p) (level p t))).1
  refine ⟨fun p => ?_, ?_⟩
  · simp only [told, entry, maps, hN, (key p).1, zero_div, add_zero]
    exact ⟨rfl, rfl, rfl⟩
  · rintro ⟨p, c⟩
    have e : (told maps r t).wgt (p, c) = 1 / (1 * (blob (level p t)).gmm (crossing (r.muon p) (level p t))) /
        (1 * (min 1 ((blob (level p t)).gmm (crossing (r.muon p) (level p t))) * min 1 ((blob (level p t)).gmm (crossing (r.muon p) (level p t))))) := by
      have hz : (blob (level p t)).z = level p t := rfl
      have hm : 1 * (min 1 ((blob (level p t)).gmm (crossing (r.muon p) (level p t))) * min 1 ((blob (level p t)).gmm (crossing (r.muon p) (level p t)))) ≠ 0 := by
        have := lt_min one_pos (pg p)
        positivity
      have he : (blob (level p t)).eff = 1 := rfl
      have hr : (blob (level p t)).res = 1 := rfl
      simp only [told, entry, maps, hN, (key p).2.1, (key p).2.2, hz, he, hr]
      fin_cases c <;> simp only [List.getD_cons_zero, List.getD_cons_succ, XF.div, XF.quot, hm, ne_eq, not_false_eq_true, if_true, num, Fin.isValue]
    rw [e]
    have := pg p
    have := lt_min one_pos (pg p)
    positivity

theorem maps_slanted (t : ℝ) : (∀ k, 0 < (told maps slanted t).wgt k) ∧ (told maps slanted t).hit (.inl 1, 2) - (told maps slanted t).hit (.inl 0, 2) = -(2 + t) ∧
    (told maps slanted t).hit (.inl 1, 0) - (told maps slanted t).hit (.inl 0, 0) = (2 + t) / 2 ∧ (told maps slanted t).hit (.inl 1, 1) - (told maps slanted t).hit (.inl 0, 1) = 0 ∧
    (told maps slanted t).hit (.inr 1, 2) - (told maps slanted t).hit (.inr 0, 2) = -1 ∧ (told maps slanted t).hit (.inr 1, 0) - (told maps slanted t).hit (.inr 0, 0) = 1 ∧
    (told maps slanted t).hit (.inr 1, 1) - (told maps slanted t).hit (.inr 0, 1) = 0 := by
  obtain ⟨h, w⟩ := maps_exact slanted (fun _ => rfl) t
  refine ⟨w, ?_⟩
  simp only [h, (slanted_crossing _ _).1, (slanted_crossing _ _).2, level]
  exact ⟨by ring, by ring, by ring, by ring, by ring, by ring⟩

theorem maps_frozen (t : ℝ) : (∀ k, 0 < (told maps (frozen maps 0 slanted) t).wgt k) ∧
    (told maps (frozen maps 0 slanted) t).hit (.inl 1, 2) - (told maps (frozen maps 0 slanted) t).hit (.inl 0, 2) = -(2 + t) ∧
    (told maps (frozen maps 0 slanted) t).hit (.inl 1, 0) - (told maps (frozen maps 0 slanted) t).hit (.inl 0, 0) = 1 ∧
    (told maps (frozen maps 0 slanted) t).hit (.inl 1, 1) - (told maps (frozen maps 0 slanted) t).hit (.inl 0, 1) = 0 ∧
    (told maps (frozen maps 0 slanted) t).hit (.inr 1, 2) - (told maps (frozen maps 0 slanted) t).hit (.inr 0, 2) = -1 ∧
    (told maps (frozen maps 0 slanted) t).hit (.inr 1, 0) - (told maps (frozen maps 0 slanted) t).hit (.inr 0, 0) = 1 ∧
    (told maps (frozen maps 0 slanted) t).hit (.inr 1, 1) - (told maps (frozen maps 0 slanted) t).hit (.inr 0, 1) = 0 := by
  obtain ⟨h, w⟩ := maps_exact (frozen maps 0 slanted) (fun _ => by rw [(frozen_rest maps 0 slanted).1]; rfl) t
  refine ⟨w, ?_⟩
  have hz : ∀ p, (maps p 0).z = level p 0 := fun _ => rfl
  simp only [h, frozen_crossing, hz, (slanted_crossing _ _).1, (slanted_crossing _ _).2, level]
  exact ⟨by ring, by ring, by ring, by ring, by ring, by ring⟩

theorem maps_batch (lw : ℝ × ℝ) : Batch lw maps 0 [slanted] where
  above := le_rfl
  below := le_rfl
  some := by simp
  learns p := .heatmap _ 0 (blob_adapts _ 0 (level_diff p 0))
  clear r _ p := (blob_below _ _).2.ne
  usable r hr := by
    obtain rfl : r = slanted := by simpa using hr
    obtain ⟨w, a, b, c, d, e, f⟩ := maps_slanted 0
    have hf := (angles lw _ _ w _ _ (by norm_num) (by norm_num) a b c d e f).1
    refine ⟨_, _, trk_eq lw le_rfl Sum.inl _ _ (fun _ _ => w _) hf.above.ne', trk_eq lw le_rfl Sum.inr _ _ (fun _ _ => w _) hf.below.ne', ?_, ?_, hf.slantIn, hf.slantOut, hf.scatters⟩
    · exact sub_neg.mpr hf.above
    · exact sub_neg.mpr hf.below
  mom r hr := by
    obtain rfl : r = slanted := by simpa using hr
    exact one_pos

/-- Panels above, the highest of which moves up, and heat maps below. -/
def mixed : Plane 2 2 → ℝ → AnyPanel
  | .inl i, t => .panel (four (.inl i) t)
  | .inr i, t => maps (.inr i) t

theorem four_responds (p : Plane 2 2) (t : ℝ) : (AnyPanel.panel (four p t)).CanRespond := fun _ _ => by simp [four, C109.around, Panel.scaledSpan]

theorem mixed_told (r : Ray 2 2) (t : ℝ) : (∀ i c, (told mixed r t).hit (.inl i, c) = hits four r t (.inl i, c)) ∧ (∀ i c, (told mixed r t).hit (.inr i, c) = (told maps r t).hit (.inr i, c)) ∧
    (∀ i c, (told mixed r t).wgt (.inl i, c) = wgts four r t (.inl i, c)) ∧ ∀ i c, (told mixed r t).wgt (.inr i, c) = (told maps r t).wgt (.inr i, c) := by
  have := fun i => note_panel (four (.inl i) t) (four_responds (.inl i) t) (r.noise (.inl i)) (r.muon (.inl i))
  refine ⟨fun i c => ?_, fun _ _ => rfl, fun i c => ?_, fun _ _ => rfl⟩
  · simp only [told, entry, mixed, (this i).1, hits]
    fin_cases c <;> rfl
  · simp only [told, entry, mixed, (this i).2.1, (this i).2.2, wgts]
    fin_cases c <;> rfl

theorem mixed_batch (lw : ℝ × ℝ) : Batch lw mixed 0 [slanted] where
  above := le_rfl
  below := le_rfl
  some := by simp
  learns p := by
    rcases p with i | i
    · exact .panel _ 0 (four_moving (.inl i)) le_rfl
    · exact .heatmap _ 0 (blob_adapts _ 0 (level_diff (.inr i) 0))
  clear r hr p := by
    rcases p with i | i
    · exact (slanted_batch lw).clear r hr (.inl i)
    · exact (blob_below _ _).2.ne
  usable r hr := by
    obtain rfl : r = slanted := by simpa using hr
    obtain ⟨e1, e2, e3, e4⟩ := mixed_told slanted 0
    obtain ⟨w, a, b, c, -⟩ := slanted_hits 0
    obtain ⟨w', -, -, -, d, e, f⟩ := maps_slanted 0
    have wp : ∀ k, 0 < (told mixed slanted 0).wgt k := by
      rintro ⟨i | i, k⟩
      · rw [e3]; exact w _
      · rw [e4]; exact w' _
    rw [← e1, ← e1] at a b c
    rw [← e2, ← e2] at d e f
    have hf := (angles lw _ _ wp _ _ (by norm_num) (by norm_num) a b c d e f).1
    refine ⟨_, _, trk_eq lw le_rfl Sum.inl _ _ (fun _ _ => wp _) hf.above.ne', trk_eq lw le_rfl Sum.inr _ _ (fun _ _ => wp _) hf.below.ne', ?_, ?_, hf.slantIn, hf.slantOut, hf.scatters⟩
    · exact sub_neg.mpr hf.above
    · exact sub_neg.mpr hf.below
  mom r hr := by
    obtain rfl : r = slanted := by simpa using hr
    exact one_pos

end C130

end

end Tomopt
