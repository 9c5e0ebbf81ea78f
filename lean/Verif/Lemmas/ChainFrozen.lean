import Verif.Lemmas.ChainUphill

/- Helper lemmas: muons as automatic differentiation sees them, and what four panels of different heights report of a slanted muon without noise. -/
namespace Tomopt

noncomputable section
open Real Filter Topology Scatter Uncert Chain

namespace C121

variable {n n' : Nat}

theorem plumb_crossing (m : Muon) (z z' : ℝ) : crossing (plumb m z) z' = crossing m z := by
  simp [crossing, plumb]

/-- what a panel reports of a muon depends on where it crosses -/
theorem same_crossing (p : Panel) (m m' : Muon) (h : crossing m p.z = crossing m' p.z) : (∀ N, p.recoX N m = p.recoX N m') ∧ p.uncX m = p.uncX m' ∧ p.effX m = p.effX m' := by
  have hi : p.inside m = p.inside m' := by
    rw [Bool.eq_iff_iff, inside_iff, inside_iff, h]
  exact ⟨fun N => by simp only [Panel.recoX, h, hi], by simp only [Panel.uncX, h, hi], by simp only [Panel.effX, h, hi]⟩

/-- rays that cross the panels at the same places -/
theorem same_rays (D : Plane n n' → ℝ → Panel) (r r' : Ray n n') (t : ℝ) (hN : r.noise = r'.noise) (h : ∀ p, crossing (r.muon p) (D p t).z = crossing (r'.muon p) (D p t).z) :
    hits D r t = hits D r' t ∧ uncs D r t = uncs D r' t ∧ wgts D r t = wgts D r' t ∧ effs D r t = effs D r' t := by
  have := fun p => same_crossing (D p t) _ _ (h p)
  refine ⟨?_, ?_, ?_, ?_⟩ <;> funext k
  · simp only [hits, (this k.1).1, hN]
  · simp only [uncs, (this k.1).2.1]
  · simp only [wgts, (this k.1).2.1, (this k.1).2.2]
  · simp only [effs, (this k).2.2]

theorem frozen_crossing (D : Plane n n' → ℝ → Panel) (t0 : ℝ) (r : Ray n n') (p : Plane n n') (z : ℝ) : crossing ((r.frozen D t0).muon p) z = crossing (r.muon p) (D p t0).z := by
  simp only [Ray.frozen, followsHeight, Bool.false_eq_true, if_false, plumb_crossing]

theorem frozen_rest (D : Plane n n' → ℝ → Panel) (t0 : ℝ) (r : Ray n n') : (r.frozen D t0).noise = r.noise ∧ (r.frozen D t0).mom = r.mom := by
  simp [Ray.frozen, followsHeight]

/-- where the muon crosses the panels as it does at `t0` it is seen as it is -/
theorem frozen_same (D : Plane n n' → ℝ → Panel) (t0 t : ℝ) (r : Ray n n') (h : ∀ p, crossing (r.muon p) (D p t).z = crossing (r.muon p) (D p t0).z) :
    hits D (r.frozen D t0) t = hits D r t ∧ uncs D (r.frozen D t0) t = uncs D r t ∧ wgts D (r.frozen D t0) t = wgts D r t ∧ effs D (r.frozen D t0) t = effs D r t :=
  same_rays D _ _ t (frozen_rest D t0 r).1 fun p => by rw [frozen_crossing, h]

theorem frozen_seen (lw : ℝ × ℝ) (Φ : ℝ → ℝ) (size : ℝ) (low : ℝ × ℝ × ℝ) (D : Plane n n' → ℝ → Panel) (t0 t : ℝ) (r : Ray n n')
    (h : ∀ p, crossing (r.muon p) (D p t).z = crossing (r.muon p) (D p t0).z) (J) : seen lw Φ size low D (r.frozen D t0) J t = seen lw Φ size low D r J t := by
  obtain ⟨h1, h2, h3, h4⟩ := frozen_same D t0 t r h
  simp only [seen, told, h1, h2, h3, h4, (frozen_rest D t0 r).2]

theorem frozen_jacs (lw : ℝ × ℝ) (D : Plane n n' → ℝ → Panel) (t0 t : ℝ) (r : Ray n n') (h : ∀ p, crossing (r.muon p) (D p t).z = crossing (r.muon p) (D p t0).z) :
    jacs lw D (r.frozen D t0) t = jacs lw D r t := by
  obtain ⟨h1, h2, h3, h4⟩ := frozen_same D t0 t r h
  simp only [jacs, told, Told.jacs, h1, h3]

theorem frozen_batch (lw : ℝ × ℝ) (D : Plane n n' → ℝ → Panel) (t0 : ℝ) (rs : List (Ray n n')) (hB : Batch lw D t0 rs) : Batch lw D t0 (rs.map (Ray.frozen D t0)) where
  above := hB.above
  below := hB.below
  some := by simpa using hB.some
  moving := hB.moving
  eff := hB.eff
  clear r hr p := by
    obtain ⟨r, h0, rfl⟩ := List.mem_map.mp hr
    obtain ⟨h1, h2⟩ := hB.clear r h0 p
    constructor
    · rw [frozen_crossing]; exact h1
    · rw [frozen_crossing]; exact h2
  usable r hr := by
    obtain ⟨r, h0, rfl⟩ := List.mem_map.mp hr
    obtain ⟨h1, -, h3, -⟩ := frozen_same D t0 t0 r fun _ => rfl
    rw [h1, h3]
    exact hB.usable r h0
  mom r hr := by
    obtain ⟨r, h0, rfl⟩ := List.mem_map.mp hr
    rw [(frozen_rest D t0 r).2]
    exact hB.mom r h0

/-- the angles of a muon whose tracks are these -/
theorem angles (lw : ℝ × ℝ) (h : Coords 2 2) (w : Scaled 2 2) (hw : ∀ k, 0 < w k) (a b : ℝ) (ha : 0 < a) (hab : a < b) (h01 : h (.inl 1, 2) - h (.inl 0, 2) = -b) (h0' : h (.inl 1, 0) - h (.inl 0, 0) = a)
    (h0y : h (.inl 1, 1) - h (.inl 0, 1) = 0) (h1z : h (.inr 1, 2) - h (.inr 0, 2) = -1) (h1x : h (.inr 1, 0) - h (.inr 0, 0) = 1) (h1y : h (.inr 1, 1) - h (.inr 0, 1) = 0) :
    Fit le_rfl le_rfl h w ∧ value lw .scat (h, w) = π / 4 - arctan (a / b) ∧ value lw .thIn (h, w) = arctan (a / b) ∧ value lw .thOut (h, w) = π / 4 := by
  have e1 : (trk le_rfl Sum.inl h w).1 = (a, 0, -b) := by
    rw [trk_two Sum.inl h w (fun _ _ => hw _) (by intro h; linarith), h01, h0', h0y]
  have e2 : (trk le_rfl Sum.inr h w).1 = (1, 0, -1) := by
    rw [trk_two Sum.inr h w (fun _ _ => hw _) (by intro h; linarith), h1z, h1x, h1y]
  have hb : 0 < b := by linarith
  have hf : Fit le_rfl le_rfl h w := by
    refine ⟨hw, ?_, ?_, ?_, ?_, ?_⟩
    · show h (.inl 1, 2) < h (.inl 0, 2)
      linarith
    · show h (.inr 1, 2) < h (.inr 0, 2)
      linarith
    · rw [e1]; exact Or.inl ha.ne'
    · rw [e2]; exact Or.inl one_ne_zero
    · rw [e1, e2]
      rintro ⟨x, y, hxy, h⟩
      simp only [scale3, Prod.mk.injEq, mul_zero, mul_one, true_and] at h
      obtain ⟨h1, h3⟩ := h
      have hx : x * (b - a) = 0 := by linarith
      have hx0 : x = 0 := (mul_eq_zero.mp hx).resolve_right (by linarith)
      rcases hxy with h | h
      · exact h hx0
      · rw [hx0, zero_mul] at h1
        exact h h1.symm
  refine ⟨hf, ?_⟩
  obtain ⟨-, -, -, -, near⟩ := vars_cd lw le_rfl le_rfl (h, w) hf
  obtain ⟨-, -, h1, h2', h3⟩ := near.self_of_nhds
  simp only [e1, e2] at h1 h2' h3
  have hpi := pi_pos
  have a0 : 0 < arctan (a / b) := by
    have : arctan 0 < arctan (a / b) := arctan_strictMono (by positivity)
    simpa using this
  have a1 : arctan (a / b) < π / 4 := by
    have : arctan (a / b) < arctan 1 := arctan_strictMono (by rw [div_lt_one hb]; exact hab)
    simpa using this
  have q : sqrt (1 + (a / b) ^ 2) = sqrt (a ^ 2 + b ^ 2) / b := by
    rw [show 1 + (a / b) ^ 2 = (a ^ 2 + b ^ 2) / b ^ 2 by field_simp; ring, sqrt_div (by positivity), sqrt_sq hb.le]
  have p : 0 < sqrt (a ^ 2 + b ^ 2) := by positivity
  have c1 : cos (arctan (a / b)) = b / sqrt (a ^ 2 + b ^ 2) := by
    rw [cos_arctan, q]
    field_simp
  have s1 : sin (arctan (a / b)) = a / sqrt (a ^ 2 + b ^ 2) := by
    rw [sin_arctan, q]
    field_simp
  have r2 : sqrt 2 ^ 2 = 2 := sq_sqrt (by norm_num)
  have r2' : 0 < sqrt (2 : ℝ) := by positivity
  refine ⟨?_, ?_, ?_⟩
  · unfold thetaMsc at h1
    split at h1
    · exact absurd h1 (by simp)
    · simp only [Option.some.injEq] at h1
      rw [← h1, ← arccos_cos (x := π / 4 - arctan (a / b)) (by linarith) (by linarith), cos_sub, c1, s1, cos_pi_div_four, sin_pi_div_four]
      simp only [vdot, vnorm]
      congr 1
      rw [show a * a + 0 * 0 + -b * -b = a ^ 2 + b ^ 2 by ring, show (1 : ℝ) * 1 + 0 * 0 + -1 * -1 = 2 by norm_num]
      field_simp
      rw [r2]
      ring
  · rw [thetaOf_eq _ _ h2', ← arccos_cos (x := arctan (a / b)) (by linarith) (by linarith), c1]
    simp only [vdot, vnorm]
    congr 2
    · ring
    · congr 1
      ring
  · rw [thetaOf_eq _ _ h3, ← arccos_cos (x := π / 4) (by linarith) (by linarith), cos_pi_div_four]
    simp only [vdot, vnorm]
    congr 1
    rw [show (1 : ℝ) * 1 + 0 * 0 + -1 * -1 = 2 by norm_num]
    field_simp
    exact r2.symm

/-- A muon without noise that comes in along x = (3 - z) / 2 and leaves along x = -z. -/
def slanted : Ray 2 2 where
  muon
    | .inl _ => { x := 0, y := 0, z := 3, p := 1, th := arctan (1 / 2), ph := 0, id := 0 }
    | .inr _ => { x := 0, y := 0, z := 0, p := 1, th := arctan 1, ph := 0, id := 0 }
  noise _ := (0, 0)
  mom := 1

theorem slanted_crossing (z : ℝ) (k : Fin 2) : crossing (slanted.muon (.inl k)) z = ((3 - z) / 2, 0) ∧ crossing (slanted.muon (.inr k)) z = (-z, 0) := by
  constructor
  · simp only [crossing, slanted, tan_arctan, cos_zero, sin_zero]
    ring_nf
  · simp only [crossing, slanted, tan_arctan, cos_zero, sin_zero]
    ring_nf

theorem four_moving (p : Plane 2 2) : C111.Moving (four p) 0 := (four_batch (0, 0) [1] (by simp) (by norm_num)).moving p

/-- a panel of `four` sees what crosses it within a metre of its middle -/
theorem four_sees (p : Plane 2 2) (t x : ℝ) (hx : |x| ≤ 1) (m : Muon) (hq : crossing m (four p t).z = (x, 0)) : C111.Clear (four p t) m := by
  refine ⟨?_, Or.inl rfl⟩
  have hv : C23.Valid (four p t) := ⟨one_pos, one_pos, by simp [four, C109.around, Panel.scaledSpan], by simp [four, C109.around, Panel.scaledSpan], trivial⟩
  obtain ⟨a, b⟩ := C110.answer (four p t) hv.spanX hv.spanY (Or.inl rfl) (x, 0)
  have hr : 1e-10 < Panel.ratio .gauss 0 1 x := by
    simp only [Panel.ratio, Panel.gaussRatio_eq]
    have h1 : (-8 : ℝ) ≤ -((x - 0) ^ 2) / (2 * (1 / 4) ^ 2) := by
      have := abs_le.mp hx
      norm_num
      nlinarith
    have h2 : (1 / 2 : ℝ) ≤ exp (-1 / 2) := by have := add_one_le_exp (-1 / 2 : ℝ); linarith
    have h3 : exp (-8) = exp (-1 / 2) ^ 16 := by rw [← exp_nat_mul]; norm_num
    have h4 : (1 / 2 : ℝ) ^ 16 ≤ exp (-1 / 2) ^ 16 := by gcongr
    have h5 := exp_le_exp.mpr h1
    rw [h3] at h5
    refine lt_of_lt_of_le ?_ (h4.trans h5)
    norm_num
  have hy : Panel.ratio .gauss 0 1 0 = 1 := Panel.ratio_centre _ _ _ one_pos
  simp only [four, C109.around, Panel.scaledSpan, mul_one, hy, C110.effVal, one_mul] at a b
  exact ⟨(max (Panel.ratio .gauss 0 1 x) 1e-10, max 1 1e-10), Panel.ratio .gauss 0 1 x, by rw [hq]; exact a, by rw [hq]; exact b, lt_max_of_lt_left hr, lt_max_of_lt_left (by norm_num), hr⟩

/-- what the panels report of a muon without noise, wherever they are: where it crosses them -/
theorem four_exact (r : Ray 2 2) (hN : ∀ p, r.noise p = (0, 0)) (t : ℝ) :
    (∀ p, hits four r t (p, 0) = (crossing (r.muon p) (level p t)).1 ∧ hits four r t (p, 1) = (crossing (r.muon p) (level p t)).2 ∧ hits four r t (p, 2) = level p t) ∧ ∀ k, 0 < wgts four r t k := by
  have key : ∀ p, ∃ u v : ℝ, 0 < u ∧ 0 < v ∧ (four p t).recoX (r.noise p) (r.muon p) = (.num (crossing (r.muon p) (level p t)).1, .num (crossing (r.muon p) (level p t)).2, .num (level p t)) ∧
      scaleUnc ((four p t).uncX (r.muon p)) ((four p t).effX (r.muon p)) = (.num u, .num v, .num 0) := by
    intro p
    obtain ⟨a, b, u, v, hu, hv, h1, h2⟩ := C106.smooth_rows (four p t) (Or.inl rfl) one_pos (r.muon p)
    refine ⟨u, v, hu, hv, ?_, h2⟩
    rw [h1, hN]
    simp only [zero_div, add_zero]
    rfl
  refine ⟨fun p => ?_, ?_⟩
  · obtain ⟨u, v, -, -, h1, -⟩ := key p
    simp only [hits, h1, comp, num, and_self]
  · rintro ⟨p, c⟩
    obtain ⟨u, v, hu, hv, -, h2⟩ := key p
    fin_cases c
    · simp only [wgts, h2]; exact hu
    · simp only [wgts, h2]; exact hv

theorem slanted_hits (t : ℝ) : (∀ k, 0 < wgts four slanted t k) ∧ hits four slanted t (.inl 1, 2) - hits four slanted t (.inl 0, 2) = -(2 + t) ∧
    hits four slanted t (.inl 1, 0) - hits four slanted t (.inl 0, 0) = (2 + t) / 2 ∧ hits four slanted t (.inl 1, 1) - hits four slanted t (.inl 0, 1) = 0 ∧
    hits four slanted t (.inr 1, 2) - hits four slanted t (.inr 0, 2) = -1 ∧ hits four slanted t (.inr 1, 0) - hits four slanted t (.inr 0, 0) = 1 ∧
    hits four slanted t (.inr 1, 1) - hits four slanted t (.inr 0, 1) = 0 := by
  obtain ⟨h, w⟩ := four_exact slanted (fun _ => rfl) t
  refine ⟨w, ?_⟩
  simp only [h, (slanted_crossing _ _).1, (slanted_crossing _ _).2, level]
  exact ⟨by ring, by ring, by ring, by ring, by ring, by ring⟩

theorem frozen_hits (t : ℝ) : (∀ k, 0 < wgts four (slanted.frozen four 0) t k) ∧
    hits four (slanted.frozen four 0) t (.inl 1, 2) - hits four (slanted.frozen four 0) t (.inl 0, 2) = -(2 + t) ∧
    hits four (slanted.frozen four 0) t (.inl 1, 0) - hits four (slanted.frozen four 0) t (.inl 0, 0) = 1 ∧
    hits four (slanted.frozen four 0) t (.inl 1, 1) - hits four (slanted.frozen four 0) t (.inl 0, 1) = 0 ∧
    hits four (slanted.frozen four 0) t (.inr 1, 2) - hits four (slanted.frozen four 0) t (.inr 0, 2) = -1 ∧
    hits four (slanted.frozen four 0) t (.inr 1, 0) - hits four (slanted.frozen four 0) t (.inr 0, 0) = 1 ∧
    hits four (slanted.frozen four 0) t (.inr 1, 1) - hits four (slanted.frozen four 0) t (.inr 0, 1) = 0 := by
  obtain ⟨h, w⟩ := four_exact (slanted.frozen four 0) (fun _ => by rw [(frozen_rest four 0 slanted).1]; rfl) t
  refine ⟨w, ?_⟩
  have hz : ∀ p, (four p 0).z = level p 0 := fun _ => rfl
  simp only [h, frozen_crossing, hz, (slanted_crossing _ _).1, (slanted_crossing _ _).2, level]
  exact ⟨by ring, by ring, by ring, by ring, by ring, by ring⟩

theorem slanted_batch (lw : ℝ × ℝ) : Batch lw four 0 [slanted] where
  above := le_rfl
  below := le_rfl
  some := by simp
  moving := four_moving
  eff _ := le_rfl
  clear r hr p := by
    obtain rfl : r = slanted := by simpa using hr
    have hz : (four p 0).z = level p 0 := rfl
    rcases p with i | i
    · refine four_sees (.inl i) 0 ((3 - level (.inl i) 0) / 2) ?_ _ (by rw [hz, (slanted_crossing _ _).1])
      fin_cases i
      · show |(3 - (3 + (0 : ℝ))) / 2| ≤ 1
        norm_num
      · show |(3 - (1 : ℝ)) / 2| ≤ 1
        norm_num
    · refine four_sees (.inr i) 0 (-level (.inr i) 0) ?_ _ (by rw [hz, (slanted_crossing _ _).2])
      fin_cases i
      · show |-(0 : ℝ)| ≤ 1
        norm_num
      · show |-(-1 : ℝ)| ≤ 1
        norm_num
  usable r hr := by
    obtain rfl : r = slanted := by simpa using hr
    obtain ⟨w, a, b, c, d, e, f⟩ := slanted_hits 0
    have hf := (angles lw _ _ w _ _ (by norm_num) (by norm_num) a b c d e f).1
    refine ⟨_, _, trk_eq lw le_rfl Sum.inl _ _ (fun _ _ => w _) hf.above.ne', trk_eq lw le_rfl Sum.inr _ _ (fun _ _ => w _) hf.below.ne', ?_, ?_, hf.slantIn, hf.slantOut, hf.scatters⟩
    · exact sub_neg.mpr hf.above
    · exact sub_neg.mpr hf.below
  mom r hr := by
    obtain rfl : r = slanted := by simpa using hr
    exact one_pos

theorem shot_frozen (c : ℝ) : (shot c).frozen four 0 = shot c := by
  simp [Ray.frozen, followsHeight, plumb, shot, crossing, middle]

end C121

end

end Tomopt
