import Verif.Lemmas.ChainFrozen
import Verif.Spec.ChainMaps

/- Helper lemmas: panels and heat maps tell of muons in a differentiable way. -/
namespace Tomopt

noncomputable section
open Real Filter Topology Scatter Uncert Chain

namespace C130
open C121

variable {n n' : Nat}

theorem note_panel (p : Panel) (hp : (AnyPanel.panel p).CanRespond) (N : ℝ × ℝ) (m : Muon) :
    note (.panel p) N m "reco_xyz" = [(p.recoX N m).1, (p.recoX N m).2.1, (p.recoX N m).2.2] ∧ note (.panel p) N m "unc_xyz" = [(p.uncX m).1, (p.uncX m).2.1, (p.uncX m).2.2] ∧
    note (.panel p) N m "eff" = [p.effX m] := by
  have := fun var hv => tensorAt_panel p (fun _ => N) (⟨[m], [], [], []⟩ : Tomopt.Batch Row) hp var hv
  refine ⟨?_, ?_, ?_⟩
  · rw [note, this "reco_xyz" (by simp)]; rfl
  · rw [note, this "unc_xyz" (by simp)]; rfl
  · rw [note, this "eff" (by simp)]; rfl

theorem note_map (h : Heatmap) (m : Muon) (hT : h.training = true) (hr : 0 < h.res * h.gmm (crossing m h.z)) (N : ℝ × ℝ) :
    note (.heatmap h) N m "reco_xyz" = [.num ((crossing m h.z).1 + N.1 / (h.res * h.gmm (crossing m h.z))), .num ((crossing m h.z).2 + N.2 / (h.res * h.gmm (crossing m h.z))), .num h.z] ∧
    note (.heatmap h) N m "unc_xyz" = [.num (1 / (h.res * h.gmm (crossing m h.z))), .num (1 / (h.res * h.gmm (crossing m h.z))), .num 0] ∧
    note (.heatmap h) N m "eff" = [.num (h.eff * (min 1 (h.gmm (crossing m h.z)) * min 1 (h.gmm (crossing m h.z))))] := by
  have hc : h.continuous = true := by simp [Heatmap.continuous, hT]
  have hq : ((atHeight h.z m).x, (atHeight h.z m).y) = crossing m h.z := rfl
  have hx : (atHeight h.z m).x = (crossing m h.z).1 := rfl
  have hy : (atHeight h.z m).y = (crossing m h.z).2 := rfl
  refine ⟨?_, ?_, ?_⟩
  · simp only [note, AnyPanel.tensorAt, AnyPanel.getHits, AnyPanel.z, Heatmap.getHits, Dict.get?, Batch.atHeight, List.map_cons, List.map_nil, hq, hx, hy, Heatmap.resAt, hc, if_true, Heatmap.recoCoord, hT,
      Bool.not_true, Bool.false_and, Bool.false_eq_true, if_false, XF.quot, hr.ne', ne_eq, not_false_eq_true, XF.addR, String.reduceEq]
    simp only [List.cons.injEq, XF.num.injEq, and_true]
    exact ⟨by ring, by ring⟩
  · simp only [note, AnyPanel.tensorAt, AnyPanel.getHits, AnyPanel.z, Heatmap.getHits, Dict.get?, Batch.atHeight, List.map_cons, List.map_nil, hq, Heatmap.resAt, hc, if_true,
      XF.quot, hr.ne', ne_eq, not_false_eq_true, String.reduceEq, Bool.false_eq_true, if_false]
  · simp only [note, AnyPanel.tensorAt, AnyPanel.getHits, AnyPanel.z, Heatmap.getHits, Dict.get?, Batch.atHeight, List.map_cons, List.map_nil, hq, Heatmap.effAt, hc, if_true,
      String.reduceEq, Bool.false_eq_true, if_false]

/-- the response of a heat map at a place that moves -/
theorem response (H : ℝ → Heatmap) (t0 : ℝ) (hH : Adapts H t0) (q : ℝ → ℝ × ℝ) (dq : DifferentiableAt ℝ q t0) :
    ∃ g : ℝ → ℝ, DifferentiableAt ℝ g t0 ∧ 0 < g t0 ∧ ∀ᶠ t in 𝓝 t0, (H t).gmm (q t) = g t := by
  obtain ⟨l, r, c, hd, hw, hp, hs⟩ := hH.clusters
  have dv := C123.cover_diff q t0 dq _ hd hw
  have dc := C123.cover_diff c.1 t0 (hd c (by simp)).1 _ hd hw
  have hne : ∀ t, C123.atTime (l ++ c :: r) t ≠ [] := fun t => by simp [C123.atTime]
  have pq := C123.cover_pos _ (hne t0) hw (q t0)
  have pc := C123.cover_pos _ (hne t0) hw (c.1 t0)
  have pn := hH.norm.2
  have pv : 0 < (H t0).norm * (C123.cover (C123.atTime (l ++ c :: r) t0) (q t0) / C123.cover (C123.atTime (l ++ c :: r) t0) (c.1 t0)) := by positivity
  refine ⟨fun t => sqrt ((H t).norm * (C123.cover (C123.atTime (l ++ c :: r) t) (q t) / C123.cover (C123.atTime (l ++ c :: r) t) (c.1 t))),
    (hH.norm.1.fun_mul (dv.fun_div dc pc.ne')).sqrt pv.ne', sqrt_pos.mpr pv, ?_⟩
  filter_upwards [C123.highest_near l r c t0 hd hw hp, C123.wide_near t0 _ hd hw] with t h1 h2
  have e : H t = C123.withClusters (H t) (C123.atTime (l ++ c :: r) t) := by
    have a : (C123.atTime (l ++ c :: r) t).map (·.1) = (H t).mu := by rw [(hs t).1, C123.atTime, List.map_map]; rfl
    have b : (C123.atTime (l ++ c :: r) t).map (·.2) = (H t).sig := by rw [(hs t).2, C123.atTime, List.map_map]; rfl
    rw [C123.withClusters, a, b]
  rw [e, C123.gmm_eq (H t) _ h2 _ h1]
  rfl

theorem crossing_diff (m : Muon) (z : ℝ → ℝ) (t0 : ℝ) (dz : DifferentiableAt ℝ z t0) : DifferentiableAt ℝ (fun t => crossing m (z t)) t0 := by
  unfold crossing
  exact ((((dz.const_sub _).mul_const _).mul_const _).const_add _).prodMk ((((dz.const_sub _).mul_const _).mul_const _).const_add _)

/-- what a panel or heat map records of a muon -/
theorem learnt (P : ℝ → AnyPanel) (t0 : ℝ) (hP : Learns P t0) (m : Muon) (hc : Clear (P t0) m) (N : ℝ × ℝ) :
    ∃ x y r s e : ℝ → ℝ, DifferentiableAt ℝ x t0 ∧ DifferentiableAt ℝ y t0 ∧ DifferentiableAt ℝ (fun t => (P t).z) t0 ∧ DifferentiableAt ℝ r t0 ∧ DifferentiableAt ℝ s t0 ∧ DifferentiableAt ℝ e t0 ∧
      0 < r t0 ∧ 0 < s t0 ∧ 0 < e t0 ∧ e t0 ≤ 1 ∧
      ∀ᶠ t in 𝓝 t0, note (P t) N m "reco_xyz" = [.num (x t), .num (y t), .num (P t).z] ∧ note (P t) N m "unc_xyz" = [.num (r t), .num (s t), .num 0] ∧ note (P t) N m "eff" = [.num (e t)] := by
  cases hP with
  | panel Q _ hQ he =>
    obtain ⟨x, y, r, s, e, dx, dy, dr, ds, de, pr, ps, pe, le, near⟩ := C121.panel Q t0 hQ m hc N
    refine ⟨x, y, r, s, e, dx, dy, hQ.z, dr, ds, de, pr, ps, pe, le he, ?_⟩
    have dsx : DifferentiableAt ℝ (fun t => (Q t).scaledSpan.1) t0 := hQ.long.mul hQ.share
    have dsy : DifferentiableAt ℝ (fun t => (Q t).scaledSpan.2) t0 := hQ.wide.mul hQ.share
    filter_upwards [near, dsx.continuousAt.eventually (lt_mem_nhds hQ.valid.spanX), dsy.continuousAt.eventually (lt_mem_nhds hQ.valid.spanY)] with t ht h1 h2
    obtain ⟨a, b, c⟩ := note_panel (Q t) (fun _ _ => ⟨h1, h2⟩) N m
    rw [a, b, c, ht.1, ht.2.1, ht.2.2]
    exact ⟨rfl, rfl, rfl⟩
  | heatmap Q _ hQ =>
    have dq := crossing_diff m _ t0 hQ.z
    obtain ⟨g, dg, pg, near⟩ := response Q t0 hQ _ dq
    have hne : g t0 ≠ 1 := by rw [← near.self_of_nhds]; exact hc
    have pr : 0 < (Q t0).res * g t0 := mul_pos hQ.res pg
    have dr : DifferentiableAt ℝ (fun t => (Q t0).res * g t) t0 := dg.const_mul _
    have dm : DifferentiableAt ℝ (fun t => min 1 (g t)) t0 := by
      rcases lt_or_gt_of_ne hne with h3 | h3
      · refine dg.congr_of_eventuallyEq ?_
        filter_upwards [dg.continuousAt.eventually (gt_mem_nhds h3)] with t ht
        exact min_eq_right ht.le
      · refine (differentiableAt_const (1 : ℝ)).congr_of_eventuallyEq ?_
        filter_upwards [dg.continuousAt.eventually (lt_mem_nhds h3)] with t ht
        exact min_eq_left ht.le
    have pm : 0 < min 1 (g t0) := lt_min one_pos pg
    refine ⟨fun t => (crossing m (Q t).z).1 + N.1 / ((Q t0).res * g t), fun t => (crossing m (Q t).z).2 + N.2 / ((Q t0).res * g t), fun t => 1 / ((Q t0).res * g t), fun t => 1 / ((Q t0).res * g t),
      fun t => (Q t0).eff * (min 1 (g t) * min 1 (g t)), dq.fst.fun_add ((differentiableAt_const _).fun_div dr pr.ne'), dq.snd.fun_add ((differentiableAt_const _).fun_div dr pr.ne'), hQ.z,
      (differentiableAt_const _).fun_div dr pr.ne', (differentiableAt_const _).fun_div dr pr.ne', (dm.fun_mul dm).const_mul _, div_pos one_pos pr, div_pos one_pos pr,
      mul_pos hQ.eff.1 (mul_pos pm pm), mul_le_one₀ hQ.eff.2 (mul_pos pm pm).le (mul_le_one₀ (min_le_left _ _) pm.le (min_le_left _ _)), ?_⟩
    filter_upwards [near, dg.continuousAt.eventually (lt_mem_nhds pg)] with t ht hg
    obtain ⟨e1, e2, e3⟩ := hQ.same t
    have hr : 0 < (Q t).res * (Q t).gmm (crossing m (Q t).z) := by rw [e1, ht]; exact mul_pos hQ.res hg
    have := note_map (Q t) m e3 hr N
    rw [ht, e1, e2] at this
    exact this

/-- so a muon of a batch can be learnt from -/
theorem telling (lw : ℝ × ℝ) (D : Plane n n' → ℝ → AnyPanel) (t0 : ℝ) (rs : List (Ray n n')) (hB : Batch lw D t0 rs) (r : Ray n n') (hr : r ∈ rs) : Telling lw (told D r) t0 := by
  choose x y u v e dx dy dz du dv de pu pv pe le hev using fun p => learnt (D p) t0 (hB.learns p) (r.muon p) (hB.clear r hr p) (r.noise p)
  have pe' := fun p => (de p).continuousAt.eventually (lt_mem_nhds (pe p))
  have hh : ∀ p, (fun t => (told D r t).hit (p, 0)) =ᶠ[𝓝 t0] x p ∧ (fun t => (told D r t).hit (p, 1)) =ᶠ[𝓝 t0] y p ∧ (fun t => (told D r t).hit (p, 2)) =ᶠ[𝓝 t0] fun t => (D p t).z := by
    intro p
    refine ⟨?_, ?_, ?_⟩ <;> filter_upwards [hev p] with t ht <;> simp only [told, entry, ht.1] <;> rfl
  have hu : ∀ p, (fun t => (told D r t).unc (p, 0)) =ᶠ[𝓝 t0] u p ∧ (fun t => (told D r t).unc (p, 1)) =ᶠ[𝓝 t0] v p ∧ (fun t => (told D r t).unc (p, 2)) =ᶠ[𝓝 t0] fun _ => 0 := by
    intro p
    refine ⟨?_, ?_, ?_⟩ <;> filter_upwards [hev p] with t ht <;> simp only [told, entry, ht.2.1] <;> rfl
  have hw : ∀ p, (fun t => (told D r t).wgt (p, 0)) =ᶠ[𝓝 t0] (fun t => u p t / e p t) ∧ (fun t => (told D r t).wgt (p, 1)) =ᶠ[𝓝 t0] fun t => v p t / e p t := by
    intro p
    refine ⟨?_, ?_⟩ <;> filter_upwards [hev p, pe' p] with t ht hp <;> simp only [told, entry, ht.2.1, ht.2.2]
    · show num (XF.div (.num (u p t)) (.num (e p t))) = _
      simp only [XF.div, XF.quot, ne_eq, hp.ne', not_false_eq_true, if_true, num]
    · show num (XF.div (.num (v p t)) (.num (e p t))) = _
      simp only [XF.div, XF.quot, ne_eq, hp.ne', not_false_eq_true, if_true, num]
  have he : ∀ p, (fun t => (told D r t).eff p) =ᶠ[𝓝 t0] e p := by
    intro p
    filter_upwards [hev p] with t ht
    simp only [told, entry, ht.2.2]
    rfl
  refine ⟨hB.above, hB.below, ?_, ?_, ?_, ?_, ?_, ?_, ?_, ?_, hB.usable r hr⟩
  · rintro ⟨p, c⟩
    fin_cases c
    · exact (dx p).congr_of_eventuallyEq (hh p).1
    · exact (dy p).congr_of_eventuallyEq (hh p).2.1
    · exact (dz p).congr_of_eventuallyEq (hh p).2.2
  · rintro ⟨p, c⟩
    fin_cases c
    · exact (du p).congr_of_eventuallyEq (hu p).1
    · exact (dv p).congr_of_eventuallyEq (hu p).2.1
    · exact (differentiableAt_const _).congr_of_eventuallyEq (hu p).2.2
  · rintro ⟨p, c⟩
    fin_cases c
    · exact ((du p).div (de p) (pe p).ne').congr_of_eventuallyEq (hw p).1
    · exact ((dv p).div (de p) (pe p).ne').congr_of_eventuallyEq (hw p).2
  · exact fun p => (de p).congr_of_eventuallyEq (he p)
  · rintro ⟨p, c⟩
    fin_cases c
    · exact (hw p).1.eq_of_nhds ▸ div_pos (pu p) (pe p)
    · exact (hw p).2.eq_of_nhds ▸ div_pos (pv p) (pe p)
  · rintro ⟨p, c⟩ hc
    fin_cases c
    · exact (hu p).1.eq_of_nhds ▸ pu p
    · exact (hu p).2.1.eq_of_nhds ▸ pv p
    · exact absurd rfl hc
  · exact fun p => (he p).eq_of_nhds ▸ pe p
  · exact fun p => (he p).eq_of_nhds ▸ le p

/-- the cost of a heat map -/
theorem sizes_diff (t0 : ℝ) : ∀ cs : List C123.Moving, (∀ c ∈ cs, DifferentiableAt ℝ c.1 t0 ∧ DifferentiableAt ℝ c.2 t0) → DifferentiableAt ℝ (fun t => ((cs.map fun x => x.2 t).map fun s => s.1 * s.2).sum) t0
  | [], _ => by simp
  | c :: cs, h => by
    simp only [List.map_cons, List.sum_cons]
    exact ((h c (by simp)).2.fst.fun_mul (h c (by simp)).2.snd).fun_add (sizes_diff t0 cs fun d hd => h d (by simp [hd]))

/-! ### What automatic differentiation sees -/

theorem frozen_crossing (D : Plane n n' → ℝ → AnyPanel) (t0 : ℝ) (r : Ray n n') (p : Plane n n') (z : ℝ) : crossing ((frozen D t0 r).muon p) z = crossing (r.muon p) (D p t0).z := by
  simp only [frozen, followsHeight, Bool.false_eq_true, if_false, plumb_crossing]

theorem frozen_rest (D : Plane n n' → ℝ → AnyPanel) (t0 : ℝ) (r : Ray n n') : (frozen D t0 r).noise = r.noise ∧ (frozen D t0 r).mom = r.mom := by
  simp [frozen, followsHeight]

/-- what is recorded of a muon depends on where it crosses -/
theorem note_congr (P : AnyPanel) (N : ℝ × ℝ) (m m' : Muon) (h : crossing m P.z = crossing m' P.z) (var : String) : note P N m var = note P N m' var := by
  have hx : (atHeight P.z m).x = (atHeight P.z m').x := congrArg Prod.fst h
  have hy : (atHeight P.z m).y = (atHeight P.z m').y := congrArg Prod.snd h
  cases P with
  | panel p =>
    simp only [AnyPanel.z] at hx hy
    simp only [note, AnyPanel.tensorAt, AnyPanel.getHits, AnyPanel.z, Panel.getHits, Batch.atHeight, List.map_cons, List.map_nil, Batch.inWindow, hx, hy]
  | heatmap p =>
    simp only [AnyPanel.z] at hx hy
    simp only [note, AnyPanel.tensorAt, AnyPanel.getHits, AnyPanel.z, Heatmap.getHits, Batch.atHeight, List.map_cons, List.map_nil, Batch.inWindow, hx, hy]

theorem frozen_told (D : Plane n n' → ℝ → AnyPanel) (t0 t : ℝ) (r : Ray n n') (h : ∀ p, crossing (r.muon p) (D p t).z = crossing (r.muon p) (D p t0).z) : told D (frozen D t0 r) t = told D r t := by
  have := fun p var => note_congr (D p t) (r.noise p) ((frozen D t0 r).muon p) (r.muon p) (by rw [frozen_crossing, h]) var
  simp only [told, entry, (frozen_rest D t0 r).1, this]

theorem frozen_batch (lw : ℝ × ℝ) (D : Plane n n' → ℝ → AnyPanel) (t0 : ℝ) (rs : List (Ray n n')) (hB : Batch lw D t0 rs) : Batch lw D t0 (rs.map (frozen D t0)) where
  above := hB.above
  below := hB.below
  some := by simpa using hB.some
  learns := hB.learns
  clear r hr p := by
    obtain ⟨r, h0, rfl⟩ := List.mem_map.mp hr
    have h1 := hB.clear r h0 p
    have h2 := frozen_crossing D t0 r p
    revert h1 h2
    cases D p t0 with
    | panel q =>
      rintro ⟨h1, h3⟩ h2
      constructor
      · rw [h2]; exact h1
      · rw [h2]; exact h3
    | heatmap q =>
      intro h1 h2
      show q.gmm _ ≠ 1
      rw [h2]
      exact h1
  usable r hr := by
    obtain ⟨r, h0, rfl⟩ := List.mem_map.mp hr
    rw [frozen_told D t0 t0 r fun _ => rfl]
    exact hB.usable r h0
  mom r hr := by
    obtain ⟨r, h0, rfl⟩ := List.mem_map.mp hr
    rw [(frozen_rest D t0 r).2]
    exact hB.mom r h0

end C130

end

end Tomopt
