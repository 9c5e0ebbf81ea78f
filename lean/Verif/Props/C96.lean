import Verif.Props.C69

/- C96: the hits of heat-map detectors. -/
namespace Tomopt

noncomputable section

open Real

namespace C96

/-- A heat map with clusters, positive widths and scale, and a positive nominal resolution. -/
structure Proper (h : Heatmap) : Prop where
  res : 0 < h.res
  norm : 0 < h.norm
  clusters : h.mu ≠ []
  same : h.mu.length = h.sig.length

/-- The range a heat map covers in realistic validation, as its window: 1.2 times the spread of the clusters on each side of its centre. -/
def Covered (h : Heatmap) (q : ℝ × ℝ) : Prop :=
  h.xyFix.1 - 1.2 * h.deltaXy ≤ q.1 ∧ q.1 < h.xyFix.1 + 1.2 * h.deltaXy ∧ h.xyFix.2 - 1.2 * h.deltaXy ≤ q.2 ∧ q.2 < h.xyFix.2 + 1.2 * h.deltaXy

theorem gmm_pos (h : Heatmap) (hp : Proper h) (q : ℝ × ℝ) : 0 < h.gmm q := sqrt_pos.mpr (mul_pos hp.norm (exp_pos _))

theorem window (h : Heatmap) (m : Muon) : Batch.inWindow (some (h.xyFix.1 - rangeMult * h.deltaXy, h.xyFix.2 - rangeMult * h.deltaXy))
    (some (h.xyFix.1 + rangeMult * h.deltaXy, h.xyFix.2 + rangeMult * h.deltaXy)) m = true ↔ Covered h (m.x, m.y) := by
  simp only [Batch.inWindow, and_assoc, Bool.and_eq_true, decide_eq_true_eq, ge_iff_le]
  rfl

/-- **C96, training** (and validation that is not realistic). For every batch and noise, each hit is at the detector's height, displaced along both axes by the noise divided by the
resolution of the detector at that point, its uncertainties are the reciprocals, and its efficiency that of the detector there. The resolution is positive everywhere: every muon leaves
a hit. -/
theorem hits_training (h : Heatmap) (hp : Proper h) (hm : h.training = true ∨ h.realistic = false) (noise : Nat → ℝ × ℝ) (b : Batch Row) :
    ∃ reco gen unc eff, h.getHits noise b = [("reco_xyz", reco), ("gen_xyz", gen), ("unc_xyz", unc), ("eff", eff)] ∧
      ∀ (i : Nat) (m : Muon), b.muons[i]? = some m → ∃ r, 0 < r ∧ (∀ inside, h.resAt (m.x, m.y) inside = (r, r)) ∧
        gen[i]? = some [.num m.x, .num m.y, .num h.z] ∧
        reco[i]? = some [.num (m.x + (noise m.id).1 / r), .num (m.y + (noise m.id).2 / r), .num h.z] ∧
        unc[i]? = some [.num (1 / r), .num (1 / r), .num 0] ∧
        eff[i]? = some [.num (h.eff * min 1 (r / h.res) ^ 2)] := by
  have hc : h.continuous = true := by
    unfold Heatmap.continuous; rcases hm with h | h <;> simp [h]
  have hcl : (!h.training && h.realistic) = false := by rcases hm with h | h <;> simp [h]
  refine ⟨_, _, _, _, rfl, ?_⟩
  intro i m hi
  have hr : 0 < h.res * h.gmm (m.x, m.y) := mul_pos hp.res (gmm_pos h hp _)
  refine ⟨h.res * h.gmm (m.x, m.y), hr, ?_, ?_, ?_, ?_, ?_⟩
  · intro inside
    simp only [Heatmap.resAt, if_pos hc]
  · simp [hi]
  · simp only [List.getElem?_map, hi, Option.map_some, Heatmap.resAt, if_pos hc, Heatmap.recoCoord, hcl, Bool.false_and, Bool.false_eq_true, if_false, XF.quot,
      ne_eq, hr.ne', not_false_eq_true, if_true, XF.addR, Option.some.injEq, List.cons.injEq, XF.num.injEq, and_true]
    constructor <;> ring
  · simp only [List.getElem?_map, hi, Option.map_some, Heatmap.resAt, if_pos hc, XF.quot, ne_eq, hr.ne', not_false_eq_true, if_true]
  · simp only [List.getElem?_map, hi, Option.map_some, Heatmap.effAt, if_pos hc, Option.some.injEq, List.cons.injEq, XF.num.injEq, and_true]
    rw [mul_div_cancel_left₀ _ hp.res.ne', sq]

/-- **C96, realistic validation.** A covered muon leaves a hit at the detector's height with the nominal uncertainty and efficiency, which lies in the box that starts half the spread
below the centre and has the detector's two spans as sides; a muon that is not covered has infinite uncertainty, no efficiency and no position. -/
theorem hits_realistic (h : Heatmap) (hp : Proper h) (ht : h.training = false) (hr : h.realistic = true) (noise : Nat → ℝ × ℝ) (b : Batch Row) :
    ∃ reco gen unc eff, h.getHits noise b = [("reco_xyz", reco), ("gen_xyz", gen), ("unc_xyz", unc), ("eff", eff)] ∧
      ∀ (i : Nat) (m : Muon), b.muons[i]? = some m →
        gen[i]? = some [.num m.x, .num m.y, .num h.z] ∧
        (Covered h (m.x, m.y) → reco[i]? = some [.num (h.xyFix.1 - h.deltaXy / 2 + clampR (m.x - (h.xyFix.1 - h.deltaXy / 2) + (noise m.id).1 / h.res) 0 h.xySpanFix.1),
            .num (h.xyFix.2 - h.deltaXy / 2 + clampR (m.y - (h.xyFix.2 - h.deltaXy / 2) + (noise m.id).2 / h.res) 0 h.xySpanFix.2), .num h.z] ∧
          unc[i]? = some [.num (1 / h.res), .num (1 / h.res), .num 0] ∧ eff[i]? = some [.num h.eff]) ∧
        (¬ Covered h (m.x, m.y) → (∃ x y, reco[i]? = some [x, y, .num h.z] ∧ x.isFinite = false ∧ y.isFinite = false) ∧
          unc[i]? = some [.pinf, .pinf, .num 0] ∧ eff[i]? = some [.num 0]) := by
  have hc : h.continuous = false := by simp [Heatmap.continuous, ht, hr]
  have hres := hp.res
  refine ⟨_, _, _, _, rfl, ?_⟩
  intro i m hi
  refine ⟨by simp [hi], ?_, ?_⟩
  · intro ho
    have hw := (window h m).mpr ho
    refine ⟨?_, ?_, ?_⟩
    · simp only [List.getElem?_map, hi, Option.map_some, hw]
      simp only [Heatmap.resAt, hc, Heatmap.recoCoord, ht, hr, XF.quot, hres.ne', ne_eq, not_false_eq_true, if_true,
        Bool.false_eq_true, if_false, XF.addR, XF.clamp, Bool.not_false, Bool.and_self]
      rfl
    · simp [hi, hw, Heatmap.resAt, hc, XF.quot, hres.ne']
    · simp [hi, hw, Heatmap.effAt, hc]
  · intro ho
    have hw : Batch.inWindow (some (h.xyFix.1 - rangeMult * h.deltaXy, h.xyFix.2 - rangeMult * h.deltaXy))
        (some (h.xyFix.1 + rangeMult * h.deltaXy, h.xyFix.2 + rangeMult * h.deltaXy)) m = false := by
      cases hx : Batch.inWindow (some (h.xyFix.1 - rangeMult * h.deltaXy, h.xyFix.2 - rangeMult * h.deltaXy))
        (some (h.xyFix.1 + rangeMult * h.deltaXy, h.xyFix.2 + rangeMult * h.deltaXy)) m with
      | true => exact absurd ((window h m).mp hx) ho
      | false => rfl
    have hq : ∀ a n c : ℝ, (XF.addR a (XF.addR n (XF.quot c 0))).isFinite = false := by
      intro a n c
      unfold XF.quot
      simp only [ne_eq, not_true_eq_false, if_false]
      split_ifs <;> rfl
    refine ⟨?_, ?_, ?_⟩
    · simp only [List.getElem?_map, hi, Option.map_some, hw]
      simp only [Heatmap.resAt, hc, Heatmap.recoCoord, Bool.and_false, Bool.false_eq_true, if_false]
      exact ⟨_, _, rfl, hq _ _ _, hq _ _ _⟩
    · simp [hi, hw, Heatmap.resAt, hc, XF.quot]
    · simp [hi, hw, Heatmap.effAt, hc]

/-- **C96 (violated): covered muons are moved without noise.** In every heat map with a positive spread and a non-negative larger span, a covered muon is reported at least half the
spread from where it was, with no noise at all and the nominal uncertainty: the covered range does not fit into the box hits are forced into. -/
theorem moved_violated (h : Heatmap) (hp : Proper h) (ht : h.training = false) (hr : h.realistic = true) (hd : 0 < h.deltaXy) (hs : 0 ≤ h.xySpanFix.2) (m : Muon)
    (hm : m.x = h.xyFix.1 - h.deltaXy ∧ m.y = h.xyFix.2 - h.deltaXy) :
    Covered h (m.x, m.y) ∧ ∃ reco gen unc eff x y, h.getHits (fun _ => (0, 0)) ⟨[m], [], [], []⟩ = [("reco_xyz", reco), ("gen_xyz", gen), ("unc_xyz", unc), ("eff", eff)] ∧
      reco = [[.num x, .num y, .num h.z]] ∧ unc = [[.num (1 / h.res), .num (1 / h.res), .num 0]] ∧ y = m.y + h.deltaXy / 2 := by
  have hcov : Covered h (m.x, m.y) := by
    refine ⟨?_, ?_, ?_, ?_⟩ <;> simp only [hm.1, hm.2] <;> linarith
  refine ⟨hcov, ?_⟩
  obtain ⟨reco, gen, unc, eff, hh, hall⟩ := hits_realistic h hp ht hr (fun _ => (0, 0)) ⟨[m], [], [], []⟩
  obtain ⟨_, h1, _⟩ := hall 0 m rfl
  obtain ⟨r1, u1, _⟩ := h1 hcov
  have hlr : reco.length = 1 ∧ unc.length = 1 := by
    simp only [Heatmap.getHits, List.map_cons, List.map_nil, List.cons.injEq, Prod.mk.injEq, true_and, and_true] at hh
    obtain ⟨a, _, c, _⟩ := hh
    rw [← a, ← c]
    exact ⟨rfl, rfl⟩
  have one : ∀ {β : Type} (l : List β) (x : β), l.length = 1 → l[0]? = some x → l = [x] := by
    intro β l x hl hx
    match l, hl with
    | [a], _ => simp at hx; rw [hx]
  refine ⟨reco, gen, unc, eff, _, _, hh, one _ _ hlr.1 r1, one _ _ hlr.2 u1, ?_⟩
  rw [hm.2]
  have : clampR (h.xyFix.2 - h.deltaXy - (h.xyFix.2 - h.deltaXy / 2) + 0 / h.res) 0 h.xySpanFix.2 = 0 := by
    rw [zero_div, add_zero]
    unfold clampR
    rw [max_eq_right (by linarith), min_eq_left hs]
  simp only [this]
  ring

/-- every heat map that can be made is proper and has a positive spread -/
theorem made_proper (res eff : ℝ) (xyz : ℝ × ℝ × ℝ) (span : ℝ × ℝ) (m2 : ℝ) (budget : Option ℝ) (real : Bool) (um us : List (ℝ × ℝ)) (hn : um.length = us.length) (hu : us ≠ [])
    (h : Heatmap) (hm : Heatmap.make res eff xyz span m2 budget real um us = .ok h) : Proper h ∧ 0 < h.deltaXy := by
  unfold Heatmap.make at hm
  split at hm
  · cases hm
  · rename_i hr
    split at hm
    · cases hm
    · simp only at hm
      generalize (if span.2 < span.1 then (span.2, span.1) else span) = sp at hm
      split at hm
      · rename_i hall
        cases budget with
        | some x => cases hm
        | none =>
          simp only [Except.ok.injEq] at hm
          subst hm
          refine ⟨⟨not_le.mp hr, one_pos, ?_, ?_⟩, ?_⟩
          · intro h0
            simp only [Heatmap.initMu, List.map_eq_nil_iff] at h0
            subst h0
            simp only [List.length_nil] at hn
            exact hu (List.length_eq_zero_iff.mp hn.symm)
          · simp [Heatmap.initMu, Heatmap.initSig, hn]
          · cases us with
            | nil => exact absurd rfl hu
            | cons u us =>
              simp only [Heatmap.initSig, List.map_cons, List.all_cons, Bool.and_eq_true, decide_eq_true_eq] at hall
              obtain ⟨⟨h1, _⟩, _⟩ := hall
              exact (pos_iff_pos_of_mul_pos h1).mpr (lt_max_of_lt_right (by norm_num))
      · cases hm

example : Proper (C69.hm (0, 0) 1 [(-1, 0), (1, 0)] [(2, 1), (2, 1)] 1) := ⟨by norm_num [C69.hm], by norm_num [C69.hm], by simp [C69.hm], by simp [C69.hm]⟩

end C96

end

end Tomopt
