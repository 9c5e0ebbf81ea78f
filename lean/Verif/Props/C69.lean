import Verif.Props.C22_25

/- C69: limits and response of heat-map detectors. -/
namespace Tomopt

noncomputable section
open Real

namespace C69

/-- the limits `conform_detector` uses for the centres of a heat map -/
def lowLim (h : Heatmap) : ℝ := max 0 (h.xyFix.1 - rangeMult * h.deltaXy)
def highLim (D : DetLayer) (h : Heatmap) : ℝ := min D.lw.1 (h.xyFix.2 + rangeMult * h.deltaXy)

/-- A layer with a single heat map. -/
def single (lw : ℝ × ℝ) (z size : ℝ) (h : Heatmap) : DetLayer := ⟨"above", lw, z, size, [.heatmap h]⟩

/-- **C69, what holds.** After conforming, height and scale are within their limits, all widths are between 0 and 1.2 times the layer width, and if the
limits are ordered every centre is between 0 and the layer's *length* in both coordinates. Missing: the second coordinate within the layer's width, and
the case of limits in the wrong order (violated below). -/
theorem conform_partial (lw : ℝ × ℝ) (z size : ℝ) (h : Heatmap) (eps : Nat → ℝ) (hy : 0 ≤ lw.2) (he : 0 ≤ eps 0 ∧ eps 0 < 1e-3) (hs : 2e-3 ≤ size)
    (hl : lowLim h ≤ highLim (single lw z size h) h) :
    ∃ h', ((single lw z size h).conform eps).panels = [.heatmap h'] ∧ z - size ≤ h'.z ∧ h'.z ≤ z ∧ 0.01 ≤ h'.norm ∧ h'.norm ≤ 1.5 ∧
      (∀ m ∈ h'.mu, 0 ≤ m.1 ∧ m.1 ≤ lw.1 ∧ 0 ≤ m.2 ∧ m.2 ≤ lw.1) ∧ (∀ s ∈ h'.sig, 0 ≤ s.1 ∧ s.1 ≤ 1.2 * lw.2 ∧ 0 ≤ s.2 ∧ s.2 ≤ 1.2 * lw.2) := by
  have hsig : ∀ x : ℝ, 0 ≤ clampR x (0 / rangeMult) (rangeMult * lw.2) ∧ clampR x (0 / rangeMult) (rangeMult * lw.2) ≤ 1.2 * lw.2 := by
    intro x
    have := C22.clamp_mem x (0 / rangeMult) (rangeMult * lw.2) (by unfold rangeMult; simp; linarith)
    simpa [rangeMult] using this
  have hmu : ∀ x : ℝ, 0 ≤ clampR x (lowLim h) (highLim (single lw z size h) h) ∧ clampR x (lowLim h) (highLim (single lw z size h) h) ≤ lw.1 := by
    intro x
    have h1 := C22.clamp_mem x _ _ hl
    exact ⟨le_trans (le_max_left _ _) h1.1, le_trans h1.2 (min_le_left _ _)⟩
  refine ⟨h.clampParams (eps 0) (lowLim h, 0, z - size) (highLim (single lw z size h) h, lw.2, z), rfl, ?_, ?_, ?_, ?_, ?_, ?_⟩
  · have := (C22.clamp_mem h.z (z - size + eps 0) (z - eps 0) (by linarith)).1
    simp only [Heatmap.clampParams]; linarith
  · have := (C22.clamp_mem h.z (z - size + eps 0) (z - eps 0) (by linarith)).2
    simp only [Heatmap.clampParams]; linarith
  · exact (C22.clamp_mem h.norm 0.01 1.5 (by norm_num)).1
  · exact (C22.clamp_mem h.norm 0.01 1.5 (by norm_num)).2
  · intro m hm
    simp only [Heatmap.clampParams, List.mem_map] at hm
    obtain ⟨m, _, rfl⟩ := hm
    exact ⟨(hmu m.1).1, (hmu m.1).2, (hmu m.2).1, (hmu m.2).2⟩
  · intro s hs
    simp only [Heatmap.clampParams, List.mem_map] at hs
    obtain ⟨s, _, rfl⟩ := hs
    exact ⟨(hsig s.1).1, (hsig s.1).2, (hsig s.2).1, (hsig s.2).2⟩

/-- a heat map of one cluster -/
def hm (xy : ℝ × ℝ) (d : ℝ) (mu : List (ℝ × ℝ)) (sig : List (ℝ × ℝ)) (norm : ℝ) : Heatmap :=
  ⟨1000, 1, 1, xy, (0, d), d, mu, sig, norm, 0.5, false, true⟩

/-- **C69 (violated): footprint.** In a layer 2 m by 1 m a centre at y = 1.5 m is left there. -/
theorem outside_footprint_violated :
    ∃ h', ((single (2, 1) 1 1 (hm (1, 0.5) 1 [(1, 1.5)] [(0.5, 0.5)] 1)).conform fun _ => 0).panels = [.heatmap h'] ∧ h'.mu = [(1, 1.5)] := by
  refine ⟨_, rfl, ?_⟩
  simp [Heatmap.clampParams, clampR, hm, rangeMult, single]
  norm_num

/-- **C69 (violated): collapse.** The limits mix the x coordinate of the detector with its y coordinate: in a layer 1 m by 1 m, a detector at (0.9, 0.1)
with clusters spread over 0.1 m has *all* centres moved to (0.22, 0.22), wherever they were. -/
theorem collapse_violated (mu sig : List (ℝ × ℝ)) :
    ∃ h', ((single (1, 1) 1 1 (hm (0.9, 0.1) 0.1 mu sig 1)).conform fun _ => 0).panels = [.heatmap h'] ∧ h'.mu = mu.map fun _ => (0.22, 0.22) := by
  refine ⟨_, rfl, ?_⟩
  simp only [Heatmap.clampParams, hm, single, clampR, rangeMult]
  apply List.map_congr_left
  intro m _
  have h1 : max (0:ℝ) (0.9 - 1.2 * 0.1) = 0.78 := by norm_num
  have h2 : min (1:ℝ) (0.1 + 1.2 * 0.1) = 0.22 := by norm_num
  rw [h1, h2]
  have : ∀ x : ℝ, min (max x 0.78) 0.22 = 0.22 := fun x => min_eq_right (le_trans (by norm_num) (le_max_right _ _))
  rw [this, this]

/-- The efficiency never exceeds the nominal one and is never negative. -/
theorem efficiency_bounds (h : Heatmap) (he : 0 ≤ h.eff) (q : ℝ × ℝ) (inside : Bool) : 0 ≤ h.effAt q inside ∧ h.effAt q inside ≤ h.eff := by
  unfold Heatmap.effAt
  split
  · have h0 : 0 ≤ min 1 (h.gmm q) := le_min zero_le_one (sqrt_nonneg _)
    have h1 : min 1 (h.gmm q) ≤ 1 := min_le_left _ _
    exact ⟨mul_nonneg he (mul_nonneg h0 h0), mul_le_of_le_one_right he (mul_le_one₀ h1 h0 h1)⟩
  · split
    · exact ⟨he, le_refl _⟩
    · exact ⟨le_refl _, he⟩

/-- **C69 (violated): resolution above nominal.** With two overlapping clusters of a fresh detector (scale 1) the resolution half-way between the centres
exceeds the nominal one: the response is normalised to the largest density at a *centre*, not to the largest density. -/
theorem resolution_violated :
    let h := hm (0, 0) 1 [(-1, 0), (1, 0)] [(2, 1), (2, 1)] 1
    h.res < (h.resAt (0, 0) true).1 := by
  simp only
  have hd : ∀ x : ℝ, (hm (0, 0) 1 [(-1, 0), (1, 0)] [(2, 1), (2, 1)] 1).density (x, 0) =
      (exp (-(x + 1) ^ 2 / 8) + exp (-(x - 1) ^ 2 / 8)) / 2 * (exp (-log 2 - log (sqrt (2 * π))) * exp (- log 1 - log (sqrt (2 * π)))) := by
    intro x
    simp only [Heatmap.density, hm, List.zip_cons_cons, List.zip_nil_right, List.map_cons, List.map_nil, List.sum_cons, List.sum_nil, Panel.normalLogProb,
      List.length_cons, List.length_nil]
    have e1 : -(x - -1) ^ 2 / (2 * 2 ^ 2) - log 2 - log (sqrt (2 * π)) + (-(0 - 0) ^ 2 / (2 * 1 ^ 2) - log 1 - log (sqrt (2 * π))) =
        -(x + 1) ^ 2 / 8 + ((-log 2 - log (sqrt (2 * π))) + (-log 1 - log (sqrt (2 * π)))) := by ring
    have e2 : -(x - 1) ^ 2 / (2 * 2 ^ 2) - log 2 - log (sqrt (2 * π)) + (-(0 - 0) ^ 2 / (2 * 1 ^ 2) - log 1 - log (sqrt (2 * π))) =
        -(x - 1) ^ 2 / 8 + ((-log 2 - log (sqrt (2 * π))) + (-log 1 - log (sqrt (2 * π)))) := by ring
    rw [e1, e2, exp_add, exp_add _ (_ + _), exp_add (-log 2 - log (sqrt (2 * π)))]
    push_cast
    ring
  generalize hK : exp (-log 2 - log (sqrt (2 * π))) * exp (- log 1 - log (sqrt (2 * π))) = K at hd
  have hKp : 0 < K := by rw [← hK]; exact mul_pos (exp_pos _) (exp_pos _)
  -- t = exp (-1/8); the centre density is (1 + t ^ 4) / 2, the middle one t
  have t1 : exp (-(1:ℝ) / 8) ^ 4 = exp (-1 / 2) := by rw [← exp_nat_mul]; norm_num
  generalize ht : exp (-(1:ℝ) / 8) = t at t1
  have htlo : 7 / 8 ≤ t := by rw [← ht]; have := add_one_le_exp (-(1:ℝ) / 8); linarith
  have hthi : t < 1 := by rw [← ht]; rw [exp_lt_one_iff]; norm_num
  have hmid : (hm (0, 0) 1 [(-1, 0), (1, 0)] [(2, 1), (2, 1)] 1).density (0, 0) = t * K := by
    rw [hd, ← ht]; norm_num
  have hc1 : (hm (0, 0) 1 [(-1, 0), (1, 0)] [(2, 1), (2, 1)] 1).density (-1, 0) = (1 + t ^ 4) / 2 * K := by
    rw [hd, t1]; norm_num
  have hc2 : (hm (0, 0) 1 [(-1, 0), (1, 0)] [(2, 1), (2, 1)] 1).density (1, 0) = (1 + t ^ 4) / 2 * K := by
    rw [hd, t1]; norm_num; left; ring
  have hpos : 0 < (1 + t ^ 4) / 2 * K := by positivity
  have hpeak : (hm (0, 0) 1 [(-1, 0), (1, 0)] [(2, 1), (2, 1)] 1).peak = (1 + t ^ 4) / 2 * K := by
    unfold Heatmap.peak
    have : (hm (0, 0) 1 [(-1, 0), (1, 0)] [(2, 1), (2, 1)] 1).mu = [(-1, 0), (1, 0)] := rfl
    rw [this]
    simp only [List.map_cons, List.map_nil, List.foldr_cons, List.foldr_nil, hc1, hc2]
    rw [max_eq_left hpos.le, max_self]
  have hlt : (1 + t ^ 4) / 2 * K < t * K := by
    apply mul_lt_mul_of_pos_right _ hKp
    have : t ^ 4 - 2 * t + 1 = (t - 1) * (t ^ 3 + t ^ 2 + t - 1) := by ring
    have h3 : 0 < t ^ 3 + t ^ 2 + t - 1 := by
      have : 0 ≤ t ^ 3 := by positivity
      nlinarith
    have := mul_neg_of_neg_of_pos (show t - 1 < 0 by linarith) h3
    linarith
  have hg : 1 < (hm (0, 0) 1 [(-1, 0), (1, 0)] [(2, 1), (2, 1)] 1).gmm (0, 0) := by
    unfold Heatmap.gmm
    rw [hmid, hpeak, ← log_div (by positivity) hpos.ne', exp_log (by positivity)]
    rw [lt_sqrt (by norm_num)]
    have : (hm (0, 0) 1 [(-1, 0), (1, 0)] [(2, 1), (2, 1)] 1).norm = 1 := rfl
    rw [this, one_mul, one_pow, one_lt_div hpos]
    exact hlt
  have hr : ((hm (0, 0) 1 [(-1, 0), (1, 0)] [(2, 1), (2, 1)] 1).resAt (0, 0) true).1 =
      1000 * (hm (0, 0) 1 [(-1, 0), (1, 0)] [(2, 1), (2, 1)] 1).gmm (0, 0) := rfl
  rw [hr]
  have : (hm (0, 0) 1 [(-1, 0), (1, 0)] [(2, 1), (2, 1)] 1).res = 1000 := rfl
  rw [this]
  linarith

/-- Spans of equal length and width cannot be used at all: the spread of the clusters is their difference, and zero widths are rejected. -/
theorem square_span_error (res eff : ℝ) (xyz : ℝ × ℝ × ℝ) (a m2 : ℝ) (budget : Option ℝ) (real : Bool) (um us : List (ℝ × ℝ)) (hu : us ≠ []) :
    Heatmap.make res eff xyz (a, a) m2 budget real um us = .error .valueError := by
  unfold Heatmap.make
  split
  · rfl
  · split
    · rfl
    · simp only [lt_irrefl, if_false, sub_self]
      rw [if_neg]
      intro h
      cases us with
      | nil => exact hu rfl
      | cons u us => simp [Heatmap.initSig] at h

example : ∃ h', ((single (1, 1) 1 1 (hm (0.5, 0.5) 0.3 [(5, 0.5)] [(0.5, 0.5)] 1)).conform fun _ => 0).panels = [.heatmap h'] ∧ h'.mu = [(0.86, 0.5)] := by
  refine ⟨_, rfl, ?_⟩
  simp [Heatmap.clampParams, clampR, hm, rangeMult, single]
  norm_num

end C69

end

end Tomopt
