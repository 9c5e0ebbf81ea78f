import Verif.Lemmas.Fit
import Mathlib.Tactic.NormNum

/- C26: the track fit. -/
namespace Tomopt

noncomputable section

open Scatter

namespace C26

/-- two hits of positive weight at different heights -/
def TwoHeights (l : List FitPt) : Prop := ∃ p ∈ l, ∃ q ∈ l, 0 < p.w ∧ 0 < q.w ∧ p.z ≠ q.z

/-- **C26, one projection.** With non-negative weights, two of them positive at different heights, the fit returns the unique line with the smallest
weighted sum of squared residuals. -/
theorem fit_minimises (l : List FitPt) (hw : ∀ h ∈ l, 0 ≤ h.w) (h2 : TwoHeights l) :
    ∃ a b, fitAxis l = some (a, b) ∧ (∀ a' b', chi2 l a b ≤ chi2 l a' b') ∧ (∀ a' b', chi2 l a' b' ≤ chi2 l a b → a' = a ∧ b' = b) := by
  obtain ⟨p, hp, q, hq, pw, qw, hz⟩ := h2
  obtain ⟨d0, d1, d2⟩ := det_pos hw p q hp hq pw qw hz
  obtain ⟨a, b, hab, n1, n2⟩ := fitAxis_normal d0.ne' d1.ne' d2.ne'
  have hd : ∀ a' b', chi2 l a' b' = chi2 l a b + quad l (a - a') (b - b') := by
    intro a' b'
    rw [chi2_diff l a b a' b', show sx l - a * s0 l - b * sz l = 0 by linarith, show sxz l - a * sz l - b * szz l = 0 by linarith]
    ring
  refine ⟨a, b, hab, ?_, ?_⟩
  · intro a' b'
    have := quad_nonneg hw (a - a') (b - b')
    rw [hd a' b']; linarith
  · intro a' b' h
    have h0 : quad l (a - a') (b - b') = 0 := le_antisymm (by rw [hd a' b'] at h; linarith) (quad_nonneg hw _ _)
    have e1 := quad_zero hw _ _ h0 p hp pw
    have e2 := quad_zero hw _ _ h0 q hq qw
    have : (b - b') * (p.z - q.z) = 0 := by linarith
    rcases mul_eq_zero.mp this with h | h
    · rw [h] at e1; exact ⟨by linarith, by linarith⟩
    · exact absurd (by linarith) hz

/-- Hits that carry no weight, or all of them at one height: no line (NaN). -/
theorem few_heights_nan (l : List FitPt) (hw : ∀ h ∈ l, 0 ≤ h.w) (h2 : ¬ TwoHeights l) : fitAxis l = none := by
  by_cases h0 : s0 l = 0
  · have hu : fitAxis l = if s0 l = 0 then none else _ := rfl
    rw [hu, if_pos h0]
  · have hex : ∃ p ∈ l, 0 < p.w := by
      by_contra hc
      push Not at hc
      apply h0
      have : ∀ h ∈ l, h.w = 0 := fun h hh => le_antisymm (hc h hh) (hw h hh)
      clear h0 hc hw h2
      induction l with
      | nil => rfl
      | cons q l ih =>
        have e : s0 (q :: l) = q.w + s0 l := by simp [s0]
        rw [e, this q (by simp), ih (fun h hh => this h (by simp [hh]))]; simp
    obtain ⟨p, hp, pw⟩ := hex
    have hall : ∀ h ∈ l, h.w = 0 ∨ h.z = p.z := by
      intro h hh
      rcases (hw h hh).lt_or_eq with h1 | h1
      · right
        by_contra hc
        exact h2 ⟨h, hh, p, hp, h1, pw, hc⟩
      · left; exact h1.symm
    have hsum : sz l = p.z * s0 l ∧ szz l = p.z ^ 2 * s0 l := by
      clear h0 hw h2 hp
      induction l with
      | nil => simp [sz, szz, s0]
      | cons q l ih =>
        obtain ⟨i1, i2⟩ := ih (fun h hh => hall h (by simp [hh]))
        simp only [sz, szz, s0, List.map_cons, List.sum_cons] at i1 i2 ⊢
        rw [i1, i2]
        rcases hall q (by simp) with h | h <;> rw [h] <;> constructor <;> ring
    have hu : fitAxis l = if s0 l = 0 then none else if szz l / s0 l = 0 then none else
        if 1 - (sz l / s0 l) ^ 2 / (szz l / s0 l) = 0 then none else _ := rfl
    rw [hu, if_neg h0, hsum.1, hsum.2, mul_div_cancel_right₀ _ h0, mul_div_cancel_right₀ _ h0]
    by_cases hz : p.z ^ 2 = 0
    · rw [if_pos hz]
    · rw [if_neg hz, if_pos]
      rw [div_self hz]; ring

/-- a measured hit: position and uncertainties in x and y -/
abbrev Meas := V3 × ℝ × ℝ

/-- the values handed to the fit -/
def rows (ms : List Meas) : List (X3 × X3) := ms.map fun m => ((.num m.1.1, .num m.1.2.1, .num m.1.2.2), (.num m.2.1, .num m.2.2, .num 0))

/-- points of the two projections with weights 1/unc² -/
def xPts (ms : List Meas) : List FitPt := ms.map fun m => ⟨m.1.1, m.1.2.2, 1 / m.2.1 ^ 2⟩
def yPts (ms : List Meas) : List FitPt := ms.map fun m => ⟨m.1.2.1, m.1.2.2, 1 / m.2.2 ^ 2⟩

theorem axisPts_x (lw : ℝ × ℝ) (ms : List Meas) (hu : ∀ m ∈ ms, 0 < m.2.1) : axisPts lw (·.1) (rows ms) = some (xPts ms) := by
  induction ms with
  | nil => rfl
  | cons m ms ih =>
    have hm := (hu m (by simp)).ne'
    have := ih (fun m hm => hu m (by simp [hm]))
    simp only [rows, xPts] at this ⊢
    simp [axisPts, hitCoord, invUnc2, hm, this]

theorem axisPts_y (lw : ℝ × ℝ) (ms : List Meas) (hu : ∀ m ∈ ms, 0 < m.2.2) : axisPts lw (·.2.1) (rows ms) = some (yPts ms) := by
  induction ms with
  | nil => rfl
  | cons m ms ih =>
    have hm := (hu m (by simp)).ne'
    have := ih (fun m hm => hu m (by simp [hm]))
    simp only [rows, yPts] at this ⊢
    simp [axisPts, hitCoord, invUnc2, hm, this]

/-- **C26.** For two or more measured hits, the first two (and so any two) at different heights, all uncertainties positive: the fitted track starts at the
height of the first hit, reaches to the height of the second, and both ends lie on the unique line that minimises, in x and in y, the sum of squared
residuals weighted with 1/unc². -/
theorem trajectory_spec (lw : ℝ × ℝ) (m0 m1 : Meas) (ms : List Meas) (hu : ∀ m ∈ m0 :: m1 :: ms, 0 < m.2.1 ∧ 0 < m.2.2) (hz : m0.1.2.2 ≠ m1.1.2.2) :
    ∃ ax bx ay bY : ℝ, trajectory lw (rows (m0 :: m1 :: ms)) =
        .ok (some (((m1.1.2.2 - m0.1.2.2) * bx, (m1.1.2.2 - m0.1.2.2) * bY, m1.1.2.2 - m0.1.2.2), (ax + bx * m0.1.2.2, ay + bY * m0.1.2.2, m0.1.2.2))) ∧
      (∀ a b, chi2 (xPts (m0 :: m1 :: ms)) ax bx ≤ chi2 (xPts (m0 :: m1 :: ms)) a b) ∧
      (∀ a b, chi2 (yPts (m0 :: m1 :: ms)) ay bY ≤ chi2 (yPts (m0 :: m1 :: ms)) a b) ∧
      (∀ a b, chi2 (xPts (m0 :: m1 :: ms)) a b ≤ chi2 (xPts (m0 :: m1 :: ms)) ax bx → a = ax ∧ b = bx) ∧
      (∀ a b, chi2 (yPts (m0 :: m1 :: ms)) a b ≤ chi2 (yPts (m0 :: m1 :: ms)) ay bY → a = ay ∧ b = bY) := by
  have hx1 : ∀ h ∈ xPts (m0 :: m1 :: ms), 0 ≤ h.w := by
    intro h hh
    obtain ⟨m, _, rfl⟩ := List.mem_map.mp hh
    positivity
  have hy1 : ∀ h ∈ yPts (m0 :: m1 :: ms), 0 ≤ h.w := by
    intro h hh
    obtain ⟨m, _, rfl⟩ := List.mem_map.mp hh
    positivity
  obtain ⟨u0, v0⟩ := hu m0 (by simp)
  obtain ⟨u1, v1⟩ := hu m1 (by simp)
  obtain ⟨ax, bx, ex, fx, gx⟩ := fit_minimises (xPts (m0 :: m1 :: ms)) hx1
    ⟨_, List.mem_cons_self, _, List.mem_cons_of_mem _ List.mem_cons_self, by simp only; positivity, by simp only; positivity, hz⟩
  obtain ⟨ay, bY, ey, fy, gy⟩ := fit_minimises (yPts (m0 :: m1 :: ms)) hy1
    ⟨_, List.mem_cons_self, _, List.mem_cons_of_mem _ List.mem_cons_self, by simp only; positivity, by simp only; positivity, hz⟩
  refine ⟨ax, bx, ay, bY, ?_, fx, fy, gx, gy⟩
  have e1 := axisPts_x lw (m0 :: m1 :: ms) (fun m hm => (hu m hm).1)
  have e2 := axisPts_y lw (m0 :: m1 :: ms) (fun m hm => (hu m hm).2)
  have h0 : (rows (m0 :: m1 :: ms))[0]? = some ((.num m0.1.1, .num m0.1.2.1, .num m0.1.2.2), (.num m0.2.1, .num m0.2.2, .num 0)) := rfl
  have h1 : (rows (m0 :: m1 :: ms))[1]? = some ((.num m1.1.1, .num m1.1.2.1, .num m1.1.2.2), (.num m1.2.1, .num m1.2.2, .num 0)) := rfl
  simp only [trajectory, h0, h1, e1, e2, Option.bind_eq_bind, Option.bind_some, ex, ey, hitCoord, calcXYZ]
  congr 3
  · congr 1
    · ring
    · congr 1; ring

/-- Hits on one straight line are reproduced exactly, whatever the weights. -/
theorem exact_line (lw : ℝ × ℝ) (m0 m1 : Meas) (ms : List Meas) (hu : ∀ m ∈ m0 :: m1 :: ms, 0 < m.2.1 ∧ 0 < m.2.2) (hz : m0.1.2.2 ≠ m1.1.2.2)
    (ax bx ay bY : ℝ) (hon : ∀ m ∈ m0 :: m1 :: ms, m.1.1 = ax + bx * m.1.2.2 ∧ m.1.2.1 = ay + bY * m.1.2.2) :
    trajectory lw (rows (m0 :: m1 :: ms)) = .ok (some ((m1.1.1 - m0.1.1, m1.1.2.1 - m0.1.2.1, m1.1.2.2 - m0.1.2.2), m0.1)) := by
  obtain ⟨ax', bx', ay', bY', ht, fx, fy, gx, gy⟩ := trajectory_spec lw m0 m1 ms hu hz
  have nonneg : ∀ (l : List FitPt), (∀ h ∈ l, 0 ≤ h.w) → ∀ a b, 0 ≤ chi2 l a b := by
    intro l hl a b
    apply List.sum_nonneg
    intro x hx
    obtain ⟨h, hh, rfl⟩ := List.mem_map.mp hx
    exact mul_nonneg (hl h hh) (sq_nonneg _)
  have zx : chi2 (xPts (m0 :: m1 :: ms)) ax bx = 0 := by
    apply List.sum_eq_zero
    intro x hx
    obtain ⟨h, hh, rfl⟩ := List.mem_map.mp hx
    obtain ⟨m, hm, rfl⟩ := List.mem_map.mp hh
    simp only [(hon m hm).1]; ring
  have zy : chi2 (yPts (m0 :: m1 :: ms)) ay bY = 0 := by
    apply List.sum_eq_zero
    intro x hx
    obtain ⟨h, hh, rfl⟩ := List.mem_map.mp hx
    obtain ⟨m, hm, rfl⟩ := List.mem_map.mp hh
    simp only [(hon m hm).2]; ring
  have nx := nonneg (xPts (m0 :: m1 :: ms)) (by
    intro h hh; obtain ⟨m, _, rfl⟩ := List.mem_map.mp hh; positivity) ax' bx'
  have ny := nonneg (yPts (m0 :: m1 :: ms)) (by
    intro h hh; obtain ⟨m, _, rfl⟩ := List.mem_map.mp hh; positivity) ay' bY'
  obtain ⟨rfl, rfl⟩ := gx ax bx (by rw [zx]; exact nx)
  obtain ⟨rfl, rfl⟩ := gy ay bY (by rw [zy]; exact ny)
  obtain ⟨p0, q0⟩ := hon m0 (by simp)
  obtain ⟨p1, q1⟩ := hon m1 (by simp)
  rw [ht]
  congr 2
  refine Prod.ext (Prod.ext ?_ (Prod.ext ?_ rfl)) (Prod.ext p0.symm (Prod.ext q0.symm rfl))
  · simp only [p0, p1]; ring
  · simp only [q0, q1]; ring

/-- Fewer than two hits are an IndexError. -/
theorem too_few (lw : ℝ × ℝ) (hits : List (X3 × X3)) (h : hits.length < 2) : trajectory lw hits = .error .indexError := by
  have h1 : hits[1]? = none := by rw [List.getElem?_eq_none_iff]; omega
  simp only [trajectory, h1]
  cases hits[0]? <;> rfl

/-- A hit of infinite uncertainty has no influence on a projection, wherever it is. -/
theorem infinite_unc_ignored (lw : ℝ × ℝ) (c : X3 → XF) (l : List (X3 × X3)) (h u : X3) (hu : c u = .pinf) (px : List FitPt)
    (hl : axisPts lw c l = some px) (x z : ℝ) (hx : hitCoord lw (c h) = some x) (hz : hitCoord lw h.2.2 = some z) :
    ∃ px', axisPts lw c ((h, u) :: l) = some px' ∧ fitAxis px' = fitAxis px := by
  refine ⟨⟨x, z, 0⟩ :: px, by simp [axisPts, hx, hz, hu, invUnc2, hl], ?_⟩
  simp [fitAxis]

/-- Non-vacuity: three hits of different precision on a slanted line. -/
example : trajectory (1, 1) (rows [((0, 0, 3), (1, 2)), ((1, 2, 2), (0.5, 1)), ((2, 4, 1), (3, 0.1))]) = .ok (some ((1, 2, -1), (0, 0, 3))) := by
  have := exact_line (1, 1) ((0, 0, 3), (1, 2)) ((1, 2, 2), (0.5, 1)) [((2, 4, 1), (3, 0.1))] (by
    intro m hm
    simp only [List.mem_cons, List.not_mem_nil, or_false] at hm
    rcases hm with rfl | rfl | rfl <;> norm_num) (by norm_num) 3 (-1) 6 (-2) (by
    intro m hm
    simp only [List.mem_cons, List.not_mem_nil, or_false] at hm
    rcases hm with rfl | rfl | rfl <;> norm_num)
  rw [this]
  norm_num

example : TwoHeights [⟨0, 3, 1⟩, ⟨1, 2, 0⟩, ⟨2, 1, 4⟩] := ⟨⟨0, 3, 1⟩, by simp, ⟨2, 1, 4⟩, by simp, by norm_num, by norm_num, by norm_num⟩

end C26

end

end Tomopt
