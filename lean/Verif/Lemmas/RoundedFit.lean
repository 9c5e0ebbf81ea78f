import Verif.Model.RoundedFit
import Verif.Lemmas.Within

/- Weighted means and the formulas of a track fit in floating point. -/
namespace Tomopt

noncomputable section

namespace C138

open Infer Scatter

variable {ε : ℝ} {fl : ℝ → ℝ}

/-- the largest factor of `k` roundings -/
def amp (ε : ℝ) (k : Nat) : ℝ := ((1 - ε)⁻¹) ^ k

theorem amp_one (hr : Rounds ε fl) (k : Nat) : 1 ≤ amp ε k := by
  refine one_le_pow₀ ?_
  rw [one_le_inv₀ (by linarith [hr.small])]
  linarith [hr.nonneg]

theorem amp_add (j k : Nat) : amp ε (j + k) = amp ε j * amp ε k := pow_add _ _ _

theorem amp_eps (hr : Rounds ε fl) : 1 + ε ≤ amp ε 1 := by
  have := hr.small
  rw [amp, pow_one, ← one_div, le_div_iff₀ (by linarith)]
  nlinarith [hr.nonneg]

theorem amp_succ (hr : Rounds ε fl) (k : Nat) : (1 + ε) * amp ε k ≤ amp ε (k + 1) := by
  rw [amp_add, mul_comm (amp ε k)]
  exact mul_le_mul_of_nonneg_right (amp_eps hr) (le_trans zero_le_one (amp_one hr k))

theorem amp_mono (hr : Rounds ε fl) {j k : Nat} (h : j ≤ k) : amp ε j ≤ amp ε k := by
  obtain ⟨d, rfl⟩ := Nat.exists_eq_add_of_le h
  rw [amp_add]
  have := amp_one hr j
  have := amp_one hr d
  nlinarith

/-- one more rounding -/
theorem round_near (hr : Rounds ε fl) {x y A : ℝ} {k : Nat} (hy : |y| ≤ A) (h : |x - y| ≤ (amp ε k - 1) * A) : |fl x - y| ≤ (amp ε (k + 1) - 1) * A := by
  have hA : 0 ≤ A := le_trans (abs_nonneg _) hy
  have h1 := hr.rel x
  have h2 : |x| ≤ amp ε k * A := by
    have := abs_sub_abs_le_abs_sub x y
    linarith
  have h3 := mul_le_mul_of_nonneg_left h2 hr.nonneg
  have h4 := mul_le_mul_of_nonneg_right (amp_succ hr k) hA
  have h5 : |fl x - y| ≤ |fl x - x| + |x - y| := abs_sub_le _ _ _
  nlinarith

theorem sum_near {β : Type} (f g F : β → ℝ) (c : ℝ) : ∀ l : List β, (∀ h ∈ l, |f h - g h| ≤ c * F h) → |(l.map f).sum - (l.map g).sum| ≤ c * (l.map F).sum
  | [], _ => by simp
  | h :: l, hl => by
    have ih := sum_near f g F c l fun b hb => hl b (by simp [hb])
    have h1 := hl h (by simp)
    simp only [List.map_cons, List.sum_cons]
    rw [abs_le] at *
    constructor <;> linarith [h1.1, h1.2, ih.1, ih.2]

theorem sum_abs {β : Type} (f F : β → ℝ) : ∀ l : List β, (∀ h ∈ l, |f h| ≤ F h) → |(l.map f).sum| ≤ (l.map F).sum
  | [], _ => by simp
  | h :: l, hl => by
    have ih := sum_abs f F l fun b hb => hl b (by simp [hb])
    have h1 := hl h (by simp)
    simp only [List.map_cons, List.sum_cons]
    exact le_trans (abs_add_le _ _) (add_le_add h1 ih)

/-- sums of numbers of either sign, in any order -/
theorem tree_near (hr : Rounds ε fl) : ∀ t : Tree, |t.eval fl - t.leaves.sum| ≤ (amp ε t.depth - 1) * (t.leaves.map abs).sum ∧ |t.leaves.sum| ≤ (t.leaves.map abs).sum
  | .nil => by simp [Tree.eval, Tree.leaves]
  | .leaf x => by simp [Tree.eval, Tree.leaves, Tree.depth, amp]
  | .node l r => by
    obtain ⟨a1, a2⟩ := tree_near hr l
    obtain ⟨b1, b2⟩ := tree_near hr r
    simp only [Tree.eval, Tree.leaves, Tree.depth, List.sum_append, List.map_append]
    have m1 := mul_le_mul_of_nonneg_right (sub_le_sub_right (amp_mono hr (Nat.le_max_left l.depth r.depth)) 1) (le_trans (abs_nonneg _) a2)
    have m2 := mul_le_mul_of_nonneg_right (sub_le_sub_right (amp_mono hr (Nat.le_max_right l.depth r.depth)) 1) (le_trans (abs_nonneg _) b2)
    have hs : |l.leaves.sum + r.leaves.sum| ≤ (l.leaves.map abs).sum + (r.leaves.map abs).sum := le_trans (abs_add_le _ _) (add_le_add a2 b2)
    refine ⟨round_near hr hs ?_, hs⟩
    have : l.eval fl + r.eval fl - (l.leaves.sum + r.leaves.sum) = (l.eval fl - l.leaves.sum) + (r.eval fl - r.leaves.sum) := by ring
    rw [this]
    refine le_trans (abs_add_le _ _) ?_
    linarith

theorem summed_near (hr : Rounds ε fl) {D : Nat → Nat} {sm : List ℝ → ℝ} (hs : Summation fl D sm) (xs : List ℝ) : |sm xs - xs.sum| ≤ (amp ε (D xs.length) - 1) * (xs.map abs).sum := by
  obtain ⟨t, hp, hd, he⟩ := hs xs
  have h := (tree_near hr t).1
  have h0 := (tree_near hr t).2
  rw [he, ← hp.sum_eq, ← (hp.map abs).sum_eq]
  exact le_trans h (mul_le_mul_of_nonneg_right (sub_le_sub_right (amp_mono hr hd) 1) (le_trans (abs_nonneg _) h0))

/-- the mean of `f` over the hits, in exact arithmetic -/
def wmean (l : List FitPt) (f : FitPt → ℝ) : ℝ := (l.map fun h => f h * h.w).sum / (l.map fun h => h.w).sum

/-- a mean in floating point -/
theorem mean_near (hr : Rounds ε fl) {D : Nat → Nat} {sm : List ℝ → ℝ} (hs : Summation fl D sm) (l : List FitPt) (hw : ∀ h ∈ l, 0 ≤ h.w) (hW : 0 < (l.map fun h => h.w).sum) (g f F : FitPt → ℝ) (j : Nat)
    (hf : ∀ h ∈ l, |f h| ≤ F h) (hg : ∀ h ∈ l, |g h - f h| ≤ (amp ε j - 1) * F h) : |meanFl fl sm g l - wmean l f| ≤ (amp ε (2 * D l.length + 2 + j) - 1) * wmean l F := by
  have W := hW
  set s := (l.map fun h => h.w).sum with es
  set D' := D l.length with eD
  have ws : Within ε D' (sm (l.map fun h => h.w)) s := by
    have := Within.summed hr hs (l.map fun h => h.w) (by simpa using hw)
    rwa [List.length_map] at this
  have hs' := Within.pos hr ws hW
  set s' := sm (l.map fun h => h.w) with es'
  have e1 : ∀ h ∈ l, |fl (g h * h.w) - f h * h.w| ≤ (amp ε (j + 1) - 1) * (F h * h.w) := by
    intro h hh
    refine round_near hr ?_ ?_
    · rw [abs_mul, abs_of_nonneg (hw h hh)]
      exact mul_le_mul_of_nonneg_right (hf h hh) (hw h hh)
    · rw [← sub_mul, abs_mul, abs_of_nonneg (hw h hh), ← mul_assoc]
      exact mul_le_mul_of_nonneg_right (hg h hh) (hw h hh)
  have e2 := sum_near (fun h => fl (g h * h.w)) (fun h => f h * h.w) (fun h => F h * h.w) _ l e1
  have e3 : |(l.map fun h => f h * h.w).sum| ≤ (l.map fun h => F h * h.w).sum := sum_abs _ _ l fun h hh => by
    rw [abs_mul, abs_of_nonneg (hw h hh)]
    exact mul_le_mul_of_nonneg_right (hf h hh) (hw h hh)
  have e4 : ((l.map fun h => fl (g h * h.w)).map abs).sum ≤ amp ε (j + 1) * (l.map fun h => F h * h.w).sum := by
    rw [List.map_map, ← List.sum_map_mul_left]
    apply List.sum_le_sum
    intro h hh
    have h1 := e1 h hh
    have h2 : |f h * h.w| ≤ F h * h.w := by
      rw [abs_mul, abs_of_nonneg (hw h hh)]
      exact mul_le_mul_of_nonneg_right (hf h hh) (hw h hh)
    have h3 := abs_sub_abs_le_abs_sub (fl (g h * h.w)) (f h * h.w)
    simp only [Function.comp]
    linarith
  have e5 := summed_near hr hs (l.map fun h => fl (g h * h.w))
  rw [List.length_map, ← eD] at e5
  set S' := sm (l.map fun h => fl (g h * h.w)) with eS'
  set S := (l.map fun h => f h * h.w).sum with eS
  set M := (l.map fun h => F h * h.w).sum with eM
  have hM : 0 ≤ M := le_trans (abs_nonneg _) e3
  have a0 := amp_one hr D'
  have a1 := amp_one hr (j + 1)
  have e6 : |S' - S| ≤ (amp ε (D' + (j + 1)) - 1) * M := by
    have h1 := mul_le_mul_of_nonneg_left e4 (show 0 ≤ amp ε D' - 1 by linarith)
    have h2 := abs_sub_le S' (l.map fun h => fl (g h * h.w)).sum S
    rw [amp_add]
    nlinarith
  have gU : s / s' ≤ amp ε D' := by
    have hp := Within.pow_pos' hr D'
    rw [div_le_iff₀ hs', amp, inv_pow, inv_mul_eq_div, le_div_iff₀ hp, mul_comm]
    exact ws.1
  have gL : 1 - (amp ε D' - 1) ≤ s / s' := by
    have hp := Within.pow_pos' hr D'
    have h1 : (1 - ε) ^ D' ≤ s / s' := by rw [le_div_iff₀ hs']; exact ws.2
    refine le_trans ?_ h1
    have h2 : amp ε D' * (1 - ε) ^ D' = 1 := by rw [amp, ← mul_pow, inv_mul_cancel₀ (by linarith [hr.small]), one_pow]
    nlinarith [sq_nonneg (amp ε D' - 1)]
  have g0 : 0 ≤ s / s' := (div_pos W hs').le
  have eG : |s / s' - 1| ≤ amp ε D' - 1 := by rw [abs_le]; constructor <;> linarith
  have hMs : wmean l F = M / s := rfl
  have hSs : wmean l f = S / s := rfl
  have e7 : |S' / s' - S / s| ≤ (amp ε (2 * D' + 1 + j) - 1) * (M / s) := by
    have h1 : S' / s' - S / s = ((S' - S) / s) * (s / s') + S / s * (s / s' - 1) := by field_simp; ring
    rw [h1]
    refine le_trans (abs_add_le _ _) ?_
    rw [abs_mul, abs_mul, abs_of_nonneg g0, abs_div, abs_div, abs_of_pos W]
    have h2 : |S' - S| / s ≤ (amp ε (D' + (j + 1)) - 1) * (M / s) := by
      rw [← mul_div_assoc]; exact div_le_div_of_nonneg_right e6 W.le
    have h3 : |S| / s ≤ M / s := div_le_div_of_nonneg_right e3 W.le
    have a2 := amp_one hr (D' + (j + 1))
    have hMs' : 0 ≤ M / s := div_nonneg hM W.le
    have h4 := mul_le_mul h2 gU g0 (mul_nonneg (by linarith) hMs')
    have h5 := mul_le_mul h3 eG (abs_nonneg _) hMs'
    rw [show 2 * D' + 1 + j = (D' + (j + 1)) + D' by ring, amp_add (D' + (j + 1))]
    nlinarith
  have h8 : |S / s| ≤ M / s := by rw [abs_div, abs_of_pos W]; exact div_le_div_of_nonneg_right e3 W.le
  have := round_near hr h8 e7
  rw [hMs, hSs]
  rw [show 2 * D' + 2 + j = 2 * D' + 1 + j + 1 by ring]
  exact this

/-! ### The formulas of the fit -/

/-- products and quotients of factors close to one -/
theorem four {k a b c d : ℝ} (hk : k ≤ 1 / 100) (ha : |a - 1| ≤ k) (hb : |b - 1| ≤ k) (hc : |c - 1| ≤ k) (hd : |d - 1| ≤ k) : |a * b * c / d - 1| ≤ 21 / 5 * k := by
  have k0 : 0 ≤ k := le_trans (abs_nonneg _) ha
  rw [abs_le] at ha hb hc hd
  have d0 : 0 < d := by linarith [hd.1]
  have u1 : a * b * c ≤ (1 + k) ^ 3 := by
    have h1 : a * b ≤ (1 + k) * (1 + k) := mul_le_mul (by linarith) (by linarith) (by linarith) (by linarith)
    have h2 := mul_le_mul h1 (show c ≤ 1 + k by linarith) (by linarith) (by positivity)
    calc _ ≤ _ := h2
      _ = _ := by ring
  have l1 : (1 - k) ^ 3 ≤ a * b * c := by
    have h1 : (1 - k) * (1 - k) ≤ a * b := mul_le_mul (by linarith) (by linarith) (by linarith) (by linarith)
    have h2 := mul_le_mul h1 (show 1 - k ≤ c by linarith) (by linarith) (mul_nonneg (by linarith) (by linarith))
    calc _ = _ := by ring
      _ ≤ _ := h2
  rw [show a * b * c / d - 1 = (a * b * c - d) / d by field_simp, abs_div, abs_of_pos d0, div_le_iff₀ d0, abs_le]
  constructor <;> nlinarith [mul_nonneg k0 k0, mul_nonneg k0 (mul_nonneg k0 k0)]

theorem five {k a b c e d : ℝ} (hk : k ≤ 1 / 100) (ha : |a - 1| ≤ k) (hb : |b - 1| ≤ k) (hc : |c - 1| ≤ k) (he : |e - 1| ≤ k) (hd : |d - 1| ≤ k) : |a * b * c * e / d - 1| ≤ 53 / 10 * k := by
  have h4 := four hk ha hb hc hd
  have k0 : 0 ≤ k := le_trans (abs_nonneg _) ha
  rw [show a * b * c * e / d - 1 = (a * b * c / d - 1) * e + (e - 1) by ring]
  refine le_trans (abs_add_le _ _) ?_
  rw [abs_mul]
  have he' : |e| ≤ 101 / 100 := by rw [abs_le] at *; constructor <;> linarith [he.1, he.2]
  have := mul_le_mul h4 he' (abs_nonneg _) (by linarith)
  linarith

theorem three {k a b d : ℝ} (hk : k ≤ 1 / 100) (ha : |a - 1| ≤ k) (hb : |b - 1| ≤ k) (hd : |d - 1| ≤ k) : |a * b / d - 1| ≤ 16 / 5 * k := by
  have k0 : 0 ≤ k := le_trans (abs_nonneg _) ha
  rw [abs_le] at ha hb hd
  have d0 : 0 < d := by linarith [hd.1]
  have u1 : a * b ≤ (1 + k) * (1 + k) := mul_le_mul (by linarith) (by linarith) (by linarith) (by linarith)
  have l1 : (1 - k) * (1 - k) ≤ a * b := mul_le_mul (by linarith) (by linarith) (by linarith) (by linarith)
  rw [show a * b / d - 1 = (a * b - d) / d by field_simp, abs_div, abs_of_pos d0, div_le_iff₀ d0, abs_le]
  constructor <;> nlinarith [mul_nonneg k0 k0]

/-- a rounded number is a multiple of the number -/
theorem factor (hr : Rounds ε fl) (y : ℝ) : ∃ d, fl y = y * d ∧ |d - 1| ≤ ε := by
  have h := hr.rel y
  rcases eq_or_ne y 0 with rfl | hy
  · exact ⟨1, by simpa using h, by simpa using hr.nonneg⟩
  · refine ⟨fl y / y, by field_simp, ?_⟩
    rw [show fl y / y - 1 = (fl y - y) / y by field_simp, abs_div, div_le_iff₀ (abs_pos.mpr hy)]
    exact h

/-- The means of a fit and the computed ones, up to a relative error of `k`; `X` bounds the coordinates. -/
structure Means (k X mx mz mxz mz2 mx' mz' mxz' mz2' : ℝ) : Prop where
  z : 0 < mz
  z2 : 0 < mz2
  le : mz ^ 2 ≤ mz2
  x : |mx| ≤ X
  xz : |mxz| ≤ X * mz
  ex : |mx' - mx| ≤ k * X
  ez : |mz' - mz| ≤ k * mz
  exz : |mxz' - mxz| ≤ k * (X * mz)
  ez2 : |mz2' - mz2| ≤ k * mz2

variable {k X mx mz mxz mz2 mx' mz' mxz' mz2' : ℝ}

/-- the means as multiples of each other -/
theorem Means.ratios (h : Means k X mx mz mxz mz2 mx' mz' mxz' mz2') : ∃ a b c c' q : ℝ, mz' = mz * a ∧ |a - 1| ≤ k ∧ mz2' = mz2 * b ∧ |b - 1| ≤ k ∧ mxz = mz * c ∧ |c| ≤ X ∧ mxz' = mz * c' ∧ |c' - c| ≤ k * X ∧
    mz ^ 2 = mz2 * q ∧ 0 ≤ q ∧ q ≤ 1 := by
  have hz := h.z
  have hz2 := h.z2
  refine ⟨mz' / mz, mz2' / mz2, mxz / mz, mxz' / mz, mz ^ 2 / mz2, by field_simp, ?_, by field_simp, ?_, by field_simp, ?_, by field_simp, ?_, by field_simp, by positivity, ?_⟩
  · rw [show mz' / mz - 1 = (mz' - mz) / mz by field_simp, abs_div, abs_of_pos hz, div_le_iff₀ hz]; exact h.ez
  · rw [show mz2' / mz2 - 1 = (mz2' - mz2) / mz2 by field_simp, abs_div, abs_of_pos hz2, div_le_iff₀ hz2]; exact h.ez2
  · rw [abs_div, abs_of_pos hz, div_le_iff₀ hz]; exact h.xz
  · rw [show mxz' / mz - mxz / mz = (mxz' - mxz) / mz by field_simp, abs_div, abs_of_pos hz, div_le_iff₀ hz, mul_assoc]; exact h.exz
  · rw [div_le_one hz2]; exact h.le

theorem Means.spread (h : Means k X mx mz mxz mz2 mx' mz' mxz' mz2') (hr : Rounds ε fl) (hε : ε ≤ k) (hk : k ≤ 1 / 100) : |spreadFl fl mz' mz2' - (1 - mz ^ 2 / mz2)| ≤ 7 * k := by
  obtain ⟨a, b, c, c', q, ea, ha, eb, hb, _, _, _, _, eq, q0, q1⟩ := h.ratios
  obtain ⟨d1, e1, h1⟩ := factor hr (mz' ^ 2)
  obtain ⟨d2, e2, h2⟩ := factor hr (fl (mz' ^ 2) / mz2')
  have hz2 := h.z2
  have b0 : b ≠ 0 := by
    rintro rfl
    norm_num at hb
    linarith
  have e : fl (fl (mz' ^ 2) / mz2') = q * (a * a * d1 * d2 / b) := by
    rw [e2, e1, ea, eb, show (mz * a) ^ 2 = mz ^ 2 * a ^ 2 by ring, eq]
    field_simp
  have h5 := five hk ha ha (le_trans h1 hε) (le_trans h2 hε) hb
  have eq' : mz ^ 2 / mz2 = q := by rw [eq]; field_simp
  have h6 : |fl (fl (mz' ^ 2) / mz2') - q| ≤ 53 / 10 * k := by
    rw [e, show q * (a * a * d1 * d2 / b) - q = q * (a * a * d1 * d2 / b - 1) by ring, abs_mul, abs_of_nonneg q0]
    have := mul_le_mul q1 h5 (abs_nonneg _) zero_le_one
    linarith
  have h7 := hr.rel (1 - fl (fl (mz' ^ 2) / mz2'))
  have k0 : 0 ≤ k := le_trans (abs_nonneg _) ha
  have h8 : |1 - fl (fl (mz' ^ 2) / mz2')| ≤ 106 / 100 := by
    rw [abs_le] at h6 ⊢
    constructor <;> linarith [h6.1, h6.2]
  have h9 := mul_le_mul hε h8 (abs_nonneg _) k0
  rw [eq', spreadFl]
  rw [abs_le] at *
  constructor <;> linarith [h6.1, h6.2, h7.1, h7.2]

theorem Means.numer (h : Means k X mx mz mxz mz2 mx' mz' mxz' mz2') (hr : Rounds ε fl) (hε : ε ≤ k) (hk : k ≤ 1 / 100) :
    |fl (mx' - fl (fl (mz' * mxz') / mz2')) - (mx - mz * mxz / mz2)| ≤ 9 * k * X := by
  obtain ⟨a, b, c, c', q, ea, ha, eb, hb, ec, hc, ec', hc', eq, q0, q1⟩ := h.ratios
  obtain ⟨d1, e1, h1⟩ := factor hr (mz' * mxz')
  obtain ⟨d2, e2, h2⟩ := factor hr (fl (mz' * mxz') / mz2')
  have hz2 := h.z2
  have k0 : 0 ≤ k := le_trans (abs_nonneg _) ha
  have X0 : 0 ≤ X := le_trans (abs_nonneg _) hc
  have b0 : b ≠ 0 := by
    rintro rfl
    norm_num at hb
    linarith
  have e : fl (fl (mz' * mxz') / mz2') = q * ((a * d1 * d2 / b) * c') := by
    rw [e2, e1, ea, eb, ec', show mz * a * (mz * c') = mz ^ 2 * (a * c') by ring, eq]
    field_simp
  have et : mz * mxz / mz2 = q * c := by rw [ec, show mz * (mz * c) = mz ^ 2 * c by ring, eq]; field_simp
  have h4 := four hk ha (le_trans h1 hε) (le_trans h2 hε) hb
  have hcc : |c'| ≤ 101 / 100 * X := by
    rw [abs_le] at hc hc' ⊢
    constructor <;> nlinarith [hc.1, hc.2, hc'.1, hc'.2]
  have h6 : |fl (fl (mz' * mxz') / mz2') - q * c| ≤ 53 / 10 * k * X := by
    rw [e, show q * ((a * d1 * d2 / b) * c') - q * c = q * ((a * d1 * d2 / b - 1) * c' + (c' - c)) by ring, abs_mul, abs_of_nonneg q0]
    have g1 : |(a * d1 * d2 / b - 1) * c' + (c' - c)| ≤ 53 / 10 * k * X := by
      refine le_trans (abs_add_le _ _) ?_
      rw [abs_mul]
      have := mul_le_mul h4 hcc (abs_nonneg _) (by linarith)
      nlinarith
    have := mul_le_mul q1 g1 (abs_nonneg _) zero_le_one
    linarith
  have hqc : |q * c| ≤ X := by
    rw [abs_mul, abs_of_nonneg q0]
    have := mul_le_mul q1 hc (abs_nonneg _) zero_le_one
    linarith
  have h7 := hr.rel (mx' - fl (fl (mz' * mxz') / mz2'))
  have hx := h.x
  have ex := h.ex
  have kX : k * X ≤ 1 / 100 * X := mul_le_mul_of_nonneg_right hk X0
  have h8 : |mx' - fl (fl (mz' * mxz') / mz2')| ≤ 21 / 10 * X := by
    rw [abs_le] at *
    constructor <;> linarith [h6.1, h6.2, hqc.1, hqc.2, hx.1, hx.2, ex.1, ex.2]
  have h9 := mul_le_mul hε h8 (abs_nonneg _) k0
  rw [et]
  rw [abs_le] at *
  constructor <;> linarith [h6.1, h6.2, h7.1, h7.2, ex.1, ex.2]

/-- the offset -/
theorem Means.star (h : Means k X mx mz mxz mz2 mx' mz' mxz' mz2') (hr : Rounds ε fl) (hε : ε ≤ k) (hk : k ≤ 1 / 100) {v s : ℝ} (hv : v = 1 - mz ^ 2 / mz2) (hkv : 14 * k ≤ v) (v0 : 0 < v)
    (hs : s = (mx - mz * mxz / mz2) / v) : spreadFl fl mz' mz2' ≠ 0 ∧ |starFl fl mx' mz' mxz' mz2' - s| ≤ 19 * k * (X + |s|) / v := by
  have hsp := h.spread hr hε hk
  have hn := h.numer hr hε hk
  have k0 : 0 ≤ k := le_trans hr.nonneg hε
  have X0 : 0 ≤ X := le_trans (abs_nonneg _) h.x
  have v1 : v ≤ 1 := by
    rw [hv]
    have := div_nonneg (sq_nonneg mz) h.z2.le
    linarith
  rw [← hv] at hsp
  have hN : mx - mz * mxz / mz2 = s * v := by rw [hs]; field_simp
  rw [hN] at hn
  unfold starFl
  set v' := spreadFl fl mz' mz2' with ev'
  set N' := fl (mx' - fl (fl (mz' * mxz') / mz2')) with eN'
  have hv' : v / 2 ≤ v' := by
    rw [abs_le] at hsp
    linarith [hsp.1]
  have v'0 : 0 < v' := by linarith
  refine ⟨v'0.ne', ?_⟩
  have s0 := abs_nonneg s
  have h1 : |N' / v' - s| ≤ (18 * k * X + 14 * k * |s|) / v := by
    rw [show N' / v' - s = ((N' - s * v) + s * (v - v')) / v' by field_simp; ring, abs_div, abs_of_pos v'0]
    have h2 : |(N' - s * v) + s * (v - v')| ≤ 9 * k * X + |s| * (7 * k) := by
      refine le_trans (abs_add_le _ _) (add_le_add hn ?_)
      rw [abs_mul, abs_sub_comm]
      exact mul_le_mul_of_nonneg_left hsp s0
    have h3 : (9 * k * X + |s| * (7 * k)) / v' ≤ (9 * k * X + |s| * (7 * k)) / (v / 2) := div_le_div_of_nonneg_left (by positivity) (by linarith) hv'
    refine le_trans (div_le_div_of_nonneg_right h2 v'0.le) (le_trans h3 (le_of_eq ?_))
    field_simp
    ring
  have h4 := hr.rel (N' / v')
  set E := (18 * k * X + 14 * k * |s|) / v with eE
  have E0 : 0 ≤ E := by positivity
  have h5 : |N' / v'| ≤ |s| + E := by
    have := abs_sub_abs_le_abs_sub (N' / v') s
    linarith
  have h6 := mul_le_mul hε h5 (abs_nonneg _) k0
  have h7 : |fl (N' / v') - s| ≤ E + k * (|s| + E) := by
    have := abs_sub_le (fl (N' / v')) (N' / v') s
    linarith
  refine le_trans h7 ?_
  rw [le_div_iff₀ v0]
  have h8 : E * v = 18 * k * X + 14 * k * |s| := by rw [eE]; field_simp
  have h9 : k * |s| * v ≤ k * |s| := by
    have := mul_nonneg k0 s0
    nlinarith
  have h10 : k * (E * v) ≤ 1 / 100 * (E * v) := mul_le_mul_of_nonneg_right hk (by rw [h8]; positivity)
  have h11 : 0 ≤ k * X := mul_nonneg k0 X0
  have h12 : 0 ≤ k * |s| := mul_nonneg k0 s0
  nlinarith

/-- the slope, given the offset -/
theorem Means.slope (h : Means k X mx mz mxz mz2 mx' mz' mxz' mz2') (hr : Rounds ε fl) (hε : ε ≤ k) (hk : k ≤ 1 / 100) (s : ℝ) :
    |slopeFl fl s mz' mxz' mz2' - (mxz - s * mz) / mz2| ≤ 6 * k * (X + |s|) * (mz / mz2) := by
  obtain ⟨a, b, c, c', q, ea, ha, eb, hb, ec, hc, ec', hc', eq, q0, q1⟩ := h.ratios
  obtain ⟨d1, e1, h1⟩ := factor hr (s * mz')
  obtain ⟨d2, e2, h2⟩ := factor hr (mxz' - fl (s * mz'))
  obtain ⟨d3, e3, h3⟩ := factor hr (fl (mxz' - fl (s * mz')) / mz2')
  have hz := h.z
  have hz2 := h.z2
  have k0 : 0 ≤ k := le_trans (abs_nonneg _) ha
  have X0 : 0 ≤ X := le_trans (abs_nonneg _) hc
  have s0 := abs_nonneg s
  have b0 : b ≠ 0 := by
    rintro rfl
    norm_num at hb
    linarith
  have e : slopeFl fl s mz' mxz' mz2' = (mz / mz2) * ((c' - s * (a * d1)) * (d2 * d3 / b)) := by
    rw [slopeFl, e3, e2, e1, ea, eb, ec']
    field_simp
  have e' : (mxz - s * mz) / mz2 = (mz / mz2) * (c - s) := by rw [ec]; ring
  have t := three hk (le_trans h2 hε) (le_trans h3 hε) hb
  have ad : |a * d1 - 1| ≤ 201 / 100 * k := by
    rw [show a * d1 - 1 = (a - 1) * d1 + (d1 - 1) by ring]
    refine le_trans (abs_add_le _ _) ?_
    rw [abs_mul]
    have hd : |d1| ≤ 101 / 100 := by
      have := le_trans h1 hε
      rw [abs_le] at *
      constructor <;> linarith [this.1, this.2]
    have := mul_le_mul ha hd (abs_nonneg _) k0
    linarith [le_trans h1 hε]
  have sad : |s * (a * d1 - 1)| ≤ |s| * (201 / 100 * k) := by rw [abs_mul]; exact mul_le_mul_of_nonneg_left ad s0
  have kX : k * X ≤ 1 / 100 * X := mul_le_mul_of_nonneg_right hk X0
  have ks : k * |s| ≤ 1 / 100 * |s| := mul_le_mul_of_nonneg_right hk s0
  have sz : |c' - s * (a * d1)| ≤ 103 / 100 * (X + |s|) := by
    rw [show c' - s * (a * d1) = (c' - c) + c + (-s) + -(s * (a * d1 - 1)) by ring]
    refine le_trans (abs_add_le _ _) ?_
    rw [abs_neg]
    have := abs_add_le ((c' - c) + c) (-s)
    rw [abs_neg] at this
    have := abs_add_le (c' - c) c
    nlinarith
  have key : |(c' - s * (a * d1)) * (d2 * d3 / b) - (c - s)| ≤ 6 * k * (X + |s|) := by
    rw [show (c' - s * (a * d1)) * (d2 * d3 / b) - (c - s) = (c' - s * (a * d1)) * (d2 * d3 / b - 1) + ((c' - c) + -(s * (a * d1 - 1))) by ring]
    refine le_trans (abs_add_le _ _) ?_
    rw [abs_mul]
    have m1 := mul_le_mul sz t (abs_nonneg _) (by positivity)
    have m2 := abs_add_le (c' - c) (-(s * (a * d1 - 1)))
    rw [abs_neg] at m2
    have p1 := mul_nonneg k0 X0
    have p2 := mul_nonneg k0 s0
    nlinarith
  have hq : 0 < mz / mz2 := div_pos hz hz2
  rw [e, e', ← mul_sub, abs_mul, abs_of_pos hq, mul_comm]
  exact mul_le_mul_of_nonneg_right key hq.le

end C138

end

end Tomopt
