import Verif.Lemmas.RoundedFit
import Verif.Lemmas.Floats
import Mathlib.Data.List.Permutation

/-
Property theorems: C138, fitted tracks in floating point.
-/
namespace Tomopt

noncomputable section

namespace C138

open Infer Scatter Floats

/-- Hits of a muon in one projection: heights above zero, weights that are not negative and not all zero, coordinates of at most `X`. -/
structure Hits (X : ℝ) (l : List FitPt) : Prop where
  z : ∀ h ∈ l, 0 < h.z
  w : ∀ h ∈ l, 0 ≤ h.w
  some : 0 < (l.map fun h => h.w).sum
  x : ∀ h ∈ l, |h.x| ≤ X

/-- mean height -/
def meanZ (l : List FitPt) : ℝ := wmean l fun h => h.z

/-- mean square of the heights -/
def meanZ2 (l : List FitPt) : ℝ := wmean l fun h => h.z * h.z

/-- The variance of the heights divided by their mean square. -/
def spread (l : List FitPt) : ℝ := wmean l (fun h => (h.z - meanZ l) ^ 2) / meanZ2 l

/-- the error of `n` hits: `2 D + 3` roundings, where `D` is the number of additions one after the other -/
def unit (ε : ℝ) (d : Nat) : ℝ := 11 / 10 * ((2 * d + 3) * ε)

variable {ε X : ℝ} {fl : ℝ → ℝ} {D : Nat → Nat} {sm : List ℝ → ℝ}

/-! ### Helpers -/

theorem wmean_mono {l : List FitPt} (hw : ∀ h ∈ l, 0 ≤ h.w) (hW : 0 < (l.map fun h => h.w).sum) {f g : FitPt → ℝ} (h : ∀ p ∈ l, f p ≤ g p) : wmean l f ≤ wmean l g :=
  div_le_div_of_nonneg_right (List.sum_le_sum fun p hp => mul_le_mul_of_nonneg_right (h p hp) (hw p hp)) hW.le

theorem wmean_mul (l : List FitPt) (c : ℝ) (f : FitPt → ℝ) : wmean l (fun h => c * f h) = c * wmean l f := by
  unfold wmean
  rw [show (fun h : FitPt => c * f h * h.w) = fun h => c * (f h * h.w) from funext fun h => by ring, List.sum_map_mul_left, mul_div_assoc]

theorem wmean_const {l : List FitPt} (hW : 0 < (l.map fun h => h.w).sum) (c : ℝ) : wmean l (fun _ => c) = c := by
  unfold wmean
  rw [List.sum_map_mul_left]
  field_simp

theorem wmean_abs {l : List FitPt} (hw : ∀ h ∈ l, 0 ≤ h.w) (hW : 0 < (l.map fun h => h.w).sum) {f F : FitPt → ℝ} (h : ∀ p ∈ l, |f p| ≤ F p) : |wmean l f| ≤ wmean l F := by
  unfold wmean
  rw [abs_div, abs_of_pos hW]
  refine div_le_div_of_nonneg_right (sum_abs _ _ l fun p hp => ?_) hW.le
  rw [abs_mul, abs_of_nonneg (hw p hp)]
  exact mul_le_mul_of_nonneg_right (h p hp) (hw p hp)

theorem wmean_pos {l : List FitPt} (hw : ∀ h ∈ l, 0 ≤ h.w) (hW : 0 < (l.map fun h => h.w).sum) {f : FitPt → ℝ} (h : ∀ p ∈ l, 0 < f p) : 0 < wmean l f := by
  refine div_pos ?_ hW
  have nn : ∀ p ∈ l, 0 ≤ f p * p.w := fun p hp => mul_nonneg (h p hp).le (hw p hp)
  rcases (List.sum_nonneg (l := l.map fun h => f h * h.w) (by simpa using nn)).eq_or_lt with e | e
  · exfalso
    have z : ∀ p ∈ l, p.w = 0 := by
      intro p hp
      have := (List.all_zero_of_le_zero_le_of_sum_eq_zero (l := l.map fun h => f h * h.w) (by simpa using nn) e.symm (List.mem_map_of_mem hp) : f p * p.w = 0)
      rcases mul_eq_zero.mp this with h0 | h0
      · exact absurd h0 (h p hp).ne'
      · exact h0
    have : (l.map fun h => h.w).sum = 0 := List.sum_eq_zero (by simpa using z)
    linarith
  · exact e

theorem variance {l : List FitPt} (hW : 0 < (l.map fun h => h.w).sum) (c : ℝ) : wmean l (fun h => (h.z - c) ^ 2) = meanZ2 l - 2 * c * meanZ l + c ^ 2 := by
  have e : ∀ l : List FitPt, (l.map fun h => (h.z - c) ^ 2 * h.w).sum = (l.map fun h => h.z * h.z * h.w).sum - 2 * c * (l.map fun h => h.z * h.w).sum + c ^ 2 * (l.map fun h => h.w).sum := by
    intro l
    induction l with
    | nil => simp
    | cons h l ih => simp only [List.map_cons, List.sum_cons, ih]; ring
  unfold meanZ2 meanZ wmean
  rw [e l]
  field_simp

theorem spread_eq {l : List FitPt} (hl : Hits X l) : spread l = 1 - meanZ l ^ 2 / meanZ2 l := by
  have h2 : 0 < meanZ2 l := wmean_pos hl.w hl.some fun p hp => mul_pos (hl.z p hp) (hl.z p hp)
  rw [spread, variance hl.some]
  field_simp
  ring

theorem amp_le (hr : Rounds ε fl) (k : Nat) (hk : k * ε ≤ 1 / 20) : amp ε k - 1 ≤ 11 / 10 * (k * ε) := by
  have w : Within ε k (amp ε k) 1 := by
    have hp := Within.pow_pos' hr k
    have h1 := amp_one hr k
    constructor
    · have : (1 - ε) ^ k ≤ 1 := pow_le_one₀ (by linarith [hr.small]) (by linarith [hr.nonneg])
      linarith
    · rw [amp, ← mul_pow, mul_inv_cancel₀ (by linarith [hr.small]), one_pow]
  have := Within.error hr hk zero_le_one w
  linarith [le_abs_self (amp ε k - 1)]

/-- the computed means of the hits -/
theorem means (hr : Rounds ε fl) (hs : Summation fl D sm) {l : List FitPt} (hl : Hits X l) (hk : (2 * D l.length + 3) * ε ≤ 1 / 110) :
    Means (unit ε (D l.length)) X (wmean l fun h => h.x) (meanZ l) (wmean l fun h => h.x * h.z) (meanZ2 l) (meanFl fl sm (fun h => h.x) l) (meanFl fl sm (fun h => h.z) l)
      (meanFl fl sm (fun h => fl (h.x * h.z)) l) (meanFl fl sm (fun h => fl (h.z * h.z)) l) := by
  have hX : ∀ h ∈ l, |h.x * h.z| ≤ X * h.z := fun h hh => by
    rw [abs_mul, abs_of_pos (hl.z h hh)]
    exact mul_le_mul_of_nonneg_right (hl.x h hh) (hl.z h hh).le
  have hz : 0 < meanZ l := wmean_pos hl.w hl.some hl.z
  have hz2 : 0 < meanZ2 l := wmean_pos hl.w hl.some fun p hp => mul_pos (hl.z p hp) (hl.z p hp)
  have X0 : 0 ≤ X := by
    have := wmean_abs hl.w hl.some hl.x
    rw [wmean_const hl.some] at this
    exact le_trans (abs_nonneg _) this
  have a3 : amp ε (2 * D l.length + 2 + 1) - 1 ≤ unit ε (D l.length) := by
    have := amp_le hr (2 * D l.length + 2 + 1) (by push_cast; linarith)
    unfold unit
    push_cast at this
    linarith
  have a2 : amp ε (2 * D l.length + 2 + 0) - 1 ≤ unit ε (D l.length) := le_trans (sub_le_sub_right (amp_mono hr (by omega)) 1) a3
  have e0 : ∀ y : ℝ, |y - y| ≤ (amp ε 0 - 1) * |y| := fun y => by simp [amp]
  have e1 : ∀ y A : ℝ, |y| ≤ A → |fl y - y| ≤ (amp ε 1 - 1) * A := fun y A h => by
    have := hr.rel y
    have h1 := amp_eps hr
    have h2 := mul_le_mul_of_nonneg_left h hr.nonneg
    have hA : 0 ≤ A := le_trans (abs_nonneg _) h
    have h3 := mul_le_mul_of_nonneg_right (show ε ≤ amp ε 1 - 1 by linarith) hA
    linarith
  have mX : wmean l (fun h => X * h.z) = X * meanZ l := wmean_mul l X _
  refine ⟨hz, hz2, ?_, ?_, ?_, ?_, ?_, ?_, ?_⟩
  · have := variance hl.some (meanZ l)
    have h0 : 0 ≤ wmean l (fun h => (h.z - meanZ l) ^ 2) := by
      have := wmean_mono hl.w hl.some (f := fun _ => 0) (g := fun h => (h.z - meanZ l) ^ 2) fun p _ => sq_nonneg _
      rwa [wmean_const hl.some] at this
    nlinarith
  · have := wmean_abs hl.w hl.some hl.x
    rwa [wmean_const hl.some] at this
  · have := wmean_abs hl.w hl.some hX
    rwa [mX] at this
  · have := mean_near hr hs l hl.w hl.some (fun h => h.x) (fun h => h.x) (fun _ => X) 0 hl.x (fun h hh => by simp [amp])
    rw [wmean_const hl.some] at this
    exact le_trans this (mul_le_mul_of_nonneg_right a2 X0)
  · have := mean_near hr hs l hl.w hl.some (fun h => h.z) (fun h => h.z) (fun h => h.z) 0 (fun h hh => by rw [abs_of_pos (hl.z h hh)]) (fun h hh => by simp [amp])
    exact le_trans this (mul_le_mul_of_nonneg_right a2 hz.le)
  · have := mean_near hr hs l hl.w hl.some (fun h => fl (h.x * h.z)) (fun h => h.x * h.z) (fun h => X * h.z) 1 hX (fun h hh => e1 _ _ (hX h hh))
    rw [mX] at this
    exact le_trans this (mul_le_mul_of_nonneg_right a3 (mul_nonneg X0 hz.le))
  · have hp : ∀ h ∈ l, |h.z * h.z| ≤ h.z * h.z := fun h hh => by rw [abs_of_nonneg (mul_self_nonneg _)]
    have := mean_near hr hs l hl.w hl.some (fun h => fl (h.z * h.z)) (fun h => h.z * h.z) (fun h => h.z * h.z) 1 hp (fun h hh => e1 _ _ (hp h hh))
    exact le_trans this (mul_le_mul_of_nonneg_right a3 hz2.le)

/-- the exact fit -/
theorem exact_fit {l : List FitPt} (hl : Hits X l) (hv : 0 < spread l) :
    let s := ((wmean l fun h => h.x) - meanZ l * (wmean l fun h => h.x * h.z) / meanZ2 l) / spread l
    fitAxis l = some (s, ((wmean l fun h => h.x * h.z) - s * meanZ l) / meanZ2 l) := by
  have h2 : 0 < meanZ2 l := wmean_pos hl.w hl.some fun p hp => mul_pos (hl.z p hp) (hl.z p hp)
  have e := spread_eq hl
  intro s
  have hv' : 1 - meanZ l ^ 2 / meanZ2 l ≠ 0 := by rw [← e]; exact hv.ne'
  unfold meanZ meanZ2 wmean at h2 hv'
  unfold fitAxis
  simp only [hl.some.ne', h2.ne', hv', if_false]
  have es : s = ((l.map fun h => h.x * h.w).sum / (l.map fun h => h.w).sum - (l.map fun h => h.z * h.w).sum / (l.map fun h => h.w).sum * ((l.map fun h => h.x * h.z * h.w).sum / (l.map fun h => h.w).sum) /
      ((l.map fun h => h.z * h.z * h.w).sum / (l.map fun h => h.w).sum)) / (1 - ((l.map fun h => h.z * h.w).sum / (l.map fun h => h.w).sum) ^ 2 / ((l.map fun h => h.z * h.z * h.w).sum / (l.map fun h => h.w).sum)) := by
    change _ / spread l = _
    rw [e]
    rfl
  rw [← es]
  rfl

/-! ### Accuracy -/

/-- **C138: accuracy.** If the spread of the heights is at least fourteen times the error of the hits, a line is fitted wherever it is in exact arithmetic. Its offset, its slope and its position at every
height are those of the exact fit, up to errors that are inversely proportional to the spread. -/
theorem accuracy (hr : Rounds ε fl) (hs : Summation fl D sm) (l : List FitPt) (hl : Hits X l) (hk : (2 * D l.length + 3) * ε ≤ 1 / 110) (hv : 14 * unit ε (D l.length) ≤ spread l) (hv0 : 0 < spread l) :
    ∃ s m s' m', fitAxis l = some (s, m) ∧ fitAxisFl fl sm l = some (s', m') ∧
      |s' - s| ≤ 19 * unit ε (D l.length) * (X + |s|) / spread l ∧
      |m' - m| ≤ 34 * unit ε (D l.length) * (X + |s|) / spread l * (meanZ l / meanZ2 l) ∧
      ∀ z, |(s' + m' * z) - (s + m * z)| ≤ unit ε (D l.length) * (X + |s|) * (19 * |1 - z * (meanZ l / meanZ2 l)| / spread l + 15 * |z| * (meanZ l / meanZ2 l)) := by
  have hM := means hr hs hl hk
  have hε : ε ≤ unit ε (D l.length) := by
    unfold unit
    have h1 : (0 : ℝ) ≤ D l.length := Nat.cast_nonneg _
    have := mul_nonneg h1 hr.nonneg
    linarith [hr.nonneg]
  have hk' : unit ε (D l.length) ≤ 1 / 100 := by unfold unit; linarith
  have k0 : 0 ≤ unit ε (D l.length) := le_trans hr.nonneg hε
  have ev := spread_eq hl
  have ex := exact_fit hl hv0
  simp only at ex
  set κ := unit ε (D l.length) with eκ
  set v := spread l with eV
  set s := ((wmean l fun h => h.x) - meanZ l * (wmean l fun h => h.x * h.z) / meanZ2 l) / v with es
  set m := ((wmean l fun h => h.x * h.z) - s * meanZ l) / meanZ2 l with em
  obtain ⟨hsp, hst⟩ := hM.star hr hε hk' ev hv hv0 es
  set s' := starFl fl (meanFl fl sm (fun h => h.x) l) (meanFl fl sm (fun h => h.z) l) (meanFl fl sm (fun h => fl (h.x * h.z)) l) (meanFl fl sm (fun h => fl (h.z * h.z)) l) with es'
  have hsl := hM.slope hr hε hk' s'
  set m' := slopeFl fl s' (meanFl fl sm (fun h => h.z) l) (meanFl fl sm (fun h => fl (h.x * h.z)) l) (meanFl fl sm (fun h => fl (h.z * h.z)) l) with em'
  have hW' : sm (l.map fun h => h.w) ≠ 0 := by
    have := Within.summed hr hs (l.map fun h => h.w) (by simpa using hl.w)
    exact (Within.pos hr this hl.some).ne'
  have hz2' : meanFl fl sm (fun h => fl (h.z * h.z)) l ≠ 0 := by
    intro h0
    have := hM.ez2
    rw [h0, zero_sub, abs_neg, abs_of_pos hM.z2] at this
    nlinarith [hM.z2]
  have X0 : 0 ≤ X := le_trans (abs_nonneg _) hM.x
  have s0 := abs_nonneg s
  have v1 : v ≤ 1 := by rw [ev]; have := div_nonneg (sq_nonneg (meanZ l)) hM.z2.le; linarith
  have hq : 0 < meanZ l / meanZ2 l := div_pos hM.z hM.z2
  set q := meanZ l / meanZ2 l with eq
  -- the computed offset is not much larger than the exact one
  have hXs : X + |s'| ≤ 5 / 2 * (X + |s|) := by
    have h1 : 19 * κ * (X + |s|) / v ≤ 19 / 14 * (X + |s|) := by
      rw [div_le_iff₀ hv0]
      have : 0 ≤ X + |s| := by positivity
      nlinarith
    have h2 := abs_sub_abs_le_abs_sub s' s
    linarith
  have hm : |m' - (m - (s' - s) * q)| ≤ 15 * κ * (X + |s|) * q := by
    have e1 : ((wmean l fun h => h.x * h.z) - s' * meanZ l) / meanZ2 l = m - (s' - s) * q := by rw [em, eq]; ring
    rw [e1] at hsl
    refine le_trans hsl (mul_le_mul_of_nonneg_right ?_ hq.le)
    have := mul_le_mul_of_nonneg_left hXs (show 0 ≤ 6 * κ by linarith)
    linarith
  refine ⟨s, m, s', m', ex, ?_, hst, ?_, fun z => ?_⟩
  · unfold fitAxisFl
    simp only [hW', hz2', hsp, if_false]
    rfl
  · have h1 : |m' - m| ≤ |m' - (m - (s' - s) * q)| + |s' - s| * q := by
      rw [show m' - m = (m' - (m - (s' - s) * q)) + -((s' - s) * q) by ring]
      refine le_trans (abs_add_le _ _) ?_
      rw [abs_neg, abs_mul, abs_of_pos hq]
    have h2 := mul_le_mul_of_nonneg_right hst hq.le
    have h3 : 15 * κ * (X + |s|) ≤ 15 * κ * (X + |s|) / v := by
      rw [le_div_iff₀ hv0]
      have : 0 ≤ 15 * κ * (X + |s|) := by positivity
      nlinarith
    have h4 := mul_le_mul_of_nonneg_right h3 hq.le
    have h5 : 34 * κ * (X + |s|) / v * q = 15 * κ * (X + |s|) / v * q + 19 * κ * (X + |s|) / v * q := by ring
    linarith
  · have e1 : (s' + m' * z) - (s + m * z) = (s' - s) * (1 - z * q) + (m' - (m - (s' - s) * q)) * z := by ring
    rw [e1]
    refine le_trans (abs_add_le _ _) ?_
    rw [abs_mul, abs_mul]
    have h1 := mul_le_mul_of_nonneg_right hst (abs_nonneg (1 - z * q))
    have h2 := mul_le_mul_of_nonneg_right hm (abs_nonneg z)
    have h3 : κ * (X + |s|) * (19 * |1 - z * q| / v + 15 * |z| * q) = 19 * κ * (X + |s|) / v * |1 - z * q| + 15 * κ * (X + |s|) * q * |z| := by ring
    linarith

/-- **C138: at the mean height.** At the mean height of the hits the position of the fitted line does not suffer from a small spread. -/
theorem centre (hr : Rounds ε fl) (hs : Summation fl D sm) (l : List FitPt) (hl : Hits X l) (hk : (2 * D l.length + 3) * ε ≤ 1 / 110) (hv : 14 * unit ε (D l.length) ≤ spread l) (hv0 : 0 < spread l) :
    ∃ s m s' m', fitAxis l = some (s, m) ∧ fitAxisFl fl sm l = some (s', m') ∧ |(s' + m' * meanZ l) - (s + m * meanZ l)| ≤ 34 * unit ε (D l.length) * (X + |s|) := by
  obtain ⟨s, m, s', m', e, e', _, _, h⟩ := accuracy hr hs l hl hk hv hv0
  refine ⟨s, m, s', m', e, e', le_trans (h (meanZ l)) ?_⟩
  have hM := means hr hs hl hk
  have ev := spread_eq hl
  have hz := hM.z
  have e1 : 1 - meanZ l * (meanZ l / meanZ2 l) = spread l := by rw [ev]; ring
  have X0 : 0 ≤ X := le_trans (abs_nonneg _) hM.x
  have k0 : 0 ≤ unit ε (D l.length) := by
    unfold unit
    have h1 : (0 : ℝ) ≤ D l.length := Nat.cast_nonneg _
    have := hr.nonneg
    positivity
  rw [e1, abs_of_pos hv0, abs_of_pos hz, mul_div_assoc, div_self hv0.ne']
  have h1 : meanZ l * (meanZ l / meanZ2 l) ≤ 1 := by linarith
  have h2 : 0 ≤ unit ε (D l.length) * (X + |s|) := mul_nonneg k0 (by positivity)
  nlinarith

/-- **C138: single precision.** For up to four hits in single precision: the slope is right up to 21 parts in a million, times the largest coordinate and offset, divided by the spread and the height. -/
theorem single (hf : Nearest 24 fl) (hs : Summation fl D sm) (l : List FitPt) (hD : D l.length ≤ 3) (hl : Hits X l) (hv : 1 / 100000 ≤ spread l) :
    ∃ s m s' m', fitAxis l = some (s, m) ∧ fitAxisFl fl sm l = some (s', m') ∧ |m' - m| ≤ 21 / 1000000 * (X + |s|) / spread l * (meanZ l / meanZ2 l) := by
  have hr : Rounds (1 / 2 ^ 24) fl := ⟨by norm_num, by norm_num, fun x => nearest_rel 24 24 (by norm_num) le_rfl fl hf x⟩
  have hD' : (D l.length : ℝ) ≤ 3 := by exact_mod_cast hD
  have hu : unit (1 / 2 ^ 24) (D l.length) ≤ 6 / 10000000 := by
    unfold unit
    norm_num
    linarith
  have hv0 : 0 < spread l := by linarith
  have hk : (2 * (D l.length : ℝ) + 3) * (1 / 2 ^ 24) ≤ 1 / 110 := by
    norm_num
    linarith
  obtain ⟨s, m, s', m', e, e', _, h, _⟩ := accuracy hr hs l hl hk (by linarith) hv0
  refine ⟨s, m, s', m', e, e', le_trans h ?_⟩
  have hM := means hr hs hl hk
  have X0 : 0 ≤ X := le_trans (abs_nonneg _) hM.x
  refine mul_le_mul_of_nonneg_right (div_le_div_of_nonneg_right (mul_le_mul_of_nonneg_right (by linarith) (by positivity)) hv0.le) (div_pos hM.z hM.z2).le

/-! ### Tilted and lost tracks -/

theorem float_of (m : ℤ) (e : ℕ) (hm : |m| ≤ 2 ^ 24) {x : ℝ} (h : x = m / 2 ^ e) : IsFloat 24 x := ⟨m, -e, hm, by rw [h, zpow_neg, zpow_natCast]; rfl⟩

/-- a result that is a floating-point number -/
theorem same (hf : Nearest 24 fl) (m : ℤ) (e : ℕ) (hm : |m| ≤ 2 ^ 24) {x : ℝ} (h : x = m / 2 ^ e) : fl x = x := nearest_self 24 fl hf x (float_of m e hm h)

/-- a result between a half and one -/
theorem below_one (hf : Nearest 24 fl) (m : ℤ) (hm : |m| ≤ 2 ^ 24) {x y : ℝ} (hy : y = m / 2 ^ 24) (hx : 1 / 2 ≤ x) (h : |x - y| < 1 / 2 ^ 25) : fl x = y := by
  have e : (m : ℝ) * 2 ^ ((-1 : ℤ) + 1 - (24 : ℕ)) = y := by rw [hy]; norm_num [zpow_neg]; ring
  rw [nearest_eq 24 (by norm_num) fl hf (-1) m x (by rw [zpow_neg_one]; linarith) hm ?_, e]
  rw [e]
  refine lt_of_lt_of_eq h ?_
  norm_num [zpow_neg]

theorem eval_none (hf : Nearest 24 fl) (t : Tree) (h : t.leaves = []) : t.eval fl = 0 := by
  induction t with
  | nil => rfl
  | leaf x => simp [Tree.leaves] at h
  | node l r hl hr' =>
    simp only [Tree.leaves, List.append_eq_nil_iff] at h
    rw [Tree.eval, hl h.1, hr' h.2, add_zero]
    exact nearest_self 24 fl hf 0 ⟨0, 0, by norm_num, by norm_num⟩

theorem eval_one (hf : Nearest 24 fl) {a : ℝ} (ha : IsFloat 24 a) (t : Tree) (h : t.leaves = [a]) : t.eval fl = a := by
  induction t with
  | nil => simp [Tree.leaves] at h
  | leaf x => simpa [Tree.leaves, Tree.eval] using h
  | node l r hl hr' =>
    simp only [Tree.leaves, List.append_eq_singleton_iff] at h
    rw [Tree.eval]
    rcases h with ⟨h1, h2⟩ | ⟨h1, h2⟩
    · rw [eval_none hf l h1, hr' h2, zero_add, nearest_self 24 fl hf a ha]
    · rw [hl h1, eval_none hf r h2, add_zero, nearest_self 24 fl hf a ha]

theorem eval_two (hf : Nearest 24 fl) {a b : ℝ} (ha : IsFloat 24 a) (hb : IsFloat 24 b) (t : Tree) (h : t.leaves = [a, b]) : t.eval fl = fl (a + b) := by
  have idem : ∀ x, fl (fl x) = fl x := fun x => nearest_self 24 fl hf _ (hf x).1
  induction t with
  | nil => simp [Tree.leaves] at h
  | leaf x => simp [Tree.leaves] at h
  | node l r hl hr' =>
    simp only [Tree.leaves] at h
    rw [Tree.eval]
    rcases List.append_eq_cons_iff.mp h with ⟨h1, h2⟩ | ⟨as, h1, h2⟩
    · rw [eval_none hf l h1, hr' h2, zero_add, idem]
    · rcases List.append_eq_cons_iff.mp h2.symm with ⟨h3, h4⟩ | ⟨bs, h3, h4⟩
      · rw [eval_one hf ha l (by rw [h1, h3]), eval_one hf hb r h4]
      · obtain ⟨h5, h6⟩ := List.append_eq_nil_iff.mp h4.symm
        rw [hl (by rw [h1, h3, h5]), eval_none hf r h6, add_zero, idem]

/-- two numbers have only one sum, in whatever order they are added -/
theorem sum_two (hf : Nearest 24 fl) (hs : Summation fl D sm) {a b : ℝ} (ha : IsFloat 24 a) (hb : IsFloat 24 b) : sm [a, b] = fl (a + b) := by
  obtain ⟨t, h, _, e⟩ := hs [a, b]
  rw [e]
  rcases List.perm_pair.mp h with h | h
  · exact eval_two hf ha hb t h
  · rw [eval_two hf hb ha t h, add_comm]

/-- a vertical muon, seen by two panels near the height of one metre -/
def vertical : List FitPt := [⟨17 / 32, 1, 1⟩, ⟨17 / 32, 63 / 64, 1⟩]

/-- two panels that are an eighth of a millimetre apart, at the height of one metre -/
def close (x₁ x₂ : ℝ) : List FitPt := [⟨x₁, 1, 1⟩, ⟨x₂, 1 - 1 / 2 ^ 13, 1⟩]

/-- the sum of two rounded terms, both of which are floating-point numbers -/
theorem mean_two (hf : Nearest 24 fl) (hs : Summation fl D sm) (g : FitPt → ℝ) (h₁ h₂ : FitPt) (w₁ : h₁.w = 1) (w₂ : h₂.w = 1) (g₁ : IsFloat 24 (g h₁)) (g₂ : IsFloat 24 (g h₂)) :
    meanFl fl sm g [h₁, h₂] = fl (fl (g h₁ + g h₂) / 2) := by
  have f1 : IsFloat 24 1 := float_of 1 0 (by norm_num) (by norm_num)
  unfold meanFl
  simp only [List.map_cons, List.map_nil, w₁, w₂, mul_one]
  rw [nearest_self 24 fl hf _ g₁, nearest_self 24 fl hf _ g₂, sum_two hf hs g₁ g₂, sum_two hf hs f1 f1, show (1 : ℝ) + 1 = 2 by norm_num, same hf 2 0 (by norm_num) (x := 2) (by norm_num)]

theorem weight_two (hf : Nearest 24 fl) (hs : Summation fl D sm) : sm [1, 1] = 2 := by
  have f1 : IsFloat 24 1 := float_of 1 0 (by norm_num) (by norm_num)
  rw [sum_two hf hs f1 f1, show (1 : ℝ) + 1 = 2 by norm_num, same hf 2 0 (by norm_num) (x := 2) (by norm_num)]

/-- **C138: tilted.** A vertical muon whose hits are known exactly is given a slope of almost half a milliradian in single precision, however ties and sums are treated: the scattering it is then said to
have is that of a real scattering. -/
theorem tilted_violated : fitAxis vertical = some (17 / 32, 0) ∧ ∀ fl D sm, Nearest 24 fl → Summation fl D sm → ∃ s' m', fitAxisFl fl sm vertical = some (s', m') ∧ m' ≤ -(48 / 100000) := by
  constructor
  · unfold fitAxis vertical
    norm_num
  · intro fl D sm hf hs
    have mx : meanFl fl sm (fun h => h.x) vertical = 17 / 32 := by
      unfold vertical
      rw [mean_two hf hs _ _ _ rfl rfl (float_of 17 5 (by norm_num) (by norm_num)) (float_of 17 5 (by norm_num) (by norm_num))]
      norm_num [same hf 17 4 (by norm_num) (x := 17 / 16) (by norm_num),
        same hf 17 5 (by norm_num) (x := 17 / 32) (by norm_num)]
    have mz : meanFl fl sm (fun h => h.z) vertical = 127 / 128 := by
      unfold vertical
      rw [mean_two hf hs _ _ _ rfl rfl (float_of 1 0 (by norm_num) (by norm_num)) (float_of 63 6 (by norm_num) (by norm_num))]
      norm_num [same hf 127 6 (by norm_num) (x := 127 / 64) (by norm_num),
        same hf 127 7 (by norm_num) (x := 127 / 128) (by norm_num)]
    have mxz : meanFl fl sm (fun h => fl (h.x * h.z)) vertical = 2159 / 4096 := by
      unfold vertical
      rw [mean_two hf hs _ _ _ rfl rfl (hf _).1 (hf _).1]
      norm_num [same hf 17 5 (by norm_num) (x := 17 / 32) (by norm_num),
        same hf 1071 11 (by norm_num) (x := 1071 / 2048) (by norm_num),
        same hf 2159 11 (by norm_num) (x := 2159 / 2048) (by norm_num),
        same hf 2159 12 (by norm_num) (x := 2159 / 4096) (by norm_num)]
    have mz2 : meanFl fl sm (fun h => fl (h.z * h.z)) vertical = 8065 / 8192 := by
      unfold vertical
      rw [mean_two hf hs _ _ _ rfl rfl (hf _).1 (hf _).1]
      norm_num [same hf 1 0 (by norm_num) (x := 1) (by norm_num),
        same hf 3969 12 (by norm_num) (x := 3969 / 4096) (by norm_num),
        same hf 8065 12 (by norm_num) (x := 8065 / 4096) (by norm_num),
        same hf 8065 13 (by norm_num) (x := 8065 / 8192) (by norm_num)]
    have hw : sm (vertical.map fun h => h.w) = 2 := weight_two hf hs
    have sp : spreadFl fl (127 / 128) (8065 / 8192) = 65 / 1048576 := by
      unfold spreadFl
      norm_num [same hf 16129 14 (by norm_num) (x := 16129 / 16384) (by norm_num),
        below_one hf 16776176 (by norm_num) (x := 16129 / 16130) (y := 1048511 / 1048576) (by norm_num) (by norm_num) (by rw [abs_lt]; constructor <;> norm_num), same hf 65 20 (by norm_num) (x := 65 / 1048576) (by norm_num)]
    have st : starFl fl (17 / 32) (127 / 128) (2159 / 4096) (8065 / 8192) = 4460481 / 8388608 := by
      unfold starFl
      norm_num [sp, same hf 274193 19 (by norm_num) (x := 274193 / 524288) (by norm_num),
        below_one hf 8912343 (by norm_num) (x := 274193 / 516160) (y := 8912343 / 16777216) (by norm_num) (by norm_num) (by rw [abs_lt]; constructor <;> norm_num), same hf 553 24 (by norm_num) (x := 553 / 16777216) (by norm_num),
        below_one hf 8920962 (by norm_num) (x := 553 / 1040) (y := 4460481 / 8388608) (by norm_num) (by norm_num) (by rw [abs_lt]; constructor <;> norm_num)]
    have sl : slopeFl fl (4460481 / 8388608) (127 / 128) (2159 / 4096) (8065 / 8192) ≤ -(63 / 131072) := by
      unfold slopeFl
      norm_num [below_one hf 8851267 (by norm_num) (x := 566481087 / 1073741824) (y := 8851267 / 16777216) (by norm_num) (by norm_num) (by rw [abs_lt]; constructor <;> norm_num), same hf (-8003) 24 (by norm_num) (x := -(8003 / 16777216)) (by norm_num)]
      exact nearest_le 24 fl hf _ _ (float_of (-63) 17 (by norm_num) (by norm_num)) (by norm_num)
    refine ⟨4460481 / 8388608, slopeFl fl (4460481 / 8388608) (127 / 128) (2159 / 4096) (8065 / 8192), ?_, le_trans sl (by norm_num)⟩
    unfold fitAxisFl
    simp only [hw, mx, mz, mxz, mz2, sp, st]
    norm_num

/-- **C138: lost.** Two exact hits on panels an eighth of a millimetre apart have a line through them, but in single precision the computed spread is zero and no muon gets a track, wherever it passes. -/
theorem lost_violated (x₁ x₂ : ℝ) : fitAxis (close x₁ x₂) ≠ none ∧ ∀ fl D sm, Nearest 24 fl → Summation fl D sm → fitAxisFl fl sm (close x₁ x₂) = none := by
  constructor
  · unfold fitAxis close
    norm_num
    exact Option.some_ne_none _
  · intro fl D sm hf hs
    have mz : meanFl fl sm (fun h => h.z) (close x₁ x₂) = 16383 / 16384 := by
      unfold close
      rw [mean_two hf hs _ _ _ rfl rfl (float_of 1 0 (by norm_num) (by norm_num)) (float_of 8191 13 (by norm_num) (by norm_num))]
      norm_num [same hf 16383 13 (by norm_num) (x := 16383 / 8192) (by norm_num),
        same hf 16383 14 (by norm_num) (x := 16383 / 16384) (by norm_num)]
    have mz2 : meanFl fl sm (fun h => fl (h.z * h.z)) (close x₁ x₂) = 8191 / 8192 := by
      unfold close
      rw [mean_two hf hs _ _ _ rfl rfl (hf _).1 (hf _).1]
      norm_num [same hf 1 0 (by norm_num) (x := 1) (by norm_num),
        below_one hf 16773120 (by norm_num) (x := 67092481 / 67108864) (y := 4095 / 4096) (by norm_num) (by norm_num) (by rw [abs_lt]; constructor <;> norm_num),
        same hf 8191 12 (by norm_num) (x := 8191 / 4096) (by norm_num),
        same hf 8191 13 (by norm_num) (x := 8191 / 8192) (by norm_num)]
    have hw : sm ((close x₁ x₂).map fun h => h.w) = 2 := weight_two hf hs
    have sp : spreadFl fl (16383 / 16384) (8191 / 8192) = 0 := by
      unfold spreadFl
      norm_num [below_one hf 16775168 (by norm_num) (x := 268402689 / 268435456) (y := 8191 / 8192) (by norm_num) (by norm_num) (by rw [abs_lt]; constructor <;> norm_num), same hf 1 0 (by norm_num) (x := 1) (by norm_num), same hf 0 0 (by norm_num) (x := 0) (by norm_num)]
    unfold fitAxisFl
    simp only [hw, mz, mz2, sp]
    norm_num

/-- Three panels a quarter of a metre apart: the hypotheses are met, and the exact fit is not that of a vertical muon. -/
example : ∃ (fl : ℝ → ℝ) (sm : List ℝ → ℝ) (D : Nat → Nat), Nearest 24 fl ∧ Summation fl D sm ∧ D 3 ≤ 3 ∧ Hits 1 [⟨1, 1, 1⟩, ⟨1 / 2, 3 / 4, 2⟩, ⟨0, 1 / 2, 1⟩] ∧
    1 / 100000 ≤ spread [⟨1, 1, 1⟩, ⟨1 / 2, 3 / 4, 2⟩, ⟨0, 1 / 2, 1⟩] ∧ fitAxis [⟨1, 1, 1⟩, ⟨1 / 2, 3 / 4, 2⟩, ⟨0, 1 / 2, 1⟩] = some (-1, 2) := by
  obtain ⟨fl, hf⟩ := rounding_exists 24 (by norm_num)
  have : ∀ xs : List ℝ, ∃ t : Tree, t.leaves = xs ∧ t.depth ≤ xs.length := fun xs => by
    induction xs with
    | nil => exact ⟨.nil, rfl, le_rfl⟩
    | cons x xs ih =>
      obtain ⟨t, e, d⟩ := ih
      exact ⟨.node (.leaf x) t, by rw [Tree.leaves, e]; rfl, by simp only [Tree.depth, List.length_cons]; omega⟩
  choose t h1 h2 using this
  refine ⟨fl, fun xs => (t xs).eval fl, fun n => n, hf, fun xs => ⟨t xs, by rw [h1], h2 xs, rfl⟩, le_rfl, ⟨?_, ?_, ?_, ?_⟩, ?_, ?_⟩
  · norm_num
  · norm_num
  · norm_num
  · norm_num
  · unfold spread meanZ meanZ2 wmean
    norm_num
  · unfold fitAxis
    norm_num

end C138

end

end Tomopt
