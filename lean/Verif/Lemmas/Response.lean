import Verif.Lemmas.Detector

/- Helper lemmas for the panel response. -/
namespace Tomopt

noncomputable section
open Real

namespace Panel

theorem gaussRatio_eq (mu span x : ℝ) : gaussRatio mu span x = exp (-((x - mu) ^ 2) / (2 * (span / 4) ^ 2)) := by
  unfold gaussRatio normalLogProb
  rw [← exp_sub]
  congr 1
  simp

theorem sgn_mul (x : ℝ) : sgn x * x = |x| := by
  unfold sgn
  split_ifs with h1 h2
  · rw [abs_of_pos h1]; ring
  · rw [abs_of_neg h2]; ring
  · have : x = 0 := le_antisymm (not_lt.mp h1) (not_lt.mp h2)
    simp [this]

theorem sigm_pos (x : ℝ) : 0 < sigm x := by unfold sigm; positivity

theorem sigm_lt {x y : ℝ} (h : x < y) : sigm x < sigm y := by
  unfold sigm
  apply one_div_lt_one_div_of_lt (by positivity)
  have := exp_lt_exp.mpr (neg_lt_neg h)
  linarith

theorem sigm_le {x y : ℝ} (h : x ≤ y) : sigm x ≤ sigm y := by
  rcases h.lt_or_eq with h | h
  · exact (sigm_lt h).le
  · rw [h]

theorem sigRatio_eq (s mu span x : ℝ) (hspan : 0 < span) :
    sigRatio s mu span x = sigm ((1 - |x - mu| / (span / 2)) / s) / sigm (1 / s) := by
  unfold sigRatio
  simp only [sgn_mul]
  rw [abs_div, abs_of_pos (by positivity : 0 < span / 2)]

/-- the kind of panel has a valid smoothness -/
def KindOk : PanelKind → Prop
  | .gauss => True
  | .sigmoid s => 0 < s

theorem ratio_pos (k : PanelKind) (mu span x : ℝ) (hspan : 0 < span) : 0 < ratio k mu span x := by
  cases k with
  | gauss => simp only [ratio, gaussRatio_eq]; exact exp_pos _
  | sigmoid s => simp only [ratio, sigRatio_eq _ _ _ _ hspan]; exact div_pos (sigm_pos _) (sigm_pos _)

theorem ratio_centre (k : PanelKind) (mu span : ℝ) (hspan : 0 < span) : ratio k mu span mu = 1 := by
  cases k with
  | gauss => simp [ratio, gaussRatio_eq]
  | sigmoid s =>
    simp only [ratio, sigRatio_eq _ _ _ _ hspan, sub_self, abs_zero, zero_div, sub_zero]
    exact div_self (sigm_pos _).ne'

theorem ratio_lt (k : PanelKind) (hk : KindOk k) (mu span x x' : ℝ) (hspan : 0 < span) (h : |x - mu| < |x' - mu|) :
    ratio k mu span x' < ratio k mu span x := by
  cases k with
  | gauss =>
    simp only [ratio, gaussRatio_eq]
    apply exp_lt_exp.mpr
    have : (x - mu) ^ 2 < (x' - mu) ^ 2 := sq_lt_sq.mpr h
    have hp : 0 < 2 * (span / 4) ^ 2 := by positivity
    rw [div_lt_div_iff_of_pos_right hp]
    linarith
  | sigmoid s =>
    have hs : 0 < s := hk
    simp only [ratio, sigRatio_eq _ _ _ _ hspan]
    rw [div_lt_div_iff_of_pos_right (sigm_pos _)]
    apply sigm_lt
    rw [div_lt_div_iff_of_pos_right hs]
    have : |x - mu| / (span / 2) < |x' - mu| / (span / 2) := by
      rw [div_lt_div_iff_of_pos_right (by positivity)]; exact h
    linarith

theorem ratio_le (k : PanelKind) (hk : KindOk k) (mu span x x' : ℝ) (hspan : 0 < span) (h : |x - mu| ≤ |x' - mu|) :
    ratio k mu span x' ≤ ratio k mu span x := by
  rcases h.lt_or_eq with h | h
  · exact (ratio_lt k hk mu span x x' hspan h).le
  · cases k with
    | gauss =>
      simp only [ratio, gaussRatio_eq]
      rw [← sq_abs (x - mu), ← sq_abs (x' - mu), h]
    | sigmoid s => simp only [ratio, sigRatio_eq _ _ _ _ hspan, h, le_refl]

theorem ratio_le_one (k : PanelKind) (hk : KindOk k) (mu span x : ℝ) (hspan : 0 < span) : ratio k mu span x ≤ 1 := by
  rw [← ratio_centre k mu span hspan]
  exact ratio_le k hk mu span mu x hspan (by simp)

end Panel

end

end Tomopt
