import Verif.Spec.MuonFrame
import Verif.Model.Layer
import Verif.Lemmas.LayerLoop

/- Helper lemmas about the scattering model. -/
namespace Tomopt

noncomputable section
open Real

/-- projected angles of a direction, as used by the code -/
def txOf (th ph : ℝ) : ℝ := arctan (tan th * cos ph)
def tyOf (th ph : ℝ) : ℝ := arctan (tan th * sin ph)

theorem one_add_tan_sq {th : ℝ} (hc : 0 < cos th) : sqrt (1 + tan th ^ 2) = 1 / cos th := by
  rw [tan_eq_sin_div_cos]
  have : 1 + (sin th / cos th) ^ 2 = (1 / cos th) ^ 2 := by
    field_simp
    have := sin_sq_add_cos_sq th; linarith
  rw [this, sqrt_sq (by positivity)]

/-- the vector `d_out` of the code is the deflected direction with its horizontal components reversed -/
theorem dOut_eq (th ph a0 a1 : ℝ) (hc : 0 < cos th) :
    pdgDOut th ph (txOf th ph) (tyOf th ph) a0 a1 =
      let w := comb3 (dir th ph) (-tan a0) (axis0 th ph) (-tan a1) (axis1 th ph)
      (-(w.1 / cos th), -(w.2.1 / cos th), w.2.2 / cos th) := by
  have hr : sqrt (tan (txOf th ph) ^ 2 + tan (tyOf th ph) ^ 2 + 1 ^ 2) = 1 / cos th := by
    rw [txOf, tyOf, tan_arctan, tan_arctan, ← one_add_tan_sq hc]
    congr 1
    have := sin_sq_add_cos_sq ph
    linear_combination (tan th ^ 2) * this
  unfold pdgDOut
  simp only [hr]
  have ht : tan th = sin th / cos th := tan_eq_sin_div_cos th
  simp only [txOf, tyOf, tan_arctan, comb3, dir, axis0, axis1, ht]
  by_cases h0 : th = 0
  · subst h0
    simp
  · simp only [h0, if_false, ne_eq, not_false_eq_true, if_true, Prod.mk.injEq]
    refine ⟨?_, ?_, ?_⟩ <;> field_simp <;> ring

end

end Tomopt
