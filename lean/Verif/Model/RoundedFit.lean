import Verif.Model.Scatter

/-
Model of inference/scattering.py 138-151 with floating-point arithmetic: every result is rounded by `fl`, sums over hits are taken by `sum`.
-/
namespace Tomopt

noncomputable section

namespace Scatter

/-- scattering.py 142-148: mean of a quantity over the hits, with the weights of the hits as they are. -/
def meanFl (fl : ℝ → ℝ) (sum : List ℝ → ℝ) (f : FitPt → ℝ) (l : List FitPt) : ℝ :=
  fl (sum (l.map fun h => fl (f h * h.w)) / sum (l.map fun h => h.w))

/-- scattering.py 149: the denominator `1 - mean_z.square() / mean_z2` -/
def spreadFl (fl : ℝ → ℝ) (mz mz2 : ℝ) : ℝ := fl (1 - fl (fl (mz ^ 2) / mz2))

/-- scattering.py 149 -/
def starFl (fl : ℝ → ℝ) (mx mz mxz mz2 : ℝ) : ℝ := fl (fl (mx - fl (fl (mz * mxz) / mz2)) / spreadFl fl mz mz2)

/-- scattering.py 150 -/
def slopeFl (fl : ℝ → ℝ) (star mz mxz mz2 : ℝ) : ℝ := fl (fl (mxz - fl (star * mz)) / mz2)

/-- scattering.py 140-150: offset and slope of the fit in one projection. `none` where the code divides by zero: the results are NaN or infinite, and so is the track. -/
def fitAxisFl (fl : ℝ → ℝ) (sum : List ℝ → ℝ) (l : List FitPt) : Option (ℝ × ℝ) :=
  if sum (l.map fun h => h.w) = 0 then none else
  let mx := meanFl fl sum (fun h => h.x) l
  let mz := meanFl fl sum (fun h => h.z) l
  let mxz := meanFl fl sum (fun h => fl (h.x * h.z)) l
  let mz2 := meanFl fl sum (fun h => fl (h.z * h.z)) l
  if mz2 = 0 then none else
  if spreadFl fl mz mz2 = 0 then none else
  let star := starFl fl mx mz mxz mz2
  some (star, slopeFl fl star mz mxz mz2)

end Scatter

end

end Tomopt
