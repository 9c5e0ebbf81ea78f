import Verif.Model.Scatter

/- Models: angles between tracks with floating-point arithmetic. Sums are taken from left to right. -/
namespace Tomopt

noncomputable section

open Real

namespace Scatter

/-- scattering.py 302 `(p * q).sum(-1)`, products and sums rounded by `fl`. -/
def dotFl (fl : ℝ → ℝ) (p q : V3) : ℝ := fl (fl (fl (p.1 * q.1) + fl (p.2.1 * q.2.1)) + fl (p.2.2 * q.2.2))

/-- `norm(dim=-1)` of scattering.py 302 and 316: the rounded root of the rounded sum of squares. -/
def normFl (fl : ℝ → ℝ) (p : V3) : ℝ := fl (sqrt (dotFl fl p p))

/-- `torch.arccos`, which answers NaN outside of -1 to 1; `ac` is what it computes inside. -/
def arccosFl (ac : ℝ → ℝ) (c : ℝ) : Option ℝ := if -1 ≤ c ∧ c ≤ 1 then some (ac c) else none

/-- scattering.py 302: the argument of `arccos`, for a product of norms that is not zero. -/
def cosFl (fl : ℝ → ℝ) (p q : V3) : ℝ := fl (dotFl fl p q / fl (normFl fl p * normFl fl q))

/-- scattering.py 290-302 `_compute_theta_msc` in floating point; a quotient by zero is infinite or NaN, and `arccos` of it NaN. -/
def thetaMscFl (fl ac : ℝ → ℝ) (p q : V3) : Option ℝ :=
  if fl (normFl fl p * normFl fl q) = 0 then none else arccosFl ac (cosFl fl p q)

/-- scattering.py 305-322 `_compute_theta` in floating point. -/
def thetaFl (fl ac : ℝ → ℝ) (v : V3) : Option ℝ :=
  if normFl fl v = 0 then none
  else
    let arg := fl (-v.2.2 / normFl fl v)
    if arg ≠ 1 then arccosFl ac arg else some 0

/-- scattering.py 441-442: the part of the filter on the scattering angle. -/
def scattersFl (th : Option ℝ) : Prop := ∃ a, th = some a ∧ a ≠ 0

end Scatter

end

end Tomopt
