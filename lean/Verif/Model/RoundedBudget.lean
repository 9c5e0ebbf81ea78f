import Verif.Model.Panel
import Verif.Model.RoundedInfer

/-
Model of volume/volume.py 169-184 and volume/panel.py 100-108, 197-207, 248-254 with floating-point arithmetic: every result is rounded by `fl`, exponentials are computed by `ex`,
sums by `sum`. Panels are listed as they get their shares, layer after layer and from the top panel down (C20).
-/
namespace Tomopt

noncomputable section
open Real

namespace Budget

/-- the largest weight -/
def top (w : List ℝ) : ℝ := w.tail.foldl max (w.headD 0)

/-- volume.py 178: the exponentials inside `F.softmax`, which subtracts the largest weight first -/
def expsFl (fl ex : ℝ → ℝ) (w : List ℝ) : List ℝ := w.map fun x => ex (fl (x - top w))

/-- volume.py 178: `budget * F.softmax(budget_weights)` -/
def sharesFl (fl ex : ℝ → ℝ) (sum : List ℝ → ℝ) (b : ℝ) (w : List ℝ) : List ℝ := (expsFl fl ex w).map fun e => fl (b * fl (e / sum (expsFl fl ex w)))

/-- panel.py 206-207 `assign_budget` -/
def assignFl (fl : ℝ → ℝ) (p : Panel) (share : ℝ) : Panel := { p with budgetScale := fl (sqrt (fl (share / fl (p.m2cost * fl (p.span.1 * p.span.2))))) }

/-- panel.py 100-108 `get_scaled_xy_span` -/
def spanFl (fl : ℝ → ℝ) (p : Panel) : ℝ × ℝ := (fl (p.span.1 * p.budgetScale), fl (p.span.2 * p.budgetScale))

/-- panel.py 248-254 `get_cost` -/
def costFl (fl : ℝ → ℝ) (p : Panel) : ℝ := fl (p.m2cost * fl ((spanFl fl p).1 * (spanFl fl p).2))

/-- volume.py 169-184 `assign_budget` -/
def assignAllFl (fl ex : ℝ → ℝ) (sum : List ℝ → ℝ) (b : ℝ) (w : List ℝ) (ps : List Panel) : List Panel := List.zipWith (assignFl fl) ps (sharesFl fl ex sum b w)

end Budget

end

end Tomopt
