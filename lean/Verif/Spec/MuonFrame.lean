import Verif.Spec.Direction

/- The reference frame of a muon: its flight direction `dir` and two unit vectors orthogonal to it and to each other. -/
namespace Tomopt

noncomputable section
open Real

/-- scalar product -/
def dot3 (a b : ℝ × ℝ × ℝ) : ℝ := a.1 * b.1 + a.2.1 * b.2.1 + a.2.2 * b.2.2

/-- `u + s v + t w` -/
def comb3 (u : ℝ × ℝ × ℝ) (s : ℝ) (v : ℝ × ℝ × ℝ) (t : ℝ) (w : ℝ × ℝ × ℝ) : ℝ × ℝ × ℝ :=
  (u.1 + s * v.1 + t * w.1, u.2.1 + s * v.2.1 + t * w.2.1, u.2.2 + s * v.2.2 + t * w.2.2)

def scale3 (c : ℝ) (u : ℝ × ℝ × ℝ) : ℝ × ℝ × ℝ := (c * u.1, c * u.2.1, c * u.2.2)

/-- first transverse axis: horizontal (the x axis for a vertical muon) -/
def axis0 (th ph : ℝ) : ℝ × ℝ × ℝ := if th = 0 then (1, 0, 0) else (-sin ph, cos ph, 0)

/-- second transverse axis (the y axis for a vertical muon) -/
def axis1 (th ph : ℝ) : ℝ × ℝ × ℝ := if th = 0 then (0, 1, 0) else (-(cos th * cos ph), -(cos th * sin ph), -sin th)

end

end Tomopt
