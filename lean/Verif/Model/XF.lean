import Mathlib.Analysis.SpecialFunctions.Exp

/-
Floating point values where NaN and infinities matter: a number (exact), NaN, +inf or -inf.
The sign of zero is not represented: quotients by zero are only taken where the code's zero is `+0.0`.
-/
namespace Tomopt

noncomputable section

/-- An IEEE value; finite ones are exact reals. -/
inductive XF where
  | num (x : ℝ)
  | nan
  | pinf
  | ninf

namespace XF

/-- `a / b` of finite numbers, a zero denominator being `+0.0`. -/
def quot (a b : ℝ) : XF :=
  if b ≠ 0 then .num (a / b) else if a > 0 then .pinf else if a < 0 then .ninf else .nan

/-- `r + x` -/
def addR (r : ℝ) : XF → XF
  | .num x => .num (r + x)
  | .nan => .nan
  | .pinf => .pinf
  | .ninf => .ninf

/-- `torch.clamp(x, lo, hi)`: `min(max(x, lo), hi)`, NaN stays NaN. -/
def clamp (x : XF) (lo hi : ℝ) : XF :=
  match x with
  | .num x => .num (min (max x lo) hi)
  | .nan => .nan
  | .pinf => .num hi
  | .ninf => .num (min lo hi)

/-- `torch.isfinite` -/
def isFinite : XF → Bool
  | .num _ => true
  | _ => false

end XF

end

end Tomopt
