import Verif.Model.Muon

/-
The conversions of muon/muon_batch.py with the negative zero of floating point, which `Model/Muon` leaves out. Numbers are exact reals and one extra value `-0.0`;
an infinite quotient has the sign that IEEE 754 gives it.
-/
namespace Tomopt

open Real

noncomputable section

namespace SZ

/-- A number, or negative zero. `num 0` is positive zero. -/
inductive SF
  | num (x : ℝ)
  | negZero

/-- the number meant -/
def SF.val : SF → ℝ
  | .num x => x
  | .negZero => 0

/-- IEEE addition: the sum is negative zero only if both terms are -/
def SF.add : SF → SF → SF
  | .negZero, .negZero => .negZero
  | a, b => .num (a.val + b.val)

/-- the sign bit of `tan theta * cos phi` is that of `cos phi`, for `0 ≤ theta < pi/2`; `arctan` keeps it. muon_batch.py 136-154 `theta_x_from_theta_phi` -/
def thetaX (th ph : ℝ) : Option SF :=
  if th ≥ π / 2 then none else if th = 0 ∧ cos ph < 0 then some .negZero else some (.num (arctan (tan th * cos ph)))

/-- muon_batch.py 156-174 `theta_y_from_theta_phi` -/
def thetaY (th ph : ℝ) : Option SF :=
  if th ≥ π / 2 then none else if th = 0 ∧ sin ph < 0 then some .negZero else some (.num (arctan (tan th * sin ph)))

/-- `torch.arctan(theta_y.tan() / theta_x.tan())`: a division by negative zero gives the infinity of the opposite sign. -/
def arctanQuot (ty tx : SF) : Option ℝ :=
  match tx with
  | .num x => arctanDiv (tan ty.val) (tan x)
  | .negZero => (arctanDiv (tan ty.val) 0).map fun r => -r

/-- muon_batch.py 91-114 `phi_from_theta_xy`; `theta_x < 0` is false for negative zero. -/
def phi (tx ty : SF) : Option ℝ :=
  if |tx.val| ≥ π / 2 ∨ |ty.val| ≥ π / 2 then none
  else
    (arctanQuot ty tx).map fun phi =>
      if tx.val < 0 then phi + π
      else if ty.val < 0 then phi + 2 * π
      else phi

/-- an optional angular change -/
def addOpt (a : SF) : Option SF → SF
  | none => a
  | some d => a.add d

/-- muon_batch.py 240-247 `scatter_dtheta_xy`, for one selected muon -/
def scatterRow (m : RawMuon) (dtx dty : Option SF) : RawMuon :=
  match m.th, m.ph with
  | some t, some f =>
    match thetaX t f, thetaY t f with
    | some tx, some ty =>
      { m with th := thetaFromThetaXY (addOpt tx dtx).val (addOpt ty dty).val, ph := phi (addOpt tx dtx) (addOpt ty dty) }
    | _, _ => { m with th := none, ph := none }
  | _, _ => { m with th := none, ph := none }

end SZ

end

end Tomopt
