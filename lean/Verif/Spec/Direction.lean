import Verif.Model.Muon

/- Specifications about muon directions and positions. -/
namespace Tomopt

noncomputable section
open Real

/-- Unit flight direction of polar angle `th` (from the negative z axis) and azimuth `ph`. -/
def dir (th ph : ℝ) : ℝ × ℝ × ℝ := (sin th * cos ph, sin th * sin ph, -cos th)

/-- `m'` is `m` moved by `t` along its own direction; angles, momentum and identity are kept. -/
def Along (t : ℝ) (m m' : Muon) : Prop :=
  m'.x = m.x + t * (dir m.th m.ph).1 ∧ m'.y = m.y + t * (dir m.th m.ph).2.1 ∧ m'.z = m.z + t * (dir m.th m.ph).2.2 ∧
    m'.th = m.th ∧ m'.ph = m.ph ∧ m'.p = m.p ∧ m'.id = m.id

/-- Canonical downward-going angles. -/
def Downward (m : Muon) : Prop := 0 ≤ m.th ∧ m.th < π / 2 ∧ 0 ≤ m.ph ∧ m.ph < 2 * π

/-- The row has angles (neither is NaN) and points strictly down. -/
def GoesDown (r : RawMuon) : Prop := ∃ t f, r.th = some t ∧ r.ph = some f ∧ t < π / 2

/-- Amount of change each muon undergoes when the listed values are applied, in order, to the muons selected by the mask:
zero for the others. -/
def changes : List Bool → List ℝ → List ℝ
  | true :: ms, v :: vs => v :: changes ms vs
  | false :: ms, vs => 0 :: changes ms vs
  | _, _ => []

/-- Mask that applies when the optional mask argument is left out. -/
def theMask (n : Nat) (mask : Option (List Bool)) : List Bool :=
  match mask with
  | none => List.replicate n true
  | some m => m

/-- Per-muon change made by an optional argument: nothing if absent, a number or one-element tensor applies to every selected muon, otherwise
one entry per selected muon. -/
def perMuon (n : Nat) (mask : Option (List Bool)) : Option Arg → List ℝ
  | none => List.replicate n 0
  | some (.scalar v) => changes (theMask n mask) (List.replicate n v)
  | some (.vec [v]) => changes (theMask n mask) (List.replicate n v)
  | some (.vec l) => changes (theMask n mask) l

/-- Position, momentum and identity are the same. -/
def SamePlace (m m' : Muon) : Prop := m'.id = m.id ∧ m'.x = m.x ∧ m'.y = m.y ∧ m'.z = m.z ∧ m'.p = m.p

end

end Tomopt
