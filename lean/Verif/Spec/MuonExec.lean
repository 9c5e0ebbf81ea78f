import Verif.Model.MuonExec
import Verif.Spec.Muon

/-
Specifications about calls on a muon batch that may fail: which calls are suitable, and what a program records that goes on after failures.
-/
namespace Tomopt

variable {α : Type}

/-- Every recorded tensor has `n` rows. -/
def Whole (n : Nat) (hits : Dict String (Dict String (List (List α)))) : Prop := ∀ pv ∈ hits, ∀ vt ∈ pv.2, ∀ t ∈ vt.2, t.length = n

/-- How many elements an argument has. -/
def Arg.size : Arg → Nat
  | .scalar _ => 1
  | .vec l => l.length

/-- An argument has one element, or one for each of the muons selected among `n` by a mask with one element per muon. -/
def Arg.Fits (n : Nat) (mask : Option (List Bool)) (a : Arg) : Prop :=
  match mask with
  | none => a.size = 1 ∨ a.size = n
  | some m => m.length = n ∧ (a.size = 1 ∨ a.size = m.count true)

/-- The mask, if there is one, has one element per muon. -/
def MaskFits (n : Nat) (mask : Option (List Bool)) : Prop := ∀ m, mask = some m → m.length = n

/-- Calls whose masks and arguments have the right lengths. -/
def Suitable (n : Nat) : MuOp α → Prop
  | .dxyz dx dy dz mask => (∀ a, dx = some a → a.Fits n mask) ∧ (∀ a, dy = some a → a.Fits n mask) ∧ (∀ a, dz = some a → a.Fits n mask)
  | .dthetaDphi dth dph mask => (∀ a, dth = some a → a.Fits n mask) ∧ (∀ a, dph = some a → a.Fits n mask)
  | .dthetaXY dtx dty mask => MaskFits n mask ∧ (∀ a, dtx = some a → a.Fits n mask) ∧ (∀ a, dty = some a → a.Fits n mask)
  | .filter keep => keep.length = n ∨ n ≤ keep.count true
  | .propDz d mask => d.Fits n mask
  | .propD d mask => d.Fits n mask
  | .snap => True
  | .append _ _ => True

/-- Log of everything recorded for `pos`/`var` by a program that goes on after failures. -/
noncomputable def recordedAll (pos var : String) : Batch α → List (MuOp α) → List (List (Nat × α))
  | _, [] => []
  | b, op :: ops => recordedBy b pos var op ++ recordedAll pos var (b.exec op).1 ops

/-- Every recording supplies exactly one row per muon present at that moment. -/
def AlignedAll : Batch α → List (MuOp α) → Prop
  | _, [] => True
  | b, op :: ops => AlignedOp b op ∧ AlignedAll (b.exec op).1 ops

end Tomopt
