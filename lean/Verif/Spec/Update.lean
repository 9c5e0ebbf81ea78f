import Verif.Model.Update

/- Specification of what an update may do to a detector. -/
namespace Tomopt

noncomputable section

namespace Update

open DetCb

/-- a panel with these parameters is inside its layer and has a usable span -/
structure Physical (b : Box) (p : Par) : Prop where
  x : 0 ≤ p.xy.1 ∧ p.xy.1 ≤ b.lw.1
  y : 0 ≤ p.xy.2 ∧ p.xy.2 ≤ b.lw.2
  z : b.z - b.size ≤ p.z ∧ p.z ≤ b.z
  spanX : b.lw.1 / 20 ≤ p.span.1 ∧ p.span.1 ≤ 10 * b.lw.1
  spanY : b.lw.2 / 20 ≤ p.span.2 ∧ p.span.2 ≤ 10 * b.lw.2

/-- every panel is physical -/
def AllPhysical (d : Det) : Prop := ∀ p ∈ d.panels, Physical (d.box p) (par d.store p)

/-- layers have an extent, and are thick enough for the random margins -/
def GoodBoxes (d : Det) : Prop := ∀ b ∈ d.boxes, 0 ≤ b.lw.1 ∧ 0 ≤ b.lw.2 ∧ 2e-3 ≤ b.size

/-- addresses exist, layers exist, and only panels of one layer share a position -/
structure Wired (d : Det) : Prop where
  stored : ∀ p ∈ d.panels, p.xy < d.store.length
  layer : ∀ p ∈ d.panels, p.layer < d.boxes.length
  shared : ∀ p ∈ d.panels, ∀ q ∈ d.panels, p.xy = q.xy → p.layer = q.layer

/-- random margins -/
def Margins (eps : Nat → ℝ) : Prop := ∀ i, 0 ≤ eps i ∧ eps i < 1e-3

/-- maximal steps that are not negative -/
structure GoodLimits (l : Limits) : Prop where
  xy : ∀ m, l.xy = some m → 0 ≤ m.1 ∧ 0 ≤ m.2
  z : ∀ m, l.z = some m → 0 ≤ m
  span : ∀ m, l.span = some m → 0 ≤ m.1 ∧ 0 ≤ m.2

/-- no parameter changed by more than its maximal step; heights may change by the random margin instead -/
structure Within (l : Limits) (margin : ℝ) (old new : Par) : Prop where
  x : ∀ m, l.xy = some m → |new.xy.1 - old.xy.1| ≤ m.1
  y : ∀ m, l.xy = some m → |new.xy.2 - old.xy.2| ≤ m.2
  z : ∀ m, l.z = some m → |new.z - old.z| ≤ max m margin
  spanX : ∀ m, l.span = some m → |new.span.1 - old.span.1| ≤ m.1
  spanY : ∀ m, l.span = some m → |new.span.2 - old.span.2| ≤ m.2

/-- the panels of every layer are at one place -/
def Centred (d : Det) : Prop := ∀ p ∈ d.panels, ∀ q ∈ d.panels, p.layer = q.layer → look d.store p.xy = look d.store q.xy

end Update

end

end Tomopt
