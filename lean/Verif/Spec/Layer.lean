import Verif.Model.Layer

/- Specifications for passive layers. -/
namespace Tomopt

noncomputable section
open Real

variable {α : Type}

/-- identity and momentum of a muon -/
def MuonOf.key {A : Type} (m : MuonOf A) : Nat × ℝ := (m.id, m.p)

/-- No muon is created or lost: survivors plus removed are a rearrangement of what they were, survivors keep their
order, removed muons stay removed. -/
structure Conserves (b b' : Batch α) : Prop where
  perm : (b'.muons.map MuonOf.key ++ b'.removed.map MuonOf.key).Perm (b.muons.map MuonOf.key ++ b.removed.map MuonOf.key)
  order : (b'.muons.map MuonOf.key).Sublist (b.muons.map MuonOf.key)
  gone : b.removed <+: b'.removed

/-- A layer whose sides are whole numbers of voxels and whose loaded X0 array has one entry per voxel. -/
structure WellShaped (L : PassiveLayer) (nx ny : Nat) (cube : List (List ℝ)) : Prop where
  size_pos : 0 < L.size
  len_x : L.lw.1 = nx * L.size
  len_y : L.lw.2 = ny * L.size
  loaded : L.radLength = some cube
  rows : cube.length = nx
  cols : ∀ col ∈ cube, col.length = ny

/-- The muon is over the layer's footprint (half-open). -/
def Over (L : PassiveLayer) (m : Muon) : Prop := 0 ≤ m.x ∧ m.x < L.lw.1 ∧ 0 ≤ m.y ∧ m.y < L.lw.2

/-- Change of height of a muon in one step: it moves down by `step * cos theta`, plus the vertical displacement drawn by the scattering model if
there is material below it. -/
def heightChange (L : PassiveLayer) (draw : Nat → Draw) (m : Muon) : ℝ :=
  match L.radLength with
  | none => -(L.stepSz * cos m.th)
  | some cube =>
    match Batch.inWindow (some (0, 0)) (some L.lw) m, L.scatterOf cube draw m with
    | true, .ok s => s.dz - L.stepSz * cos m.th
    | _, _ => -(L.stepSz * cos m.th)

/-- In each of the first `n` passes every muon still being tracked loses at least `δ` of height before any correction at the bottom face. -/
def Progresses (L : PassiveLayer) (rng : Nat → Nat → Draw) (δ : ℝ) : Nat → Nat → Batch α → List Bool → Prop
  | 0, _, _, _ => True
  | n + 1, k, b, mask =>
    (∀ m ∈ pick mask b.muons, heightChange L (rng k) m ≤ -δ) ∧
    ∀ b', L.pass (rng k) b mask = .ok b' → Progresses L rng δ n (k + 1) b' (b'.muons.map L.inside)

end

end Tomopt
