import Verif.Spec.ExchangeHits
import Verif.Props.C107

/- Specification: muons of scatter batches and predictions of voxels with the horizontal axes exchanged. -/
namespace Tomopt

noncomputable section
open Infer C107

namespace Exchange

/-- a muon of a scatter batch with the axes exchanged: only the place of closest approach has axes -/
def swMu (m : Mu) : Mu :=
  { m with vals := fun v => if v = .poca then swRow "poca" (m.vals .poca) else m.vals v, uncs := fun v => if v = .poca then swRow "poca" (m.uncs .poca) else m.uncs v }

/-- the entry of a tensor, if there is one -/
def entry3 (p : List (List (List XF))) (k i j : Nat) : Option XF := ((p[k]?).bind (·[i]?)).bind (·[j]?)

/-- a tensor with `nz` layers of `nx` by `ny` entries, flattened -/
def flat3 (f : Nat → Nat → Nat → ℝ) (nz nx ny : Nat) : List ℝ := (List.range nz).flatMap fun k : Nat => (List.range nx).flatMap fun i : Nat => (List.range ny).map fun j : Nat => f k i j

end Exchange

end

end Tomopt
