import Verif.Spec.LiftScatter
import Verif.Props.C107

/- Specification: muons of scatter batches whose places of closest approach are higher by the same amount. -/
namespace Tomopt

noncomputable section
open Infer C107

namespace Lift

/-- a muon of a scatter batch, `h` higher: only the place of closest approach has a height -/
def mu (h : ℝ) (m : Mu) : Mu := { m with vals := fun v => if v = .poca then row h "reco_xyz" (m.vals .poca) else m.vals v }

/-- distributions that move along with their mean -/
def Moves (cdf : ℝ → ℝ → ℝ → ℝ) : Prop := ∀ mean scale x h, cdf (mean + h) scale (x + h) = cdf mean scale x

end Lift

end

end Tomopt
