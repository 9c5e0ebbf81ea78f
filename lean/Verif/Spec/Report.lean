import Verif.Model.Report

/- What an animation shows. -/
namespace Tomopt

noncomputable section

namespace C153

open Fit

/-- the looks of the figure when the training epochs begin -/
def pictures {Img : Type} (h : List (Ev × Mode × Img)) : List Img :=
  h.filterMap fun x => if x.1 = .epochBegin ∧ x.2.1 = .train then some x.2.2 else none

end C153

end

end Tomopt
