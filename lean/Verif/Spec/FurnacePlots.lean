import Verif.Model.FurnacePlots

/- What a curve and a legend of the furnace benchmark should show. -/
namespace Tomopt

noncomputable section

namespace C150

open FurnacePlots

/-- a curve shows, for each true level in the table once and in increasing order, the mean and the sample deviation of the column over the rows with that level -/
structure Shows (t : Table) (c : String) (ps : List Point) : Prop where
  increasing : (ps.map (·.x)).Pairwise (· < ·)
  complete : ∀ x, x ∈ ps.map (·.x) ↔ ∃ r ∈ t.rows, r.target = x
  value : ∀ p ∈ ps, ∀ vs : List ℝ, vs.Perm ((t.rows.filter fun r => decide (r.target = p.x)).map (·.col c)) → p.y = some (vs.sum / vs.length) ∧
    (p.err = none ↔ vs.length = 1) ∧ ∀ e, p.err = some e → 0 ≤ e ∧ e ^ 2 * (vs.length - 1) = (vs.map fun v => (v - vs.sum / vs.length) ^ 2).sum

/-- a curve of a kind of plot: it shows the column level by level, and the legend says nothing, the mean modulus of the whole column, or its mean -/
structure Drawn (k : Kind) (t : Table) (c : String) (v : Curve) : Prop where
  curve : Shows t c v.points
  legend : v.label = match k with
    | .pred => Label.none
    | .bias => Label.absMean (if t.rows = [] then none else some ((t.rows.map fun r => |r.col c|).sum / t.rows.length))
    | .mse => Label.mean (if t.rows = [] then none else some ((t.rows.map fun r => r.col c).sum / t.rows.length))

/-- the column of a table with a kind of result, as predicted or corrected -/
def column (k : Kind) (corrected : Bool) : String :=
  (if corrected then "new_" else "") ++ match k with
    | .pred => "pred"
    | .bias => "bias"
    | .mse => "mse"

end C150

end

end Tomopt
