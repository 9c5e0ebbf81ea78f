import Verif.Model.Basic
import Mathlib.Analysis.SpecialFunctions.Pow.Real
import Mathlib.Data.List.Dedup

/-
Model of tomopt/benchmarks/ladle_furnace/plotting.py: which numbers the comparison plots show. A table has named columns of numbers; true fill levels are never NaN. Looks of the plots are left out.
-/
namespace Tomopt

noncomputable section

namespace FurnacePlots

/-- one row of a table of predictions: the true level (`gen_target`) and the other columns -/
structure Row where
  target : ℝ
  col : String → ℝ

/-- a table: the names of its columns and its rows -/
structure Table where
  names : List String
  rows : List Row

/-- true levels in increasing order: the groups of 13-14 (`sort_values`, `groupby`) -/
def levels (t : Table) : List ℝ := (t.rows.map (·.target)).dedup.mergeSort (fun a b => decide (a ≤ b))

/-- the entries of a column in the group of a level -/
def group (t : Table) (c : String) (x : ℝ) : List ℝ := (t.rows.filter fun r => decide (r.target = x)).map (·.col c)

/-- pandas `mean`; `none` for NaN -/
def mean (xs : List ℝ) : Option ℝ := if xs = [] then none else some (xs.sum / xs.length)

/-- pandas `std`: with one degree of freedom taken off; NaN for fewer than two entries -/
def std (xs : List ℝ) : Option ℝ :=
  match mean xs with
  | none => none
  | some m => if xs.length < 2 then none else some (Real.sqrt ((xs.map fun x => (x - m) ^ 2).sum / (xs.length - 1)))

/-- a point of a curve, with its error bar -/
structure Point where
  x : ℝ
  y : Option ℝ
  err : Option ℝ

/-- 15-17: `agg` of these columns; a missing one is a KeyError -/
def agg (t : Table) (cs : List String) : Except Err (String → List Point) :=
  if cs.all (fun c => t.names.contains c) then .ok fun c => (levels t).map fun x => ⟨x, mean (group t c x), std (group t c x)⟩ else .error .keyError

/-- what a legend says: nothing, the mean modulus of a column, or its mean -/
inductive Label
  | none
  | absMean (v : Option ℝ)
  | mean (v : Option ℝ)

structure Curve where
  points : List Point
  label : Label

/-- kinds of plots: predictions, biases, squared errors -/
inductive Kind
  | pred
  | bias
  | mse
  deriving DecidableEq

/-- the column shown, before and after correction of biases -/
def Kind.col : Kind → Bool → String
  | .pred, false => "pred"
  | .pred, true => "new_pred"
  | .bias, false => "bias"
  | .bias, true => "new_bias"
  | .mse, false => "mse"
  | .mse, true => "new_mse"

/-- the whole column -/
def whole (t : Table) (c : String) : List ℝ := t.rows.map (·.col c)

/-- what the legend says of a kind of plot -/
def label (k : Kind) (t : Table) (c : String) : Label :=
  match k with
  | .pred => .none
  | .bias => .absMean (mean ((whole t c).map abs))
  | .mse => .mean (mean (whole t c))

/-- one curve: columns `cs` are aggregated, `c` is drawn -/
def curve (k : Kind) (t : Table) (cs : List String) (c : String) : Except Err Curve :=
  match agg t cs with
  | .error e => .error e
  | .ok a => .ok ⟨a c, label k t c⟩

/-- curves one after the other -/
def figure : List (Except Err Curve) → Except Err (List Curve)
  | [] => .ok []
  | .error e :: _ => .error e
  | .ok c :: cs =>
    match figure cs with
    | .error e => .error e
    | .ok xs => .ok (c :: xs)

/-- figures one after the other -/
def figures : List (Except Err (List Curve)) → Except Err (List (List Curve))
  | [] => .ok []
  | .error e :: _ => .error e
  | .ok c :: cs =>
    match figures cs with
    | .error e => .error e
    | .ok xs => .ok (c :: xs)

/-- 10-70 `compare_raw_init_to_bias_corrected_init`, one of its figures -/
def rawFigure (t : Table) (k : Kind) : Except Err (List Curve) :=
  figure [curve k t [k.col false, k.col true] (k.col false), curve k t [k.col false, k.col true] (k.col true)]

/-- 10-70 -/
def compareRaw (t : Table) : Except Err (List (List Curve)) := figures ([Kind.pred, .bias, .mse].map (rawFigure t))

/-- 73-159 `compare_init_to_optimised`, one of its figures: of the second table the raw column is asked for in the first figure only (85) -/
def optFigure (start opt : Table) (k : Kind) : Except Err (List Curve) :=
  figure [curve k start [k.col false, k.col true] (k.col true), curve k opt (if k = .pred then [k.col false, k.col true] else [k.col true]) (k.col true)]

/-- 73-159, and 162-248 `compare_init_optimised_2`, which differs in the names of files only -/
def compareOpt (start opt : Table) : Except Err (List (List Curve)) := figures ([Kind.pred, .bias, .mse].map (optFigure start opt))

/-- 251-366 `compare_optimised_to_baselines`, one of its figures -/
def baseFigure (one two opt : Table) (k : Kind) : Except Err (List Curve) := figure ([one, two, opt].map fun t => curve k t [k.col true] (k.col true))

/-- 251-366 -/
def compareBase (one two opt : Table) : Except Err (List (List Curve)) := figures ([Kind.pred, .bias, .mse].map (baseFigure one two opt))

end FurnacePlots

end

end Tomopt
