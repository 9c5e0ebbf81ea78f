import Verif.Model.Monitor
import Verif.Model.Detector

/-
Model of the live plots of optimisation/callbacks/monitors.py: which numbers are drawn where, and in which part of the figure. What is said of matplotlib: parts of a
grid that would be empty are rejected (IndexError), curves need as many ordinates as abscissae (ValueError), stacked curves need at least one and the same lengths (ValueError).
-/
namespace Tomopt

noncomputable section

namespace LivePlot

/-! ### Parts of the figure -/

/-- one bound of a python slice, clipped to `0 … size` -/
def bound (size : Nat) (v : Int) : Nat := if v < 0 then (v + size).toNat else min v.toNat size

/-- `start:stop` of a grid with so many rows (or columns), as a half-open range -/
def part (size : Nat) (start stop : Option Int) : Except Err (Nat × Nat) :=
  let a := match start with | none => 0 | some v => bound size v
  let b := match stop with | none => size | some v => bound size v
  if a < b then .ok (a, b) else .error .indexError

/-- a part of the figure: rows and columns -/
structure Cell where
  rows : Nat × Nat
  cols : Nat × Nat
  deriving DecidableEq, Repr

/-- `grid_spec[r0:r1, c0:c1]` -/
def cell (nr nc : Nat) (r c : Option Int × Option Int) : Except Err Cell :=
  match part nr r.1 r.2 with
  | .error e => .error e
  | .ok rows =>
    match part nc c.1 c.2 with
    | .error e => .error e
    | .ok cols => .ok ⟨rows, cols⟩

/-- the plots of the figure -/
inductive Plot
  | loss
  | composition
  | metric
  | above (i : Nat)
  | below (i : Nat)
  | smoothness
  deriving DecidableEq, Repr

/-- adding plots in order -/
def addAll (nr nc : Nat) : List (Plot × (Option Int × Option Int) × (Option Int × Option Int)) → Except Err (List (Plot × Cell))
  | [] => .ok []
  | (p, r, c) :: ps =>
    match cell nr nc r c with
    | .error e => .error e
    | .ok x =>
      match addAll nr nc ps with
      | .error e => .error e
      | .ok xs => .ok ((p, x) :: xs)

/-- 308-314: the plots of `MetricLogger._prep_plots`; `metric` says whether there are metrics -/
def basePlots (metric : Bool) : List (Plot × (Option Int × Option Int) × (Option Int × Option Int)) :=
  [(.loss, (none, some 3), (none, none)), (.composition, (some 3, some 4), (none, none))] ++ if metric then [(.metric, (some 4, some 5), (none, none))] else []

/-- 295-301 `_build_grid_spec`, 303-327 `_prep_plots` of `MetricLogger` -/
def basePrep (metric : Bool) : Except Err (List (Plot × Cell)) := addAll (3 + if metric then 0 else 1) 1 (basePlots metric)

/-- 360-372 `_prep_plots`, 432-439 `_build_grid_spec` of `PanelMetricLogger`; `sig`: whether the panels are sigmoid panels -/
def panelPrep (metric sig : Bool) : Except Err (List (Plot × Cell)) :=
  addAll (5 + if metric then 0 else 1) (3 + if sig then 1 else 0)
    (basePlots metric ++ ((List.range 3).map fun i : Nat => (.above i, (some (-2), some (-1)), (some (i : Int), some ((i : Int) + 1)))) ++
      ((List.range 3).map fun i : Nat => (.below i, (some (-1), none), (some (i : Int), some ((i : Int) + 1)))) ++
      if sig then [(.smoothness, (some (-2), some (-1)), (some (-1), none))] else [])

/-! ### Curves -/

/-- `ax.plot(x, y)` -/
def curve {α β : Type} (x : List α) (y : List β) : Except Err (List (α × β)) := if x.length = y.length then .ok (x.zip y) else .error .valueError

/-- 204-207: abscissae of the training losses, `(1 / n) + np.linspace(0, E, n * E, endpoint=False)` -/
def trainX (n E : Nat) : Except Err (List ℝ) :=
  if n = 0 then .error .zeroDivision else .ok ((List.range (n * E)).map fun i : Nat => 1 / (n : ℝ) + i * ((E : ℝ) / (n * E : Nat)))

/-- the curves of a figure -/
structure Curves where
  train : List (ℝ × XF)
  valid : List (Nat × XF)
  composition : List (List (Nat × ℝ))
  best : (ℝ × XF) × (Nat × XF)

/-- stacked curves above `x` -/
def stackplot (x : List Nat) (subs : List (List ℝ)) : Except Err (List (List (Nat × ℝ))) :=
  if subs = [] then .error .valueError
  else if subs.all fun s => decide (s.length = x.length) then .ok (subs.map (x.zip ·)) else .error .valueError

/-- 195-214 `update_plot`: the losses; `n` updates per epoch -/
def lossCurves (n : Nat) (l : Fit.Logger) (subs : List (List ℝ)) : Except Err Curves :=
  match trainX n l.val.length with
  | .error e => .error e
  | .ok tx =>
    match curve tx l.trn with
    | .error e => .error e
    | .ok t =>
      let x := (List.range l.val.length).map (· + 1)
      match curve x l.val with
      | .error e => .error e
      | .ok v =>
        match stackplot x subs with
        | .error e => .error e
        | .ok s =>
          match x.getLast? with
          | none => .error .indexError
          | some last => .ok ⟨t, v, s, ((1 / n, l.best), (last, l.best))⟩

/-- 229: abscissae of the metric, `range(n, n * E + 1, n)` -/
def metricX (n E : Nat) : List Nat := (List.range E).map fun e => n + e * n

/-- 224-238: the curve of the main metric, labelled "Epoch"; nothing is drawn for a single epoch -/
def metricCurve (n : Nat) (vals : List ℝ) : Except Err (List (Nat × ℝ)) := if vals.length > 1 then curve (metricX n vals.length) vals else .ok []

/-! ### Detectors -/

/-- a line at height `z` -/
structure Seg where
  a : ℝ
  b : ℝ
  z : ℝ

/-- a rectangle: low corner and size -/
structure Rect where
  low : ℝ × ℝ
  size : ℝ × ℝ

/-- 403-421: one panel from the side (along x and along y) and from above -/
def drawPanel (p : Panel) : Seg × Seg × Rect :=
  let s := p.scaledSpan
  (⟨p.xy.1 - s.1 / 2, p.xy.1 + s.1 / 2, p.z⟩, ⟨p.xy.2 - s.2 / 2, p.xy.2 + s.2 / 2, p.z⟩, ⟨(p.xy.1 - s.1 / 2, p.xy.2 - s.2 / 2), s⟩)

/-- the panels of a layer, if none is a heat map -/
def plain : List AnyPanel → Option (List Panel)
  | [] => some []
  | .panel p :: ps => (plain ps).map (p :: ·)
  | .heatmap _ :: _ => none

/-- 403-421: the panels in their order, with the colours of a palette of ten -/
def drawPanels (ps : List Panel) : Except Err (List (Nat × Seg × Seg × Rect)) :=
  if ps.length ≤ 10 then .ok ((List.range ps.length).zip (ps.map drawPanel)) else .error .indexError

/-- limits of the three views: along x, along y, from above (the same along both axes), and of heights -/
structure Limits where
  x : ℝ × ℝ
  y : ℝ × ℝ
  top : ℝ × ℝ
  z : ℝ × ℝ

def minOf (x : ℝ) (xs : List ℝ) : ℝ := xs.foldl min x

def maxOf (x : ℝ) (xs : List ℝ) : ℝ := xs.foldl max x

/-- 455-472 `_set_axes_labels`: heat maps have neither a span nor a position (AttributeError); nothing can be stacked without panels (RuntimeError) -/
def limits (L : DetLayer) : Except Err Limits :=
  match plain L.panels with
  | none => .error .attributeError
  | some [] => .error .runtimeError
  | some (p :: ps) =>
    let low := fun p : Panel => (p.xy.1 - p.scaledSpan.1 / 2, p.xy.2 - p.scaledSpan.2 / 2)
    let high := fun p : Panel => (p.xy.1 + p.scaledSpan.1 / 2, p.xy.2 + p.scaledSpan.2 / 2)
    let lo := (minOf (low p).1 (ps.map fun q => (low q).1), minOf (low p).2 (ps.map fun q => (low q).2))
    let hi := (maxOf (high p).1 (ps.map fun q => (high q).1), maxOf (high p).2 (ps.map fun q => (high q).2))
    let margin := max L.lw.1 L.lw.2 / 2
    .ok ⟨(min 1 lo.1 - L.lw.1 / 2, max L.lw.1 hi.1 + L.lw.1 / 2), (min 1 lo.2 - L.lw.2 / 2, max L.lw.2 hi.2 + L.lw.2 / 2), (min lo.1 lo.2 - margin, max hi.1 hi.2 + margin),
      (L.z - 1.25 * L.size, L.z + 0.25 * L.size)⟩

end LivePlot

end

end Tomopt
