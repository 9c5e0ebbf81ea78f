import Verif.Model.Volume
import Mathlib.Data.List.Dedup

/-
Model of drawings: volume/volume.py 222-320 `Volume.draw`, plotting/predictions.py and plotting/diagnostics.py. Which shapes and numbers are drawn where; colours of shapes and styles
are left out. What is said of matplotlib: `subplots` returns a two-dimensional array of plots for two or more rows and columns, a one-dimensional one for one row or one column, a
single plot, which cannot be indexed (TypeError), for one of each, and raises a ValueError for none.
-/
namespace Tomopt

noncomputable section

namespace Draw

/-! ### Volumes -/

abbrev Point := ℝ × ℝ × ℝ

/-- shapes to be drawn together, and the height by which they are ordered -/
structure Item where
  faces : List (List Point)
  z : ℝ

/-- volume.py 241-275: the box of a passive layer. `rnd` is `np.round(·, 2)`. -/
def box (rnd : ℝ → ℝ) (L : PassiveLayer) : Item :=
  let z := rnd L.z
  let b := z - L.size
  let x := L.lw.1
  let y := L.lw.2
  ⟨[[(0, 0, b), (x, 0, b), (x, y, b), (0, y, b)], [(0, 0, b), (x, 0, b), (x, 0, z), (0, 0, z)], [(0, y, b), (x, y, b), (x, y, z), (0, y, z)], [(0, 0, b), (0, y, b), (0, y, z), (0, 0, z)],
    [(x, 0, b), (x, y, b), (x, y, z), (x, 0, z)]], z⟩

/-- 291-298: the rectangle of a panel -/
def rect (p : Panel) : Item :=
  let s := p.scaledSpan
  ⟨[[(p.xy.1 - s.1 / 2, p.xy.2 - s.2 / 2, p.z), (p.xy.1 + s.1 / 2, p.xy.2 - s.2 / 2, p.z), (p.xy.1 + s.1 / 2, p.xy.2 + s.2 / 2, p.z), (p.xy.1 - s.1 / 2, p.xy.2 + s.2 / 2, p.z)]], p.z⟩

/-- 283-298: the panels of a layer, from the highest to the lowest -/
def rects : List (Nat × AnyPanel) → Except Err (List Item)
  | [] => .ok []
  | (_, .heatmap _) :: _ => .error .typeError
  | (_, .panel p) :: ps =>
    match rects ps with
    | .error e => .error e
    | .ok is => .ok (rect p :: is)

/-- 238-301: the loop over layers; what is active and what is passive -/
def items (argsort : List ℝ → List Nat) (rnd : ℝ → ℝ) : List AnyLayer → Except Err (List Item × List Item)
  | [] => .ok ([], [])
  | .passive L :: ls =>
    match items argsort rnd ls with
    | .error e => .error e
    | .ok (a, p) => .ok (a, box rnd L :: p)
  | .detector D :: ls =>
    match rects (D.zpanels argsort) with
    | .error e => .error e
    | .ok is =>
      match items argsort rnd ls with
      | .error e => .error e
      | .ok (a, p) => .ok (is ++ a, p)

/-- a drawing: shapes in the order of drawing, and the ranges of the axes -/
structure Drawing where
  items : List Item
  xRange : ℝ × ℝ
  yRange : ℝ × ℝ
  zRange : ℝ × ℝ

/-- 222-320 `draw`. The limits for x are given to the y axis and those for y to the x axis (311-312). -/
def draw (argsort : List ℝ → List Nat) (rnd : ℝ → ℝ) (V : Volume) (xlim ylim zlim : ℝ × ℝ) : Except Err Drawing :=
  match items argsort rnd V.layers with
  | .error e => .error e
  | .ok (a, p) => .ok ⟨(a ++ p).mergeSort (fun i j => decide (i.z ≤ j.z)), ylim, xlim, zlim⟩

/-! ### Predictions -/

/-- one row of plots: its label, what is on the left (`none` for NaN) and on the right -/
structure PlotRow where
  label : Nat
  pred : List (List (Option ℝ))
  truth : List (List ℝ)

/-- the rows, and the ranges of the colours (`none` if there are only NaNs) -/
structure Comparison where
  rows : List PlotRow
  predRange : Option (ℝ × ℝ)
  truthRange : ℝ × ℝ

/-- `np.nanmin` and `np.nanmax` -/
def nanRange : List (Option ℝ) → Option (ℝ × ℝ)
  | [] => none
  | none :: xs => nanRange xs
  | some x :: xs =>
    match nanRange xs with
    | none => some (x, x)
    | some (a, b) => some (min x a, max x b)

/-- the rows from `plot_idx` on (predictions.py 31-53); `k` are left -/
def plotRows (pred : List (List (List (Option ℝ)))) (truth : List (List (List ℝ))) (i : Nat) : Nat → Except Err (List PlotRow)
  | 0 => .ok []
  | k + 1 =>
    let j := pred.length - 1 - i
    match pred[j]?, truth[j]? with
    | some p, some t =>
      match plotRows pred truth (i + 1) k with
      | .error e => .error e
      | .ok rs => .ok (⟨j, p, t⟩ :: rs)
    | _, _ => .error .indexError

/-- predictions.py 12-56 `plot_pred_true_x0`: arrays of layers. (`true.min()` of an empty array raises a ValueError.) -/
def comparison (pred : List (List (List (Option ℝ)))) (truth : List (List (List ℝ))) : Except Err Comparison :=
  if pred.length = 0 then .error .valueError
  else if pred.length = 1 then .error .typeError
  else
    match nanRange ((truth.flatten.flatten).map some) with
    | none => .error .valueError
    | some r =>
      match plotRows pred truth 0 pred.length with
      | .error e => .error e
      | .ok rows => .ok ⟨rows, nanRange pred.flatten.flatten, r⟩

/-! ### Records -/

/-- a row of a record: position and layer (`none` for NaN) -/
structure Rec where
  x : ℝ
  y : ℝ
  layer : Option Nat

/-- `==` of layers: NaN equals nothing -/
def sameLayer : Option Nat → Option Nat → Bool
  | some a, some b => a == b
  | _, _ => false

/-- diagnostics.py 12-31 `plot_scatter_density` (and 34-43 `plot_hit_density`): the layers and what is shown for each. `srt` is `sorted`. -/
def density (srt : List (Option Nat) → List (Option Nat)) (df : List Rec) : Except Err (List (Option Nat × List Rec)) :=
  let zs := srt ((df.map (·.layer)).dedup)
  if zs.length = 0 then .error .zeroDivision
  else if zs.length = 1 then .error .typeError
  else .ok (zs.map fun z => (z, df.filter fun r => sameLayer r.layer z))

end Draw

end

end Tomopt
