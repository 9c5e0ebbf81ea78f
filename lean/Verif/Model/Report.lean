import Verif.Model.Monitor
import Verif.Model.HeatmapGif

/-
Model of tomopt/optimisation/callbacks/monitors.py 183-193, 231-235, 240-248, 287-293 and 328-338: what the loggers print during a fit, the best value of the main metric and the animation of the
plots. (What the plots show is in `Model/LivePlot`.)
-/
namespace Tomopt

noncomputable section

namespace Report

open Fit

/-! ### Losses and metrics -/

/-- python's `xs[-n:]`: everything for `n = 0` -/
def lastN {β : Type} (n : Nat) (xs : List β) : List β := if n = 0 then xs else xs.drop (xs.length - n)

/-- `np.mean`; NaN without entries -/
def npMean (xs : List XF) : XF := if xs = [] then .nan else fdiv (xs.foldl fadd (.num 0)) xs.length

/-- what is printed: number of the epoch, losses, and names and values of the metrics -/
structure Printed where
  epoch : Nat
  training : XF
  validation : XF
  metrics : List (String × ℝ)

/-- monitors.py 191-192: `v[-1]` of each metric -/
def lastMetrics : List Metric → List (List ℝ) → Except Err (List (String × ℝ))
  | m :: ms, v :: vs =>
    match v.getLast? with
    | none => .error .indexError
    | some x =>
      match lastMetrics ms vs with
      | .error e => .error e
      | .ok r => .ok ((m.name, x) :: r)
  | _, _ => .ok []

/-- monitors.py 183-193 `print_losses` -/
def printLosses (n : Nat) (l : Logger) (ms : List Metric) (vals : List (List ℝ)) : Except Err Printed :=
  match l.val.getLast? with
  | none => .error .indexError
  | some v =>
    match lastMetrics ms vals with
    | .error e => .error e
    | .ok r => .ok ⟨l.val.length, npMean (lastN n l.trn), v, r⟩

/-- smallest number of a list (`np.nanmin` without NaN); ValueError without entries -/
def npMin : List ℝ → Except Err ℝ
  | [] => .error .valueError
  | x :: xs => .ok (xs.foldl min x)

/-- `np.nanmax` -/
def npMax : List ℝ → Except Err ℝ
  | [] => .error .valueError
  | x :: xs => .ok (xs.foldl max x)

/-- monitors.py 231, 235: name and best value of the main metric, the level of the dashed line, and which direction is better; metrics are numbers -/
def metricBest (ms : List Metric) (vals : List (List ℝ)) : Except Err (Option (String × ℝ)) :=
  match (mainMetric ms).1 with
  | none => .ok none
  | some i =>
    match vals[i]?, ms[i]? with
    | some y, some m =>
      match if m.lowerBetter then npMin y else npMax y with
      | .error e => .error e
      | .ok b => .ok (some (m.name, b))
    | _, _ => .error .indexError

/-! ### Animation -/

/-- monitors.py 292: the name of the `i`-th picture -/
def temp (folder : String) (i : Nat) : String := folder ++ "/temp_monitor_" ++ toString i ++ ".png"

/-- monitors.py 287-293 `_snapshot_monitor` of a figure that looks like `img` -/
def snapshot {Img : Type} (folder : String) (img : Img) (s : Gif.St Img) : Gif.St Img :=
  let name := temp folder s.buffer.length
  { s with buffer := s.buffer ++ [name], files := EpochSave.write s.files name img }

/-- monitors.py 79-104, 106-122, 240-248, 328-338: the interjections of a logger that shows plots and makes an animation. The temporary pictures stay. -/
def act {Img : Type} (folder : String) (e : Ev) (m : Mode) (img : Img) (s : Gif.St Img) : Except Err (Gif.St Img) :=
  match e with
  | .trainBegin => .ok { s with buffer := [] }
  | .epochBegin => .ok (if m = .train then snapshot folder img s else s)
  | .trainEnd =>
    let s := snapshot folder img s
    match Gif.readAll s.files s.buffer with
    | .error e => .error e
    | .ok is => .ok { s with gif := some is }
  | _ => .ok s

/-- a history of interjections, with the mode and the look of the figure -/
def acts {Img : Type} (folder : String) : List (Ev × Mode × Img) → Gif.St Img → Except Err (Gif.St Img)
  | [], s => .ok s
  | (e, m, img) :: l, s =>
    match act folder e m img s with
    | .error e => .error e
    | .ok s => acts folder l s

/-- monitors.py 333: for how long each picture is shown -/
def frameTime (length : ℝ) (frames : Nat) : ℝ := length / frames

end Report

end

end Tomopt
