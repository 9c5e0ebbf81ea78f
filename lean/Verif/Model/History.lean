import Verif.Model.Monitor

/-
Model of what `MetricLogger` (callbacks/monitors.py) keeps of metrics, and of `get_loss_history`. Losses are kept as in `Model/Monitor`; plots are left out, so that
losses are printed (`show_plots` is False).
-/
namespace Tomopt

noncomputable section

namespace Fit

/-- monitors.py 79-104: losses, `metric_vals` and the names of `metric_cbs` -/
structure Hist where
  log : Logger
  vals : List (List (Option ℝ))
  names : List String

/-- monitors.py 106-182, 240-249: the interjections. `ns` are the names of the metrics in use (`fit_params.metric_cbs`) and `d` are their current values, `none` if not yet
computed; printing such a value raises TypeError (192), after it has been recorded (160-161). -/
def histStep (ns : List String) (e : Ev) (v : View) (d : Nat → Option ℝ) (h : Hist) : Except Err Unit × Hist :=
  match logStep e v h.log with
  | .error x => (.error x, h)
  | .ok l =>
    match e with
    | .trainBegin => (.ok (), ⟨l, ns.map fun _ => [], []⟩)
    | .epochEnd =>
      if v.mode = .valid then
        let vals := h.vals.mapIdx fun i xs => xs ++ [d i]
        if (List.range ns.length).any (fun i => (d i).isNone) then (.error .typeError, ⟨l, vals, h.names⟩) else (.ok (), ⟨l, vals, h.names⟩)
      else (.ok (), ⟨l, h.vals, h.names⟩)
    | .trainEnd => (.ok (), ⟨l, h.vals, ns⟩)
    | _ => (.ok (), ⟨l, h.vals, h.names⟩)

/-- monitors.py 251-264 `get_loss_history`: training and validation losses; values of metrics by name, later entries of the same name replacing earlier ones -/
def lossHistory (h : Hist) : (List XF × List XF) × Dict String (List (Option ℝ)) :=
  ((h.log.trn, h.log.val), (List.zip h.vals h.names).foldl (fun r x => r.set x.2 x.1) [])

end Fit

end

end Tomopt
