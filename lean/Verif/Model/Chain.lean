import Verif.Model.Scatter
import Verif.Model.Infer
import Verif.Model.Uncert

/-
Model of the chain from the hits of one muon to what the inferrer keeps of it: inference/scattering.py 98-109, 398-418, 467-495 and the properties 752-955, inference/volume.py 243-269, for a muon
that is not filtered away and whose hits are all numbers. `n` panels lie above the volume and `n'` below; with fixed noise everything is a function of the hits and of the uncertainties.
-/
namespace Tomopt

noncomputable section

namespace Chain

open Scatter

/-- the panels: above, below -/
abbrev Plane (n n' : Nat) := Fin n ⊕ Fin n'

/-- coordinates of all hits of a muon (`reco_hits`, 407), or their uncertainties (`hit_uncs`, 409) -/
abbrev Coords (n n' : Nat) := Plane n n' × Fin 3 → ℝ

/-- 417-418 `hit_uncs / hit_effs` in x and y, the weights of the fit; in z the uncertainty is 0 -/
abbrev Scaled (n n' : Nat) := Plane n n' × Fin 2 → ℝ

variable {n n' : Nat}

/-- the hits of some of the panels, with their scaled uncertainties, as `get_muon_trajectory` takes them -/
def rowsOf {m : Nat} (f : Fin m → Plane n n') (h : Coords n n') (w : Scaled n n') : List (X3 × X3) :=
  List.ofFn fun k => ((.num (h (f k, 0)), .num (h (f k, 1)), .num (h (f k, 2))), (.num (w (f k, 0)), .num (w (f k, 1)), .num 0))

/-- the variables of a muon the inferrer uses -/
inductive Var
  | pocaX
  | pocaY
  | pocaZ
  | scat
  | thIn
  | thOut

/-- inference/scattering.py 412-418, 484-495, 752-762, 799-832, 935-944 for one muon: tracks, closest point, total scattering, and angles. `none` where something is NaN or an error is raised. -/
def vars (lw : ℝ × ℝ) (h : Coords n n') (w : Scaled n n') : Option (Var → ℝ) :=
  match trajectory lw (rowsOf Sum.inl h w), trajectory lw (rowsOf Sum.inr h w) with
  | .ok (some tin), .ok (some tout) =>
    match trackCoefs tin tout, thetaMsc tin.1 tout.1, thetaOf tin.1, thetaOf tout.1 with
    | some c, some s, some a, some b => some fun
      | .pocaX => (poca tin tout c).1
      | .pocaY => (poca tin tout c).2.1
      | .pocaZ => (poca tin tout c).2.2
      | .scat => s
      | .thIn => a
      | .thOut => b
    | _, _, _, _ => none
  | _, _ => none

/-- a variable as a function of hits and weights (0 where there is none) -/
def value (lw : ℝ × ℝ) (v : Var) (q : Coords n n' × Scaled n n') : ℝ := ((vars lw q.1 q.2).map (· v)).getD 0

/-- scattering.py 531 `jacobian(var, self.reco_hits)`: automatic differentiation gives the partial derivatives by the hits -/
def jac (lw : ℝ × ℝ) (h : Coords n n') (w : Scaled n n') (v : Var) (k : Plane n n' × Fin 3) : ℝ := Uncert.pd (fun y => value lw v (y, w)) h k

/-- utils.py 14-39 `jacobian`: with `create_graph` the derivatives are functions of the parameters `t` like the variables; without, they have no graph, and for the gradient of anything computed from them they
are the constants they are at the present parameters `t0`. -/
def graphed {β : Type} (createGraph : Bool) (J : ℝ → β) (t0 t : ℝ) : β := if createGraph then J t else J t0

/-- scattering.py 531 `jacobian(var, self.reco_hits)`: `create_graph` is left at its default (utils.py 14) -/
def asksGraph : Bool := false

/-- volume/layer.py 583 `mu.propagate_dz(mu.z - p.z.detach())`, volume/panel.py 224 and volume/heatmap.py 119 `mu.xy.data`: where a muon crosses a panel is recorded without a graph, although it depends on the
height of the panel -/
def followsHeight : Bool := false

/-- scattering.py 537-538 -/
def spread (J σ : Plane n n' × Fin 3 → ℝ) : ℝ := Real.sqrt (∑ k, (J k * σ k) ^ 2)

/-- inference/volume.py 248-257 for one muon with momentum `mom`, from hits `h`, weights `w`, uncertainties `σ` and Jacobian `J` -/
def muRow (lw : ℝ × ℝ) (h : Coords n n') (w : Scaled n n') (σ : Coords n n') (J : Var → Plane n n' × Fin 3 → ℝ) (mom : ℝ) : Infer.MuRow where
  poca := (value lw .pocaX (h, w), value lw .pocaY (h, w), value lw .pocaZ (h, w))
  pocaUnc := (spread (J .pocaX) σ, spread (J .pocaY) σ, spread (J .pocaZ) σ)
  scat := value lw .scat (h, w)
  scatUnc := spread (J .scat) σ
  thIn := value lw .thIn (h, w)
  thInUnc := spread (J .thIn) σ
  thOut := value lw .thOut (h, w)
  thOutUnc := spread (J .thOut) σ
  mom := mom
  momUnc := 0

end Chain

end

end Tomopt
