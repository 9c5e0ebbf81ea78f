import Verif.Model.Scatter
import Mathlib.Analysis.Calculus.Deriv.Basic
import Mathlib.Data.Fintype.BigOperators

/-
Model of the uncertainties of inferred variables: inference/scattering.py 515-539 `_compute_out_var_unc`, utils.py 14-39 `jacobian`.

A batch has muons `Fin n`, each with hit coordinates `κ` (hits × xyz, flattened as in 533), and a variable with components `ν`. Automatic differentiation is a parameter:
what it returns for each component and coordinate, as IEEE values. Theorems assume that it is the partial derivative (`pd`) where they need it.
-/
namespace Tomopt

noncomputable section

namespace Uncert

/-- the partial derivative of `f` at `x` in coordinate `k` -/
def pd {ι : Type} [DecidableEq ι] (f : (ι → ℝ) → ℝ) (x : ι → ℝ) (k : ι) : ℝ := deriv (fun t => f (Function.update x k t)) (x k)

/-- How the variable hangs together with the recorded hits for automatic differentiation: computed from them; from other tensors with gradients only; from none. -/
inductive Graph
  | hits
  | other
  | none

/-- `torch.nan_to_num`: `big` is the largest finite number -/
def nanToNum (big : ℝ) : XF → ℝ
  | .num x => x
  | .nan => 0
  | .pinf => big
  | .ninf => -big

/-- scattering.py 532: infinite uncertainties count as 0; NaN stays (`none`) -/
def cleanUnc : XF → Option ℝ
  | .num x => some x
  | .pinf => some 0
  | .ninf => some 0
  | .nan => Option.none

variable {n : Nat} {κ ν : Type} [Fintype κ]

/-- scattering.py 531-538 for component `v` of muon `i`: `jac i v j k` is the derivative by coordinate `k` of muon `j`, summed over `j`. NaN is `none`. -/
def row (big : ℝ) (jac : Fin n → ν → Fin n → κ → XF) (unc : Fin n → κ → XF) (i : Fin n) (v : ν) : Option ℝ :=
  if ∃ k, cleanUnc (unc i k) = none then none
  else some (Real.sqrt (∑ k, ((∑ j, nanToNum big (jac i v j k)) * (cleanUnc (unc i k)).getD 0) ^ 2))

/-- scattering.py 515-539 with utils.py 30-39. Without muons `jacobian` returns `None`, which `nan_to_num` rejects (TypeError); if the variable was not computed from the recorded
hits, `grad` returns `None` for them, whose `reshape` fails (AttributeError), or raises itself (RuntimeError). -/
def outVarUnc (big : ℝ) (g : Graph) (jac : Fin n → ν → Fin n → κ → XF) (unc : Fin n → κ → XF) : Except Err (Fin n → ν → Option ℝ) :=
  if n = 0 then .error .typeError
  else match g with
    | .other => .error .attributeError
    | .none => .error .runtimeError
    | .hits => .ok (row big jac unc)

/-- inference/volume.py 286-295 for voxel `v`: `jac v k` is the derivative of its prediction by entry `k` (muon and variable) of the table of scatter variables. -/
def voxUnc (big : ℝ) (jac : ν → κ → XF) (unc : κ → XF) (v : ν) : Option ℝ :=
  if ∃ k, cleanUnc (unc k) = none then none
  else some (Real.sqrt (∑ k, (nanToNum big (jac v k) * (cleanUnc (unc k)).getD 0) ^ 2))

/-- A scatter batch for the inferrers: number of muons, and how its variables depend on recorded hits (GenScatterBatch, 1126-1135: on true hits). -/
structure SBatch where
  n : Nat
  g : Graph

/-- inference/volume.py 248-255: the uncertainties of the batches, in order; only whether they can be had is kept. -/
def combineUncs : List SBatch → Except Err Unit
  | [] => .ok ()
  | b :: bs =>
    match outVarUnc (n := b.n) (κ := Empty) (ν := Unit) 0 b.g (fun _ _ _ k => nomatch k) (fun _ k => nomatch k) with
    | .error e => .error e
    | .ok _ => combineUncs bs

/-- inference/volume.py 163-169 `get_prediction`: None without batches; otherwise the combined variables are needed (243-269, 322-343). `rest` is what follows. -/
def prediction {α : Type} (bs : List SBatch) (rest : Except Err α) : Except Err (Option α) :=
  if bs = [] then .ok none
  else match combineUncs bs with
    | .error e => .error e
    | .ok _ =>
      match rest with
      | .error e => .error e
      | .ok a => .ok (some a)

end Uncert

end

end Tomopt
