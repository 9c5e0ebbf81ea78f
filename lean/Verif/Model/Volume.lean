import Verif.Model.Detector
import Verif.Model.Layer

/-
Model of tomopt/volume/volume.py.
-/
namespace Tomopt

noncomputable section
open Real

/-- A layer of either kind with the device it is on. -/
inductive AnyLayer where
  | passive (L : PassiveLayer)
  | detector (D : DetLayer)

namespace AnyLayer
def z : AnyLayer → ℝ
  | .passive L => L.z
  | .detector D => D.z
def size : AnyLayer → ℝ
  | .passive L => L.size
  | .detector D => D.size
end AnyLayer

/-- volume.py 49-66: the state of a `Volume`; `weights` and `nCosts` exist only with a budget. -/
structure Volume where
  layers : List AnyLayer
  budget : Option ℝ
  weights : List ℝ
  nCosts : List Nat

/-- torch softmax over a vector -/
def softmax (w : List ℝ) : List ℝ := w.map fun x => exp x / (w.map exp).sum

namespace Volume

/-- volume.py 105-112 `get_passives`. -/
def passives (V : Volume) : List PassiveLayer :=
  V.layers.filterMap fun l => match l with | .passive L => some L | _ => none

/-- volume.py 98-103 `get_detectors`. -/
def detectors (V : Volume) : List DetLayer :=
  V.layers.filterMap fun l => match l with | .detector D => some D | _ => none

/-- volume.py 175-184: the loop of `assign_budget`; `shares = budget * softmax(weights)`. A slice past the end is shortened, as in python. -/
def assignLoop (argsort : List ℝ → List Nat) (shares : List ℝ) (nCosts : List Nat) :
    Nat → Nat → List AnyLayer → Except Err (List AnyLayer)
  | _, _, [] => .ok []
  | bi, li, .passive L :: ls =>
    match assignLoop argsort shares nCosts bi li ls with
    | .error e => .error e
    | .ok ls' => .ok (.passive L :: ls')
  | bi, li, .detector D :: ls =>
    match nCosts[li]? with
    | none => .error .indexError
    | some n =>
      match D.assignBudget argsort (some ((shares.drop bi).take n)) with
      | .error e => .error e
      | .ok D' =>
        match assignLoop argsort shares nCosts (bi + n) (li + 1) ls with
        | .error e => .error e
        | .ok ls' => .ok (.detector D' :: ls')

/-- volume.py 169-184 `assign_budget`. -/
def assignBudget (argsort : List ℝ → List Nat) (V : Volume) : Except Err Volume :=
  match V.budget with
  | none => .ok V
  | some b =>
    match assignLoop argsort ((softmax V.weights).map (b * ·)) V.nCosts 0 0 V.layers with
    | .error e => .error e
    | .ok ls => .ok { V with layers := ls }

/-- volume.py 348-362 `_check_passives`: the loop with the remembered footprint and voxel size. -/
def checkPassives : Option (ℝ × ℝ) → Option ℝ → List PassiveLayer → Except Err Unit
  | _, _, [] => .ok ()
  | lw, sz, L :: Ls =>
    match lw with
    | some w => if w.1 ≠ L.lw.1 ∨ w.2 ≠ L.lw.2 then .error .valueError else checkSize (some w) sz L Ls
    | none => checkSize (some L.lw) sz L Ls
where
  /-- volume.py 359-362 -/
  checkSize (lw : Option (ℝ × ℝ)) (sz : Option ℝ) (L : PassiveLayer) (Ls : List PassiveLayer) : Except Err Unit :=
    match sz with
    | some s => if s ≠ L.size then .error .valueError else checkPassives lw (some s) Ls
    | none => checkPassives lw (some L.size) Ls

/-- volume.py 340-346 `_get_device`; devices are compared by name. -/
def getDevice : List String → Except Err String
  | [] => .error .indexError
  | d :: ds => if ds.all (fun e => e == d) then .ok d else .error .valueError

/-- volume.py 320-338 `_configure_budget`: zero weights, one per panel, then `assign_budget`. Without any detector layer `np.sum([])` is the
float 0.0, which `torch.zeros` rejects (TypeError). -/
def configureBudget (argsort : List ℝ → List Nat) (V : Volume) : Except Err Volume :=
  let ns := V.detectors.map fun D => D.panels.length
  if ns = [] then .error .typeError
  else assignBudget argsort { V with nCosts := ns, weights := List.replicate ns.sum 0 }

/-- volume.py 49-66 `__init__`; `devices` are the devices of the layers. -/
def make (argsort : List ℝ → List Nat) (layers : List AnyLayer) (devices : List String) (budget : Option ℝ) : Except Err Volume :=
  match getDevice devices with
  | .error e => .error e
  | .ok _ =>
    let V : Volume := ⟨layers, budget, [], []⟩
    match checkPassives none none V.passives with
    | .error e => .error e
    | .ok _ =>
      match budget with
      | none => .ok V
      | some _ => configureBudget argsort V

/-- `l(mu)` for a layer of either kind; `none` when the limit on passes through a passive layer is hit. -/
def layerForward (argsort : List ℝ → List Nat) (rng : Nat → Nat → Draw) (noise : Nat → Nat → ℝ × ℝ) (fuel : Nat) (b : Batch Row) :
    AnyLayer → Except Err (Option (Batch Row))
  | .passive L => L.forward rng fuel b
  | .detector D => match D.forward argsort noise b with
    | .error e => .error e
    | .ok b' => .ok (some b')

/-- volume.py 197-199: the loop of `forward`; draws are keyed by the number of the layer. -/
def runLayers (argsort : List ℝ → List Nat) (rng : Nat → Nat → Nat → Draw) (noise : Nat → Nat → Nat → ℝ × ℝ) (fuel : Nat) :
    Nat → List AnyLayer → Batch Row → Except Err (Option (Batch Row))
  | _, [], b => .ok (some b)
  | i, l :: ls, b =>
    match layerForward argsort (rng i) (noise i) fuel b l with
    | .error e => .error e
    | .ok none => .ok none
    | .ok (some b') => runLayers argsort rng noise fuel (i + 1) ls b'.snapshot

/-- volume.py 186-199 `forward`: returns the volume (whose panels were given their budgets) and the muons. -/
def forward (argsort : List ℝ → List Nat) (rng : Nat → Nat → Nat → Draw) (noise : Nat → Nat → Nat → ℝ × ℝ) (fuel : Nat)
    (V : Volume) (b : Batch Row) : Except Err (Volume × Option (Batch Row)) :=
  match V.assignBudget argsort with
  | .error e => .error e
  | .ok V' =>
    match runLayers argsort rng noise fuel 0 V'.layers b with
    | .error e => .error e
    | .ok b' => .ok (V', b')

/-- volume.py 208-220: the sum over detector layers without a budget; a layer without panels contributes `None`, which raises a TypeError when
added. -/
def costLoop : Option ℝ → List DetLayer → Except Err (Option ℝ)
  | c, [] => .ok c
  | none, D :: Ds => costLoop D.getCost Ds
  | some c, D :: Ds => match D.getCost with
    | some d => costLoop (some (c + d)) Ds
    | none => .error .typeError

/-- volume.py 201-220 `get_cost`. -/
def getCost (V : Volume) : Except Err ℝ :=
  match V.budget with
  | some b => .ok b
  | none => match costLoop none V.detectors with
    | .error e => .error e
    | .ok none => .ok 0
    | .ok (some c) => .ok c

end Volume

end

end Tomopt
