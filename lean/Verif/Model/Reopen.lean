import Verif.Model.Volume
import Verif.Model.SaveLoad
import Verif.Model.Optims

/-
Model of opening a saved detector: what of a volume is saved (`state_dict` of torch modules: parameters and buffers, panel.py 88-93, 449, heatmap.py 38-53, volume.py 337), how it is loaded, and `from_save` of the three
wrappers (volume_wrapper.py 790-832, 1008-1050, 1217-1250). Tensors are flattened. The parameters of a heat map's mixture are in the file under two names each, here under one. What is done with the budget in `load` is in Model/SaveLoad.
-/
namespace Tomopt

noncomputable section

namespace Reopen

/-- the names in a saved volume: `layers.i.panels.j.field` and `budget_weights` -/
inductive Key
  | part (layer det : Nat) (field : String)
  | budget
  deriving DecidableEq

/-- a saved volume: for each name in the file the numbers -/
abbrev File := Key → Option (List ℝ)

/-- numbers of a list of pairs, row by row -/
def flat : List (ℝ × ℝ) → List ℝ
  | [] => []
  | (a, b) :: l => a :: b :: flat l

def unflat : List ℝ → List (ℝ × ℝ)
  | a :: b :: l => (a, b) :: unflat l
  | _ => []

/-- panel.py 88-93, 449: parameters and buffers of a panel -/
def panelFields (p : Panel) (f : String) : Option (List ℝ) :=
  if f = "xy" then some [p.xy.1, p.xy.2]
  else if f = "z" then some [p.z]
  else if f = "xy_span" then some [p.span.1, p.span.2]
  else if f = "m2_cost" then some [p.m2cost]
  else if f = "resolution" then some [p.res]
  else if f = "efficiency" then some [p.eff]
  else if f = "_smooth" then
    match p.kind with
    | .gauss => none
    | .sigmoid s => some [s]
  else none

/-- heatmap.py 38-53: parameters and buffers of a heat map -/
def heatFields (h : Heatmap) (f : String) : Option (List ℝ) :=
  if f = "mu" then some (flat h.mu)
  else if f = "sig" then some (flat h.sig)
  else if f = "norm" then some [h.norm]
  else if f = "z" then some [h.z]
  else if f = "m2_cost" then some [h.m2cost]
  else if f = "resolution" then some [h.res]
  else if f = "efficiency" then some [h.eff]
  else if f = "xy_fix" then some [h.xyFix.1, h.xyFix.2]
  else if f = "xy_span_fix" then some [h.xySpanFix.1, h.xySpanFix.2]
  else none

def fields : AnyPanel → String → Option (List ℝ)
  | .panel p => panelFields p
  | .heatmap h => heatFields h

/-- the panels of a layer; passive layers have none -/
def dets : AnyLayer → List AnyPanel
  | .passive _ => []
  | .detector D => D.panels

/-- torch `Module.state_dict()` of a volume -/
def stateDict (V : Volume) : File
  | .part i j f =>
    match V.layers[i]? with
    | none => none
    | some l =>
      match (dets l)[j]? with
      | none => none
      | some p => fields p f
  | .budget => if V.budget.isSome then some V.weights else none

/-- copying into a tensor of one number, of two, and of a list of pairs: only from a tensor of the same size -/
def num (v : Option (List ℝ)) (x : ℝ) : ℝ :=
  match v with
  | some [a] => a
  | _ => x

def pair (v : Option (List ℝ)) (x : ℝ × ℝ) : ℝ × ℝ :=
  match v with
  | some [a, b] => (a, b)
  | _ => x

def pairs (v : Option (List ℝ)) (x : List (ℝ × ℝ)) : List (ℝ × ℝ) :=
  match v with
  | some l => if l.length = (flat x).length then unflat l else x
  | none => x

/-- torch `Module.load_state_dict` for one panel: parameters and buffers that are in the file with the right size are overwritten -/
def loadPanel (g : String → Option (List ℝ)) (p : Panel) : Panel :=
  { p with
    xy := pair (g "xy") p.xy
    z := num (g "z") p.z
    span := pair (g "xy_span") p.span
    m2cost := num (g "m2_cost") p.m2cost
    res := num (g "resolution") p.res
    eff := num (g "efficiency") p.eff
    kind := match p.kind with
      | .gauss => .gauss
      | .sigmoid s => .sigmoid (num (g "_smooth") s) }

/-- the same for a heat map; the width `delta_xy` (heatmap.py 47) is neither a parameter nor a buffer -/
def loadHeat (g : String → Option (List ℝ)) (h : Heatmap) : Heatmap :=
  { h with
    mu := pairs (g "mu") h.mu
    sig := pairs (g "sig") h.sig
    norm := num (g "norm") h.norm
    z := num (g "z") h.z
    m2cost := num (g "m2_cost") h.m2cost
    res := num (g "resolution") h.res
    eff := num (g "efficiency") h.eff
    xyFix := pair (g "xy_fix") h.xyFix
    xySpanFix := pair (g "xy_span_fix") h.xySpanFix }

def loadDet (g : String → Option (List ℝ)) : AnyPanel → AnyPanel
  | .panel p => .panel (loadPanel g p)
  | .heatmap h => .heatmap (loadHeat g h)

/-- the same for the panels of a layer, from number `j` on -/
def loadDets (g : Nat → String → Option (List ℝ)) : Nat → List AnyPanel → List AnyPanel
  | _, [] => []
  | j, p :: ps => loadDet (g j) p :: loadDets g (j + 1) ps

/-- the same for the layers, from number `i` on -/
def loadLayers (file : File) : Nat → List AnyLayer → List AnyLayer
  | _, [] => []
  | i, .passive L :: ls => .passive L :: loadLayers file (i + 1) ls
  | i, .detector D :: ls => .detector { D with panels := loadDets (fun j f => file (.part i j f)) 0 D.panels } :: loadLayers file (i + 1) ls

/-- the same for the weights of the budget -/
def loadWeights (file : File) (V : Volume) : List ℝ :=
  if V.budget.isSome then
    match file .budget with
    | some w => if w.length = V.weights.length then w else V.weights
    | none => V.weights
  else V.weights

/-- names and sizes of what is in a file -/
def sizes (file : File) : Key → Option Nat := fun k => (file k).map List.length

open Classical in
/-- torch `Module.load_state_dict(state)`, strict: what fits is copied, then missing, unexpected and misfitting entries raise a RuntimeError -/
def loadVol (file : File) (V : Volume) : Except Err Unit × Volume :=
  (if sizes file = sizes (stateDict V) then .ok () else .error .runtimeError,
   { V with layers := loadLayers file 0 V.layers, weights := loadWeights file V })

/-- a group of parameters of an optimiser -/
structure Group where
  params : List Key
  hyper : Dict String Optims.Hyper

/-- an optimiser: its groups and what it remembers about parameters, such as momenta -/
structure Opt (S : Type) where
  groups : List Group
  state : Key → Option S

/-- torch `Optimizer.state_dict()`: parameters become positions -/
structure SavedOpt (S : Type) where
  groups : List (Nat × Dict String Optims.Hyper)
  state : List (Option S)

variable {S : Type}

def Opt.params (o : Opt S) : List Key := o.groups.flatMap (·.params)

def saveOpt (o : Opt S) : SavedOpt S := ⟨o.groups.map fun g => (g.params.length, g.hyper), o.params.map o.state⟩

/-- torch `Optimizer.load_state_dict`: ValueError unless the groups have the same sizes; settings are those of the file -/
def loadOpt (s : SavedOpt S) (o : Opt S) : Except Err (Opt S) :=
  if s.groups.map (·.1) = o.groups.map (·.params.length) then
    .ok ⟨(o.groups.zip s.groups).map fun x => ⟨x.1.params, x.2.2⟩, fun k => if k ∈ o.params then (s.state[o.params.idxOf k]?).join else none⟩
  else .error .valueError

/-- a file -/
structure Saved (S : Type) where
  volume : File
  opts : Dict String (SavedOpt S)

/-- volume_wrapper.py 268-276 `save` -/
def save (V : Volume) (o : Dict String (Opt S)) : Saved S := ⟨stateDict V, o.mapVals saveOpt⟩

/-- volume_wrapper.py 290-292 -/
def loadOpts : Dict String (SavedOpt S) → Dict String (Opt S) → Except Err (Dict String (Opt S))
  | [], o => .ok o
  | (k, s) :: d, o =>
    if SaveLoad.isOpt k then
      match o.get? k with
      | none => .error .keyError
      | some x =>
        match loadOpt s x with
        | .error e => .error e
        | .ok y => loadOpts d (o.set k y)
    else loadOpts d o

/-- volume_wrapper.py 819-832, 1038-1050, 1240-1250 `from_save`: the wrapper is made with the given optimisers, then the file is loaded; with the volume, which is changed in place even if an exception is raised -/
def fromSave (opts : Except Err (Dict String (Opt S))) (V : Volume) (file : Saved S) : Except Err (Dict String (Opt S)) × Volume :=
  match opts with
  | .error e => (.error e, V)
  | .ok o =>
    match loadVol file.volume V with
    | (.error e, V) => (.error e, V)
    | (.ok _, V) => (loadOpts file.opts o, V)

/-- the panels of a volume with their places, layer by layer (volume_wrapper.py 842-846) -/
def places (V : Volume) : List (Nat × Nat × AnyPanel) := V.layers.zipIdx.flatMap fun l => (dets l.1).zipIdx.map fun p => (l.2, p.2, p.1)

/-- `p.field for l in dets for p in l.panels`; the other kind of panel has no such parameter (AttributeError) -/
def field (f : String) (heat : Bool) (V : Volume) : Except Err (List Key) :=
  mapE (fun x => match x.2.2, heat with
    | .panel _, true => .error .attributeError
    | .heatmap _, false => .error .attributeError
    | _, _ => .ok (.part x.1 x.2.1 f)) (places V)

/-- `p.z`, which both kinds have -/
def heights (V : Volume) : Except Err (List Key) := .ok ((places V).map fun x => .part x.1 x.2.1 "z")

/-- a new torch optimiser: it remembers nothing; ValueError without parameters -/
def newOpt (d : Dict String Optims.Hyper) : Except Err (List Key) → Except Err (Opt S)
  | .error e => .error e
  | .ok [] => .error .valueError
  | .ok ks => .ok ⟨[⟨ks, d⟩], fun _ => none⟩

/-- optimisers made one after the other -/
def newOpts : List (String × Dict String Optims.Hyper × Except Err (List Key)) → Except Err (Dict String (Opt S))
  | [] => .ok []
  | (k, d, ks) :: l =>
    match newOpt d ks with
    | .error e => .error e
    | .ok o =>
      match newOpts l with
      | .error e => .error e
      | .ok os => .ok ((k, o) :: os)

/-- volume_wrapper.py 834-853 `PanelVolumeWrapper._build_opt` -/
def buildPanel (V : Volume) (xy z span : Dict String Optims.Hyper) (budget : Option (Dict String Optims.Hyper)) : Except Err (Dict String (Opt S)) :=
  newOpts ([("xy_pos_opt", xy, field "xy" false V), ("z_pos_opt", z, heights V), ("xy_span_opt", span, field "xy_span" false V)] ++
    match budget with
    | none => []
    | some d => [("budget_opt", d, if V.budget.isSome then .ok [.budget] else .error .attributeError)])

/-- volume_wrapper.py 1061-1081 `HeatMapVolumeWrapper._build_opt` -/
def buildHeat (V : Volume) (mu norm sig z : Dict String Optims.Hyper) : Except Err (Dict String (Opt S)) :=
  newOpts [("mu_opt", mu, field "mu" true V), ("norm_opt", norm, field "norm" true V), ("sig_opt", sig, field "sig" true V), ("z_pos_opt", z, heights V)]

/-- the parameters of a panel (panel.py 91-93, heatmap.py 50-53) -/
def paramNames : AnyPanel → List String
  | .panel _ => ["xy", "z", "xy_span"]
  | .heatmap _ => ["mu", "sig", "norm", "z"]

/-- `volume.parameters()`: every parameter once -/
def parameters (V : Volume) : List Key := (if V.budget.isSome then [.budget] else []) ++ (places V).flatMap fun x => (paramNames x.2.2).map fun f => .part x.1 x.2.1 f

/-- volume_wrapper.py 294-305 `get_param_count`; `grad` says which parameters require gradients -/
def paramCount (V : Volume) (grad : Key → Bool) (trainable : Bool) : Nat :=
  (((parameters V).filter fun k => grad k || !trainable).map fun k => ((stateDict V k).getD []).length).sum

end Reopen

end

end Tomopt
