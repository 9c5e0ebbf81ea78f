import Verif.Model.Layer
import Verif.Model.OneCycle

/-
Model of what wrappers do with optimisers (volume_wrapper.py 428-481, 834-853, 1061-1081), of how they sort callbacks (483-511), and of schedules acting on optimisers
(opt_callbacks.py 17-140). Optimisers are torch's: lists of groups of parameters, each with a dictionary of settings.
-/
namespace Tomopt

noncomputable section

namespace Optims

/-- a setting of an optimiser: a number, or a pair such as `betas` -/
inductive Hyper
  | num (x : ℝ)
  | pair (a b : ℝ)

/-- an entry of `optimizer.param_groups`: the parameters (as identities of tensors) and the settings -/
structure Group where
  params : List Nat
  hyper : Dict String Hyper

/-- volume_wrapper.py 224: `opts`; an optimiser is its list of groups -/
abbrev Opts := Dict String (List Group)

/-- `self.opts[opt].param_groups[0]` -/
def first (o : Opts) (k : String) : Except Err Group :=
  match o.get? k with
  | none => .error .keyError
  | some [] => .error .indexError
  | some (g :: _) => .ok g

/-- assigning a setting of `self.opts[opt].param_groups[0]` -/
def assign (o : Opts) (k : String) (key : String) (x : Hyper) : Except Err Opts :=
  match o.get? k with
  | none => .error .keyError
  | some [] => .error .indexError
  | some (g :: gs) => .ok (o.set k ({ g with hyper := g.hyper.set key x } :: gs))

/-- volume_wrapper.py 428-439 `get_opt_lr` -/
def getLr (o : Opts) (k : String) : Except Err Hyper :=
  match first o k with
  | .error e => .error e
  | .ok g =>
    match g.hyper.get? "lr" with
    | none => .error .keyError
    | some x => .ok x

/-- volume_wrapper.py 441-450 `set_opt_lr` -/
def setLr (o : Opts) (lr : ℝ) (k : String) : Except Err Opts := assign o k "lr" (.num lr)

/-- volume_wrapper.py 452-466 `get_opt_mom`; a number cannot be indexed -/
def getMom (o : Opts) (k : String) : Except Err Hyper :=
  match first o k with
  | .error e => .error e
  | .ok g =>
    match g.hyper.get? "betas" with
    | some (.pair a _) => .ok (.num a)
    | some (.num _) => .error .typeError
    | none =>
      match g.hyper.get? "momentum" with
      | none => .error .keyError
      | some x => .ok x

/-- volume_wrapper.py 468-481 `set_opt_mom` -/
def setMom (o : Opts) (mom : ℝ) (k : String) : Except Err Opts :=
  match first o k with
  | .error e => .error e
  | .ok g =>
    match g.hyper.get? "betas" with
    | some (.pair _ b) => assign o k "betas" (.pair mom b)
    | some (.num _) => .error .typeError
    | none => assign o k "momentum" (.num mom)

/-- panel.py 91-93, heatmap.py 50-53: the learnable parameters of a detector, by identity. Heat maps have no `xy` and `xy_span`, panels no `mu`, `norm` and `sig`. -/
inductive Det
  | panel (xy z span : Nat)
  | heat (mu norm sig z : Nat)

def Det.xy : Det → Except Err Nat
  | .panel a _ _ => .ok a
  | .heat .. => .error .attributeError
def Det.z : Det → Except Err Nat
  | .panel _ b _ => .ok b
  | .heat _ _ _ d => .ok d
def Det.span : Det → Except Err Nat
  | .panel _ _ c => .ok c
  | .heat .. => .error .attributeError
def Det.mu : Det → Except Err Nat
  | .heat a _ _ _ => .ok a
  | .panel .. => .error .attributeError
def Det.norm : Det → Except Err Nat
  | .heat _ b _ _ => .ok b
  | .panel .. => .error .attributeError
def Det.sig : Det → Except Err Nat
  | .heat _ _ c _ => .ok c
  | .panel .. => .error .attributeError

/-- The detector layers of a volume from the top (`none`: not a `PanelDetectorLayer`), and the budget weights, which exist only if the volume has a budget (volume.py 61-62, 337). -/
structure Vol where
  layers : List (Option (List Det))
  budget : Option Nat

/-- volume_wrapper.py 842-846: the panels of the layers that are `PanelDetectorLayer`s, in order -/
def Vol.dets (v : Vol) : List Det := v.layers.flatMap fun l => l.getD []

/-- torch `Optimizer.__init__`: one group of all parameters; ValueError if there are none. `d` are the settings of the uninitialised optimiser. -/
def mkOpt (d : Dict String Hyper) (ps : Except Err (List Nat)) : Except Err (List Group) :=
  match ps with
  | .error e => .error e
  | .ok [] => .error .valueError
  | .ok ps => .ok [⟨ps, d⟩]

/-- volume_wrapper.py 834-853 `PanelVolumeWrapper._build_opt` -/
def buildPanel (v : Vol) (xy z span : Dict String Hyper) (budget : Option (Dict String Hyper)) : Except Err Opts :=
  match mkOpt xy (mapE Det.xy v.dets) with
  | .error e => .error e
  | .ok o1 =>
    match mkOpt z (mapE Det.z v.dets) with
    | .error e => .error e
    | .ok o2 =>
      match mkOpt span (mapE Det.span v.dets) with
      | .error e => .error e
      | .ok o3 =>
        let opts : Opts := [("xy_pos_opt", o1), ("z_pos_opt", o2), ("xy_span_opt", o3)]
        match budget with
        | none => .ok opts
        | some d =>
          match v.budget with
          | none => .error .attributeError
          | some w =>
            match mkOpt d (.ok [w]) with
            | .error e => .error e
            | .ok o4 => .ok (opts.set "budget_opt" o4)

/-- volume_wrapper.py 1061-1081 `HeatMapVolumeWrapper._build_opt` -/
def buildHeat (v : Vol) (mu norm sig z : Dict String Hyper) : Except Err Opts :=
  match mkOpt mu (mapE Det.mu v.dets) with
  | .error e => .error e
  | .ok o1 =>
    match mkOpt norm (mapE Det.norm v.dets) with
    | .error e => .error e
    | .ok o2 =>
      match mkOpt sig (mapE Det.sig v.dets) with
      | .error e => .error e
      | .ok o3 =>
        match mkOpt z (mapE Det.z v.dets) with
        | .error e => .error e
        | .ok o4 => .ok [("mu_opt", o1), ("norm_opt", o2), ("sig_opt", o3), ("z_pos_opt", o4)]

/-- What `_sort_cbs` asks about a callback: the classes it is an instance of, and `n_warmup`. -/
structure Kind where
  cyclic : Bool
  warmup : Bool
  logger : Bool
  metric : Bool
  nWarm : Nat

/-- `sorted_cbs`; lists of positions in the list of callbacks; `metric_log` may hold `None` -/
structure Sorted where
  cyclic : List Nat
  warmup : List Nat
  log : List (Option Nat)
  metric : List Nat
  nWarm : Nat

/-- volume_wrapper.py 497-507: the loop, from position `i` on -/
def sortFrom (i : Nat) : List Kind → Sorted → Sorted
  | [], s => s
  | c :: cs, s =>
    let s := if c.cyclic then { s with cyclic := s.cyclic ++ [i] } else s
    let s := if c.warmup then { s with warmup := s.warmup ++ [i], nWarm := s.nWarm + c.nWarm } else s
    let s := if c.logger then { s with log := s.log ++ [some i] } else s
    let s := if c.metric then { s with metric := s.metric ++ [i] } else s
    sortFrom (i + 1) cs s

/-- volume_wrapper.py 483-511 `_sort_cbs` -/
def sortCbs (cs : List Kind) : Sorted :=
  let s := sortFrom 0 cs ⟨[], [], [], [], 0⟩
  if s.log = [] then { s with log := s.log ++ [none] } else s

/-- volume_wrapper.py 344: `sorted_cbs["metric_log"][0]` -/
def metricLog (s : Sorted) : Except Err (Option Nat) :=
  match s.log with
  | [] => .error .indexError
  | x :: _ => .ok x

/- Schedules acting on an optimiser. -/

/-- opt_callbacks.py 91-106: what is given for one of the two quantities, if its initial value is -/
structure Quant where
  init : ℝ
  mid : Option ℝ
  final : Option ℝ

/-- opt_callbacks.py 91-106: a `OneCycle`; `none`: the initial value is `None` -/
structure Cycle where
  name : String
  warm : Nat
  lr : Option Quant
  mom : Option Quant

/-- The attributes of the callback that change, and the optimisers of its wrapper. `warming` and `plan` survive from an earlier fit. -/
structure St where
  active : Bool
  iter : Nat
  warming : Bool
  plan : Option (ℤ × ℤ)
  opts : Opts

/-- opt_callbacks.py 28-31 `set_wrapper` -/
def setWrapper (c : Cycle) (o : Opts) : Except Err Unit := if (o.get? c.name).isSome then .ok () else .error .valueError

/-- setting a value if there is one (opt_callbacks.py 48-51, 58-61) -/
def write (set : Opts → ℝ → String → Except Err Opts) (k : String) (x : Option ℝ) (o : Opts) : Except Err Opts :=
  match x with
  | none => .ok o
  | some x => set o x k

/-- opt_callbacks.py 48-51, 58-61: first the learning rate, then the momentum -/
def writeBoth (k : String) (lr mom : Option ℝ) (o : Opts) : Except Err Opts :=
  match write setLr k lr o with
  | .error e => .error e
  | .ok o => write setMom k mom o

/-- opt_callbacks.py 46-52 `on_train_begin`, also of a callback that was used before -/
def trainBegin (c : Cycle) (s : St) : Except Err St :=
  match writeBoth c.name (c.lr.map (·.init)) (c.mom.map (·.init)) s.opts with
  | .error e => .error e
  | .ok o => .ok { s with active := false, iter := 0, opts := o }

/-- opt_callbacks.py 33-36, 115-119 `_activate` -/
def activate (c : Cycle) (f : OneCycle.Fit) (epoch : Nat) (s : St) : St :=
  { s with active := true, warming := true, plan := some ((f.n : ℤ) - epoch + 1, (c.warm : ℤ) * f.k) }

/-- opt_callbacks.py 124-131 `get_param`; arithmetic with `None` is a TypeError. The final value defaults to the initial one (105-106). -/
def getParam (warming : Bool) (x : ℝ) (q : Quant) : Except Err ℝ :=
  match q.mid with
  | none => .error .typeError
  | some mid => .ok (mid - (mid - (if warming then q.init else q.final.getD q.init)) * x / 2)

def getParam? (warming : Bool) (x : ℝ) : Option Quant → Except Err (Option ℝ)
  | none => .ok none
  | some q =>
    match getParam warming x q with
    | .error e => .error e
    | .ok y => .ok (some y)

/-- opt_callbacks.py 121-140 `schedule` -/
def schedule (c : Cycle) (s : St) : Except Err (Option ℝ × Option ℝ) :=
  match s.plan with
  | none => .error .attributeError
  | some (_, scale) =>
    if scale = 0 then .error .zeroDivision
    else
      let x := Real.cos (Real.pi * s.iter / scale) + 1
      match getParam? s.warming x c.lr with
      | .error e => .error e
      | .ok lr =>
        match getParam? s.warming x c.mom with
        | .error e => .error e
        | .ok mom => .ok (lr, mom)

/-- opt_callbacks.py 54-61 `on_step_end` -/
def stepEnd (c : Cycle) (s : St) : Except Err St :=
  if s.active then
    let s := { s with iter := s.iter + 1 }
    match schedule c s with
    | .error e => .error e
    | .ok (lr, mom) =>
      match writeBoth c.name lr mom s.opts with
      | .error e => .error e
      | .ok o => .ok { s with opts := o }
  else .ok s

/-- opt_callbacks.py 108-113 `on_epoch_end` -/
def epochEnd (c : Cycle) (f : OneCycle.Fit) (epoch : Nat) (s : St) : Except Err St :=
  if (epoch : ℤ) - 1 = c.warm then
    match s.plan with
    | none => .error .attributeError
    | some (nExp, _) => .ok { s with iter := 0, warming := false, plan := some (nExp, (nExp - epoch + 1) * f.k) }
  else .ok s

/-- the events of a fit after its beginning -/
def apply (c : Cycle) (f : OneCycle.Fit) (s : St) : OneCycle.Op → Except Err St
  | .activate e => .ok (activate c f e s)
  | .step => stepEnd c s
  | .epochEnd e => epochEnd c f e s

def run (c : Cycle) (f : OneCycle.Fit) : List OneCycle.Op → St → Except Err St
  | [], s => .ok s
  | o :: os, s =>
    match apply c f s o with
    | .error e => .error e
    | .ok s => run c f os s

end Optims

end

end Tomopt
