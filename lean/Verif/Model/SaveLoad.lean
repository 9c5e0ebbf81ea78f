import Verif.Model.Basic

/-
Model of `save` and `load` of wrappers (volume_wrapper.py 268-292). The parameters of the volume and the states of optimisers are opaque values; torch's own
`state_dict`/`load_state_dict` are assumed to copy them exactly. `scale` stands for what `assign_budget` derives from the parameters and stores in the panels
outside of the state dict (panel.py 94, 207; volume.py 169-184).
-/
namespace Tomopt

namespace SaveLoad

/-- whether the first list occurs in the second, as consecutive elements -/
def occurs (p : List Char) : List Char → Bool
  | [] => p.isEmpty
  | c :: l => p.isPrefixOf (c :: l) || occurs p l

/-- volume_wrapper.py 291: `"_opt" in k` -/
def isOpt (k : String) : Bool := occurs ['_', 'o', 'p', 't'] k.toList

/-- What a file entry holds. -/
inductive Blob (Pm Os : Type)
  | vol (p : Pm)
  | opt (s : Os)

/-- A wrapper: parameters, derived scales of the panels, optimisers by name. -/
structure Wrap (Pm Sc Os : Type) where
  params : Pm
  scale : Sc
  opts : Dict String Os

variable {Pm Sc Os : Type}

/-- volume_wrapper.py 268-276 `save`: `{"volume": …, **{k: …}}`; later keys replace earlier ones. -/
def save (w : Wrap Pm Sc Os) : Dict String (Blob Pm Os) :=
  w.opts.foldl (fun d kv => Dict.set d kv.1 (.opt kv.2)) [("volume", .vol w.params)]

/-- volume_wrapper.py 290-292: the loop over the entries of the file. An optimiser missing from the wrapper raises KeyError; an entry that is not the state
of an optimiser makes `load_state_dict` raise (ValueError or KeyError in torch; here `valueError`). -/
def loadOpts : Dict String (Blob Pm Os) → Wrap Pm Sc Os → Except Err Unit × Wrap Pm Sc Os
  | [], w => (.ok (), w)
  | (k, b) :: d, w =>
    if isOpt k then
      match w.opts.get? k with
      | none => (.error .keyError, w)
      | some _ =>
        match b with
        | .vol _ => (.error .valueError, w)
        | .opt s => loadOpts d { w with opts := w.opts.set k s }
    else loadOpts d w

/-- volume_wrapper.py 278-292 `load`. `assign` is `assign_budget`: it is called if the *file* has an entry called `budget_weights`. -/
def load (assign : Pm → Sc) (file : Dict String (Blob Pm Os)) (w : Wrap Pm Sc Os) : Except Err Unit × Wrap Pm Sc Os :=
  match file.get? "volume" with
  | none => (.error .keyError, w)
  | some (.opt _) => (.error .runtimeError, w)
  | some (.vol p) =>
    let w := { w with params := p }
    let w := if (file.get? "budget_weights").isSome then { w with scale := assign w.params } else w
    loadOpts file w

/-- volume.py 186-195: every pass of muons starts with `assign_budget` -/
def forward (assign : Pm → Sc) (w : Wrap Pm Sc Os) : Wrap Pm Sc Os := { w with scale := assign w.params }

end SaveLoad

end Tomopt
