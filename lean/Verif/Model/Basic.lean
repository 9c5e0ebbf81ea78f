/-
Shared vocabulary of the model: exceptions, insertion-ordered dictionaries, boolean masks.
No mathematics library is needed here.
-/
namespace Tomopt

/-- Python exceptions the modelled code can raise (the class is kept, the message is not). -/
inductive Err where
  | valueError
  | indexError
  | keyError
  | typeError
  | attributeError
  | runtimeError
  | notImplemented
  | zeroDivision
  | assertion
  deriving DecidableEq, Repr

/-- A python `dict` (insertion ordered): association list, keys distinct by construction of `modify`. -/
abbrev Dict (κ : Type) (v : Type) := List (κ × v)

namespace Dict
variable {κ v w : Type} [DecidableEq κ]

/-- `d.get(k)` -/
def get? (d : Dict κ v) (k : κ) : Option v :=
  match d with
  | [] => none
  | (k', x) :: d => if k' = k then some x else get? d k

/-- `defaultdict` access followed by an update: change the value at `k` if it is present,
otherwise insert `f dflt` at the end. -/
def modify (d : Dict κ v) (k : κ) (dflt : v) (f : v → v) : Dict κ v :=
  match d with
  | [] => [(k, f dflt)]
  | (k', x) :: d => if k' = k then (k', f x) :: d else (k', x) :: modify d k dflt f

/-- `d[k] = x` -/
def set (d : Dict κ v) (k : κ) (x : v) : Dict κ v := modify d k x (fun _ => x)

/-- apply a function to every value, keeping keys and order -/
def mapVals (d : Dict κ v) (f : v → w) : Dict κ w := d.map (fun kv => (kv.1, f kv.2))

def keys (d : Dict κ v) : List κ := d.map (·.1)

end Dict

/-- `xs[mask]` for a boolean mask: the rows whose mask entry is `True`, in order. -/
def pick {β : Type} : List Bool → List β → List β
  | true :: ms, x :: xs => x :: pick ms xs
  | false :: ms, _ :: xs => pick ms xs
  | _, _ => []

/-- `xs[mask] = vals`: the rows whose mask entry is `True` are replaced in order by `vals`. -/
def put {β : Type} : List Bool → List β → List β → List β
  | true :: ms, _ :: xs, v :: vs => v :: put ms xs vs
  | true :: ms, x :: xs, [] => x :: put ms xs []
  | false :: ms, x :: xs, vs => x :: put ms xs vs
  | _, xs, _ => xs

/-- `mask.sum()` -/
def countTrue (ms : List Bool) : Nat := (ms.filter id).length

/-- `~mask` -/
def inv (ms : List Bool) : List Bool := ms.map not

end Tomopt
