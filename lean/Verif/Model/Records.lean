import Verif.Model.Wrapper
import Verif.Model.Geometry

/-
Model of optimisation/callbacks/diagnostic_callbacks.py: the callbacks that record points of closest approach and hits.
-/
namespace Tomopt

noncomputable section

namespace Records

open Fit

/-- diagnostic_callbacks.py 32-53 and 91-96 (`ScatterRecord`), 111-117 (`HitRecord`): what the interjections do to `self.record`. `cur` is what is saved for the current batch
of muons. -/
def step {α : Type} (e : Ev) (cur : α) (record : List α) : List α :=
  match e with
  | .trainBegin => []
  | .predBegin => []
  | .scatterEnd => record ++ [cur]
  | _ => record

/-- Callback `k` of the environment is such a recorder. `record` is its list, `obs` what it would save now, `hist` a record of what has been inferred from the batches of muons
so far. Other callbacks may do anything else. Saving may raise; then nothing is appended. -/
structure Keeps {W V P α : Type} (E : Env W V P) (k : Nat) (record : W → List α) (obs : W → α) (hist : W → List α) : Prop where
  self : ∀ e fp w, (E.cb k e fp w).1 = .ok () → record (E.cb k e fp w).2.2 = step e (obs w) (record w)
  selfErr : ∀ e fp w x, (E.cb k e fp w).1 = .error x → record (E.cb k e fp w).2.2 = record w
  other : ∀ i e fp w, i ≠ k → record (E.cb i e fp w).2.2 = record w
  cbObs : ∀ i e fp w, obs (E.cb i e fp w).2.2 = obs w
  cbHist : ∀ i e fp w, hist (E.cb i e fp w).2.2 = hist w
  prim : ∀ a fp w, record (E.prim a fp w).2 = record w
  infer : ∀ fp w, (E.prim .inferScatter fp w).1 = .ok () → hist (E.prim .inferScatter fp w).2 = hist w ++ [obs (E.prim .inferScatter fp w).2]
  inferErr : ∀ fp w x, (E.prim .inferScatter fp w).1 = .error x → hist (E.prim .inferScatter fp w).2 = hist w
  primHist : ∀ a fp w, a ≠ .inferScatter → hist (E.prim a fp w).2 = hist w
  pred : ∀ fp w, record (E.pred fp w).2 = record w ∧ hist (E.pred fp w).2 = hist w
  loss : ∀ p w, record (E.loss p w).2 = record w ∧ hist (E.loss p w).2 = hist w

/-- 75-89 `get_record`: `torch.cat` raises for an empty list -/
def getRecord {β : Type} (record : List (List β)) : Except Err (List β) := if record = [] then .error .runtimeError else .ok record.flatten

/-! ### Points of closest approach -/

/-- `(x >= a) * (x < b)`: false for NaN and infinities -/
def between (a b : ℝ) : XF → Bool
  | .num x => decide (a ≤ x) && decide (x < b)
  | .nan => false
  | .pinf => false
  | .ninf => false

/-- inference/scattering.py 164-178 `get_scatter_mask`, one muon -/
def mask (lw zr : ℝ × ℝ) (p : XF × XF × XF) : Bool := between 0 lw.1 p.1 && between 0 lw.2 p.2.1 && between zr.1 zr.2 p.2.2

/-- the number in a finite value -/
def val : XF → ℝ
  | .num x => x
  | .nan => 0
  | .pinf => 0
  | .ninf => 0

/-- diagnostic_callbacks.py 48-53 `poca_xyz[get_scatter_mask()]`. What is kept is finite, so its rows are triples of numbers. -/
def kept (V : Volume) (pocas : List (XF × XF × XF)) : Except Err (List (ℝ × ℝ × ℝ)) := do
  let zr ← V.zRange
  let lw ← V.lw
  .ok ((pocas.filter (mask lw zr)).map fun p => (val p.1, val p.2.1, val p.2.2))

/-- volume/volume.py 383-389 `h`: the height of the first layer -/
def height (V : Volume) : Except Err ℝ :=
  match V.layers with
  | [] => .error .indexError
  | l :: _ => .ok l.z

/-- `np.linspace(a, b, 1 + n)` -/
def linspace (a b : ℝ) (n : Nat) : List ℝ := (List.range (n + 1)).map fun (k : Nat) => a + k * ((b - a) / n)

/-- `pd.cut(x, edges, labels=False)` of a number and increasing edges: `searchsorted` finds the number of edges below `x`; outside of all bins the label is NaN. -/
def cut (edges : List ℝ) (x : ℝ) : Option Nat :=
  let n := edges.countP fun e => decide (e < x)
  if n = 0 ∨ n = edges.length then none else some (n - 1)

/-- diagnostic_callbacks.py 55-73 `ScatterRecord._to_df`: the column `layer`. `pd.cut` refuses edges that do not increase. -/
def layers (V : Volume) (rows : List (ℝ × ℝ × ℝ)) : Except Err (List (Option Nat)) := do
  let zr ← V.zRange
  let h ← height V
  if zr.1 < zr.2 then .ok (rows.map fun p => cut (linspace zr.1 zr.2 V.passives.length) (h - p.2.2)) else .error .valueError

/-! ### Hits -/

/-- the codes of a pandas category made from numbers: categories are the distinct values in increasing order -/
def codes (xs : List ℝ) : List Nat := xs.map fun x => xs.dedup.countP fun y => decide (y < x)

/-- 119-132 `HitRecord._to_df`: the column `layer`, for the heights of all hits of all muons, panel after panel. Heights are not smeared (volume/panel.py 236-237), so they are
numbers. -/
def hitLayers (V : Volume) (hits : List (List ℝ)) : Except Err (List Nat) := do
  let h ← height V
  .ok (codes (hits.flatten.map fun z => h - z))

end Records

end

end Tomopt
