import Verif.Model.Infer
import Verif.Model.Classifier

/-
Model of benchmarks/ladle_furnace/inference.py 124-390 `PocaZLadleFurnaceFillLevelInferrer`: fill level as weighted average of the heights of the points of closest approach.
Efficiencies are computed as in Model/Infer (`groupEff`: lines 209-233 are those of inference/volume.py 563-590), the selection of finite rows too; here are the rows that are left.
The memoisation of results is that of Model/Infer and left out. The normal distribution is a parameter.
-/
namespace Tomopt

noncomputable section

open Real Infer

namespace PocaZ

/-- One muon with finite values: the point of closest approach, its uncertainties, the efficiency. -/
structure Row where
  x : ℝ
  y : ℝ
  z : ℝ
  ux : ℝ
  uy : ℝ
  uz : ℝ
  eff : ℝ

/-- `torch.linspace(a, b, n)` -/
def linspace (a b : ℝ) (n : Nat) : List ℝ := (List.range n).map fun (i : Nat) => if n = 1 then a else a + i * ((b - a) / (n - 1))

/-- inference.py 149, 155, 167, 173: `int(lw[0] / passive_size)`, for both axes -/
def nGrid (lw : ℝ × ℝ) (size : ℝ) : Nat := ⌊lw.1 / size⌋.toNat

/-- `torch.stack(torch.meshgrid(xs, ys), -1).reshape(-1, 2)` -/
def mesh (xs ys : List ℝ) : List (ℝ × ℝ) := xs.flatMap fun x => ys.map fun y => (x, y)

/-- inference.py 145-160 `xy_centres` -/
def xyCentres (lw : ℝ × ℝ) (size : ℝ) : List (ℝ × ℝ) :=
  mesh (linspace (size / 2) (lw.1 - size / 2) (nGrid lw size)) (linspace (size / 2) (lw.2 - size / 2) (nGrid lw size))

/-- inference.py 161-177 `xy_edges` -/
def xyEdges (lw : ℝ × ℝ) (size : ℝ) : List (ℝ × ℝ) :=
  mesh (linspace 0 (lw.1 - size) (nGrid lw size)) (linspace 0 (lw.2 - size) (nGrid lw size))

/-- inference.py 350-354 `_sig_model`, one coordinate -/
def sigModel (smooth lw x : ℝ) : ℝ := Loss.sigmoid ((1 - |(x - lw / 2) / (lw / 2)|) / smooth) / Loss.sigmoid (1 / smooth)

/-- inference.py 348: the weight of a pixel -/
def gridWgt (smooth : ℝ) (lw : ℝ × ℝ) (c : ℝ × ℝ) : ℝ := (sigModel smooth lw.1 c.1 - 0.5) * 2 * ((sigModel smooth lw.2 c.2 - 0.5) * 2)

/-- inference.py 341-347 the setter of `smooth` -/
def setSmooth (smooth : ℝ) : Except Err ℝ := if smooth > 0 then .ok smooth else .error .valueError

/-- inference.py 371-373: the probability that the point of closest approach is in a pixel -/
def pixelProb (cdf : ℝ → ℝ → ℝ → ℝ) (size : ℝ) (r : Row) (e : ℝ × ℝ) : ℝ :=
  (cdf r.x r.ux (e.1 + size) - cdf r.x r.ux e.1) * (cdf r.y r.uy (e.2 + size) - cdf r.y r.uy e.2)

/-- inference.py 370-375 `sig_wgt` of one muon -/
def sigWgt (cdf : ℝ → ℝ → ℝ → ℝ) (smooth size : ℝ) (lw : ℝ × ℝ) (r : Row) : ℝ :=
  (List.zipWith (fun e c => pixelProb cdf size r e * gridWgt smooth lw c) (xyEdges lw size) (xyCentres lw size)).sum

/-- `torch.clip` -/
def clip (lo hi x : ℝ) : ℝ := min (max x lo) hi

/-- inference.py 356-390 `_get_height_pred`, from the weights `sig` of the muons. `none` is NaN: no total weight, or (simplification) an uncertainty that is still zero
after clipping. Without muons `kthvalue` raises. -/
def height (sig : List ℝ) (rows : List Row) : Except Err (Option ℝ) := do
  let uncs := rows.map (·.uz)
  let lo ← Classify.kth uncs (1 + pyRound (0.15865 * (uncs.length - 1)))
  let hi ← Classify.kth uncs (1 + pyRound (0.84135 * (uncs.length - 1)))
  let clipped := uncs.map (clip lo hi)
  if 0 ∈ clipped then .ok none
  else
    let wgt := List.zipWith (fun a u => a / u ^ 2) (List.zipWith (fun s r => s * r.eff) sig rows) clipped
    let wHi ← Classify.kth wgt (1 + pyRound (0.84135 * (wgt.length - 1)))
    let wgt := wgt.map (clip 0 wHi)
    .ok (weightedMean (rows.map (·.z)) wgt)

/-- inference.py 239-251 `get_prediction`: `None` without scatter batches -/
def predict (cdf : ℝ → ℝ → ℝ → ℝ) (smooth size : ℝ) (lw : ℝ × ℝ) (nBatches : Nat) (rows : List Row) : Except Err (Option (Option ℝ)) :=
  if nBatches = 0 then .ok none
  else match height (rows.map (sigWgt cdf smooth size lw)) rows with
    | .error e => .error e
    | .ok h => .ok (some h)

end PocaZ

end

end Tomopt
