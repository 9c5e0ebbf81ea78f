import Verif.Model.Geometry
import Verif.Model.Loss

/-
Model of the classifiers that work on voxel-wise X0 predictions: inference/volume.py 743-947, and of
benchmarks/ladle_furnace/inference.py 18-121. Gradients are not modelled.
-/
namespace Tomopt

noncomputable section
open Real

namespace Classify

/-- A tensor of shape (z, x, y). -/
abbrev Vol := List (List (List ℝ))

/-- the entries with index `i - 1`, `i` and `i + 1`, as far as they exist: the window of a pooling with kernel 3, stride 1, padding 1 -/
def window {β : Type} (l : List β) (i : Nat) : List β := (l.take (i + 2)).drop (i - 1)

def mean (l : List ℝ) : ℝ := l.sum / l.length

/-- the window in three dimensions -/
def window3 (x : Vol) (i j k : Nat) : List ℝ := (window x i).flatMap fun p => (window p j).flatMap fun r => window r k

/-- `F.avg_pool3d(x, kernel_size=3, stride=1, padding=1, count_include_pad=False)` -/
def avgPool3 (x : Vol) : Vol := x.mapIdx fun i p => p.mapIdx fun j r => r.mapIdx fun k _ => mean (window3 x i j k)

/-- `flatten` -/
def flat (x : Vol) : List ℝ := x.flatten.flatten

/-- `xs.kthvalue(k)`: the k-th smallest entry, counted from one; RuntimeError out of range. -/
def kth (xs : List ℝ) (k : ℤ) : Except Err ℝ :=
  if k < 1 then .error .runtimeError
  else match (xs.mergeSort (fun a b => decide (a ≤ b)))[(k - 1).toNat]? with
    | some v => .ok v
    | none => .error .runtimeError

/-- volume.py 780-796 `DenseBlockClassifierFromX0s.__init__`; `nVox` is the number of voxels of the volume. -/
structure DenseBlock where
  nBlock : Nat
  nVox : Nat
  useAvgpool : Bool
  cutCoef : ℝ
  offset : ℝ
  coef : ℝ

/-- volume.py 796: `n_block_voxels / xyz_centres.numel()`; `xyz_centres` has three numbers for each voxel -/
def DenseBlock.frac (c : DenseBlock) : ℝ := c.nBlock / (3 * c.nVox)

/-- volume.py 834-835 -/
def bkgWeights (cutCoef cut : ℝ) (xs : List ℝ) : List ℝ := xs.map fun p => Loss.sigmoid (cutCoef * (p - cut))

/-- `(w * xs).sum() / w.sum()` (volume.py 837-838) -/
def wmean (ws xs : List ℝ) : ℝ := (List.zipWith (· * ·) ws xs).sum / ws.sum

/-- volume.py 837-840: the ratio `r` before rescaling -/
def contrast (cutCoef cut : ℝ) (xs : List ℝ) : ℝ :=
  let w := bkgWeights cutCoef cut xs
  let bkg := wmean w xs
  let blk := wmean (w.map (1 - ·)) xs
  2 * (bkg - blk) / (bkg + blk)

/-- volume.py 831-843: the statistic from the flattened predictions -/
def DenseBlock.stat (c : DenseBlock) (xs : List ℝ) : Except Err ℝ :=
  match kth xs (1 + pyRound (c.frac * (xs.length - 1))) with
  | .error e => .error e
  | .ok cut => .ok (Loss.sigmoid ((contrast c.cutCoef cut xs + c.offset) * c.coef))

/-- volume.py 819-844 `get_prediction`; `none` is an X0 inferrer that could not make a prediction, which is not handled: indexing `None` is a TypeError,
flattening it an AttributeError. -/
def DenseBlock.predict (c : DenseBlock) : Option Vol → Except Err ℝ
  | none => .error (if c.useAvgpool then .typeError else .attributeError)
  | some x => c.stat (flat (if c.useAvgpool then avgPool3 x else x))

/- The fill level of a furnace, from edges in the X0 predictions. -/

/-- ladle_furnace/inference.py 61-70, 100-102: pooling along z with kernel 3, stride 1, padding 1 -/
def avg1 (x : List ℝ) : List ℝ := x.mapIdx fun i _ => mean (window x i)
def maxOf : List ℝ → ℝ
  | [] => 0
  | a :: l => l.foldl max a
def minOf : List ℝ → ℝ
  | [] => 0
  | a :: l => l.foldl min a
def max1 (x : List ℝ) : List ℝ := x.mapIdx fun i _ => maxOf (window x i)
def min1 (x : List ℝ) : List ℝ := x.mapIdx fun i _ => minOf (window x i)

/-- inference.py 72-76 `edge_det`: a convolution with replicated ends (torch's convolution does not flip the kernel) -/
def edgeDet (a b c : ℝ) (x : List ℝ) : List ℝ :=
  x.mapIdx fun i v => a * x.getD (i - 1) 0 + b * v + c * x.getD (min (i + 1) (x.length - 1)) 0

/-- inference.py 48: the kernel of `gauss_3d` -/
def gaussKernel : List (List (List ℝ)) := [[[1, 2, 1], [2, 4, 2], [1, 2, 1]], [[2, 4, 2], [4, 8, 4], [2, 4, 2]], [[1, 2, 1], [2, 4, 2], [1, 2, 1]]]

/-- the index of the `a`-th of the three neighbours of `i` among `n`, with replicated ends -/
def near (n i a : Nat) : Nat := min (i + a - 1) (n - 1)

/-- entry of a volume, with replicated ends -/
def nearAt (x : Vol) (i j k : Nat) (abc : Nat × Nat × Nat) : ℝ :=
  let p := x.getD (near x.length i abc.1) []
  let r := p.getD (near p.length j abc.2.1) []
  r.getD (near r.length k abc.2.2) 0

/-- the places in a kernel of three by three by three -/
def taps : List (Nat × Nat × Nat) := (List.range 3).flatMap fun a => (List.range 3).flatMap fun b => (List.range 3).map fun c => (a, b, c)

/-- weight at a place of the kernel -/
def tap (abc : Nat × Nat × Nat) : ℝ := ((gaussKernel.getD abc.1 []).getD abc.2.1 []).getD abc.2.2 0

/-- inference.py 46-50 `gauss_3d`: a convolution with replicated ends, divided by the sum of the kernel -/
def gauss3 (x : Vol) : Vol := x.mapIdx fun i p => p.mapIdx fun j r => r.mapIdx fun k _ => (taps.map fun t => tap t * nearAt x i j k t).sum / (taps.map tap).sum

/-- The tensors that occur in the pipeline, with the leading batch dimension of one (`vol`, `row`) or without it (`bare`, `noBatch`). -/
inductive Ten
  | vol (x : Vol)
  | row (x : List ℝ)
  | noBatch (x : List ℝ)
  | bare (x : Vol)

/-- the steps of the pipeline (inference.py 42-112) -/
inductive Step
  | removeLadle | avg3d | gauss3d | avgLayers | maxSubMin | maxDivMin | edge (a b c : ℝ) | gauss1d | avg1d | negative

/-- One step. `none`: a division by zero or the mean of nothing, after which entries are NaN or infinite. Errors: pooling and convolution of a tensor without
batch dimension are rejected (for more than one entry; a single entry, and layer steps after `avg_layers` or row steps before it, which are not meaningful, are not considered
and are errors here). `gauss_1d` and `gauss_3d` squeeze the batch dimension away (98, 50); of an image without it, only the layers can be averaged and the sign be changed. -/
def step : Step → Ten → Except Err (Option Ten)
  | .removeLadle, .vol x => .ok (some (.vol ((x.drop 1).map fun p => (p.drop 1).dropLast.map fun r => (r.drop 1).dropLast)))
  | .avg3d, .vol x => .ok (some (.vol (avgPool3 x)))
  | .gauss3d, .vol x => .ok (some (.bare (gauss3 x)))
  | .avgLayers, .bare x => .ok (if x.all (fun p => p.flatten ≠ []) then some (.noBatch (x.map fun p => mean p.flatten)) else none)
  | .avgLayers, .vol x => .ok (if x.all (fun p => p.flatten ≠ []) then some (.row (x.map fun p => mean p.flatten)) else none)
  | .maxSubMin, .row x => .ok (some (.row (List.zipWith (· - ·) (max1 x) (min1 x))))
  | .maxDivMin, .row x => .ok (if (min1 x).any (fun v => decide (v = 0)) then none else some (.row (List.zipWith (· / ·) (max1 x) (min1 x))))
  | .edge a b c, .row x => .ok (some (.row (edgeDet a b c x)))
  | .gauss1d, .row x => .ok (some (.noBatch ((edgeDet 2 4 2 x).map (· / 8))))
  | .avg1d, .row x => .ok (some (.row (avg1 x)))
  | .negative, .row x => .ok (some (.row (x.map (- ·))))
  | .negative, .noBatch x => .ok (some (.noBatch (x.map (- ·))))
  | .negative, .vol x => .ok (some (.vol (x.map fun p => p.map fun r => r.map (- ·))))
  | .negative, .bare x => .ok (some (.bare (x.map fun p => p.map fun r => r.map (- ·))))
  | _, _ => .error .runtimeError

def steps : List Step → Ten → Except Err (Option Ten)
  | [], t => .ok (some t)
  | s :: ss, t =>
    match step s t with
    | .error e => .error e
    | .ok none => .ok none
    | .ok (some t) => steps ss t

/-- inference.py 114-122 `x02probs` with a batch dimension added: the class probabilities, or (batch dimension lost) the single number left by the
softmax of a single entry. -/
inductive Probs
  | classes (p : List ℝ)
  | single (p : ℝ)

def x02probs (ss : List Step) (x : Vol) : Except Err (Option Probs) :=
  match steps ss (.vol x) with
  | .error e => .error e
  | .ok none => .ok none
  | .ok (some (.row y)) => .ok (some (.classes (softmax y)))
  | .ok (some (.noBatch [])) => .error .indexError
  | .ok (some (.noBatch (v :: _))) => .ok (some (.single (exp v / exp v)))
  | .ok (some (.vol _)) => .error .runtimeError
  | .ok (some (.bare _)) => .error .runtimeError

/-- inference.py 27: the default pipeline -/
def defaultSteps : List Step := [.removeLadle, .avg3d, .avgLayers, .avg1d, .edge (-1) 0 (-1), .negative, .maxDivMin]

/-- `torch.argmax`: the index of a largest entry (here the first) -/
def argmax : List ℝ → Nat
  | [] => 0
  | a :: l => go 0 a 1 l
where
  go (bi : Nat) (b : ℝ) (i : Nat) : List ℝ → Nat
    | [] => bi
    | a :: l => if b < a then go i a (i + 1) l else go bi b (i + 1) l

end Classify

namespace Ladle

/-- ladle_furnace/loss.py 41-45 `_targ2int`, with the bottom `z0` of the passive volume and the voxel size -/
def targ2int (z0 s t : ℝ) : ℤ := ⌊(t - z0) / s⌋ - 1

/-- ladle_furnace/inference.py 38-40 `_class2float` -/
def class2float (z0 s : ℝ) (c : ℤ) : ℝ := ((c : ℝ) + 1) * s + z0

/-- ladle_furnace/data.py 18-32 `LadleFurnacePassiveGenerator.__init__` -/
structure Gen where
  lw : ℝ × ℝ
  z0 : ℝ
  z1 : ℝ
  s : ℝ
  furnace : ℝ
  fill : ℝ
  slag : ℝ
  air : ℝ

/-- data.py 35-38: the fill height from a uniform draw `u ∈ [0,1)`; the range of the fill starts one layer above the bottom (32) -/
def Gen.matZ (g : Gen) (fixed : Option ℝ) (u : ℝ) : ℝ :=
  match fixed with
  | some z => z
  | none => g.s + (g.z0 + g.s) + (g.z1 - (g.z0 + g.s + g.s)) * u

/-- data.py 39-42 -/
def Gen.slagZ (g : Gen) (fixed : Option ℝ) (matZ u : ℝ) : ℝ :=
  match fixed with
  | some z => z
  | none => matZ + (g.z1 - matZ) * u

/-- data.py 44-55: the material of the layer with top `z` -/
def Gen.layer (g : Gen) (matZ slagZ z : ℝ) : ℝ :=
  if z ≤ g.z0 + g.s then g.furnace
  else if z ≤ matZ then g.fill
  else if z ≤ slagZ then g.slag
  else g.air

/-- data.py 44-63: the X0s loaded into the layer with top `z`; `nx`, `ny` are `int(lw / size)` (31) -/
def Gen.x0s (g : Gen) (matZ slagZ z : ℝ) (nx ny : Nat) : List (List ℝ) :=
  (List.range nx).map fun i => (List.range ny).map fun j =>
    if i = 0 ∨ i + 1 = nx ∨ j = 0 ∨ j + 1 = ny then g.furnace else g.layer matZ slagZ z

end Ladle

end

end Tomopt
