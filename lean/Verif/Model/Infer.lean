import Verif.Model.Scatter

/-
Model of tomopt/inference/volume.py: voxelwise X0 inference from scatter batches.

* What an inferrer reads of a scatter batch is a record of tensors (`ScVars`); their values and uncertainties are IEEE values.
* Uncertainties come from automatic differentiation and are inputs here.
* Scatter batches are values: nobody changes the muons of a batch after it was added. `Model/Shared.lean` drops this assumption.
* The normal cumulative distribution is a parameter `cdf mean scale x`; the largest float (the value `nan_to_num` puts for infinities) is a parameter `big`.
-/
namespace Tomopt

noncomputable section

open Real

namespace Infer

/-- the names of `_var_order_szs` (volume.py 130) -/
inductive Var where
  | poca | totScatter | thetaIn | thetaOut | mom
  deriving DecidableEq

/-- volume.py 130 `_var_order_szs` -/
def varOrder : List Var := [.poca, .totScatter, .thetaIn, .thetaOut, .mom]

/-- What `_combine_scatters` reads of a scatter batch: one row per muon in each tensor; hit efficiencies above and below. -/
structure ScVars where
  vals : Var → List (List XF)
  uncs : Var → List (List XF)
  effAbove : List (List ℝ)
  effBelow : List (List ℝ)

/-! ### Efficiency -/

/-- `torch.combinations(xs, r)`: all choices of `r` elements, in lexicographic order -/
def combinations {β : Type} : Nat → List β → List (List β)
  | 0, _ => [[]]
  | _ + 1, [] => []
  | r + 1, x :: xs => (combinations r xs).map (x :: ·) ++ combinations (r + 1) xs

/-- volume.py 577-584 for one muon: probability of at least two hits. 579 raises for no panel (negative `r`), 580 for one panel (it indexes a tensor
without rows). -/
def groupEff (effs : List ℝ) : Except Err ℝ :=
  if effs.length = 0 then .error .runtimeError
  else if effs.length = 1 then .error .indexError
  else
    let pMiss := effs.map (1 - ·)
    let c := (combinations (effs.length - 1) (List.range effs.length)).reverse
    let pOne := (List.zipWith (fun e ix => e * (ix.map fun i => pMiss.getD i 0).prod) effs c).sum
    .ok (1 - pOne - pMiss.prod)

/-- volume.py 563-590 `PanelX0Inferrer.compute_efficiency` -/
def panelEff (s : ScVars) : Except Err (List ℝ) := do
  let a ← mapE groupEff s.effAbove
  let b ← mapE groupEff s.effBelow
  .ok (List.zipWith (· * ·) a b)

/-! ### Combination of batches -/

/-- `torch.cat(ts, dim=0)` of one variable over the batches -/
def catVals (v : Var) (bs : List ScVars) : List (List XF) := bs.flatMap fun s => s.vals v

/-- likewise for uncertainties; 255: the momentum has none -/
def catUncs (v : Var) (bs : List ScVars) : List (List XF) :=
  match v with
  | .mom => (catVals .mom bs).map fun r => r.map fun _ => .num 0
  | v => bs.flatMap fun s => s.uncs v

/-- `~(t.isnan().any(1))` together with `~(t.isinf().any(1))` -/
def finiteRows (t : List (List XF)) : List Bool := t.map fun r => r.all XF.isFinite

/-- volume.py 257-262 -/
def combineMask (bs : List ScVars) : List Bool :=
  varOrder.foldl (fun m v => List.zipWith (· && ·) (List.zipWith (· && ·) m (finiteRows (catVals v bs))) (finiteRows (catUncs v bs)))
    (List.replicate (catVals .poca bs).length true)

/-- `torch.cat([...], dim=1)` of the selected rows -/
def catCols (m : List Bool) (ts : List (List (List XF))) : List (List XF) :=
  match ts with
  | [] => []
  | t :: ts => ts.foldl (fun acc t => List.zipWith (· ++ ·) acc (pick m t)) (pick m t)

/-- the memoised tensors of an inferrer, without predictions -/
structure Combined where
  vars : List (List XF)
  uncs : List (List XF)
  eff : List ℝ
  nMu : Nat

/-- volume.py 264-265: the two tensors, available before the efficiencies are computed -/
def combineVars (bs : List ScVars) : List (List XF) × List (List XF) :=
  (catCols (combineMask bs) (varOrder.map fun v => catVals v bs), catCols (combineMask bs) (varOrder.map fun v => catUncs v bs))

/-- volume.py 266 -/
def combineEff (eff : ScVars → Except Err (List ℝ)) (bs : List ScVars) : Except Err (List ℝ) := do
  let es ← mapE eff bs
  .ok (pick (combineMask bs) es.flatten)

/-! ### Predictions -/

/-- volume.py 174-186 `_weighted_rms` for one voxel; NaN if the weights sum to zero -/
def weightedRms (xs ws : List ℝ) : Option ℝ :=
  if ws.sum = 0 then none else some (sqrt ((List.zipWith (fun x w => x ^ 2 * w) xs ws).sum / ws.sum))

/-- volume.py 188-201 `_weighted_mean` -/
def weightedMean (xs ws : List ℝ) : Option ℝ :=
  if ws.sum = 0 then none else some ((List.zipWith (· * ·) xs ws).sum / ws.sum)

/-- `torch.nan_to_num` -/
def nanToNum (big : ℝ) : XF → ℝ
  | .num x => x
  | .nan => 0
  | .pinf => big
  | .ninf => -big

/-- square of an IEEE value -/
def xsq : XF → XF
  | .num x => .num (x ^ 2)
  | .nan => .nan
  | _ => .pinf

/-- product with a number -/
def xmulR (x : XF) (r : ℝ) : XF :=
  match x with
  | .num x => .num (x * r)
  | .nan => .nan
  | .pinf => if 0 < r then .pinf else if r < 0 then .ninf else .nan
  | .ninf => if 0 < r then .ninf else if r < 0 then .pinf else .nan

/-- volume.py 139-158 `x0_from_scatters` -/
def x0FromScatters (deltaz totalScatter thetaIn thetaOut mom : ℝ) : XF :=
  let cosTheta := (cos thetaIn + cos thetaOut) / 2
  (xmulR (xsq (XF.quot scatterCoefA mom)) deltaz).div (.num (totalScatter ^ 2 * cosTheta))

/-- The finite values of one muon's row (volume.py 412-523: the columns of the combined tensors in `varOrder`) -/
structure MuRow where
  poca : ℝ × ℝ × ℝ
  pocaUnc : ℝ × ℝ × ℝ
  scat : ℝ
  scatUnc : ℝ
  thIn : ℝ
  thInUnc : ℝ
  thOut : ℝ
  thOutUnc : ℝ
  mom : ℝ
  momUnc : ℝ

/-- slices of the columns `_set_var_dimensions` (216-231) -/
def parseRow (v u : List XF) : Except Err MuRow :=
  match v, u with
  | [.num a, .num b, .num c, .num s, .num i, .num o, .num m], [.num a', .num b', .num c', .num s', .num i', .num o', .num m'] =>
    .ok ⟨(a, b, c), (a', b', c'), s, s', i, i', o, o', m, m'⟩
  | _, _ => .error .indexError

/-- all rows -/
def parseRows : List (List XF) → List (List XF) → Except Err (List MuRow)
  | [], [] => .ok []
  | v :: vs, u :: us => do
    let r ← parseRow v u
    let rs ← parseRows vs us
    .ok (r :: rs)
  | _, _ => .error .indexError

/-- volume.py 378-389 `comp_int`: probability of one voxel for one muon. -/
def voxelProb (cdf : ℝ → ℝ → ℝ → ℝ) (size : ℝ) (r : MuRow) (low : ℝ × ℝ × ℝ) : ℝ :=
  (cdf r.poca.1 (r.pocaUnc.1 + 1e-7) (low.1 + size) - cdf r.poca.1 (r.pocaUnc.1 + 1e-7) low.1) *
    (cdf r.poca.2.1 (r.pocaUnc.2.1 + 1e-7) (low.2.1 + size) - cdf r.poca.2.1 (r.pocaUnc.2.1 + 1e-7) low.2.1) *
    (cdf r.poca.2.2 (r.pocaUnc.2.2 + 1e-7) (low.2.2 + size) - cdf r.poca.2.2 (r.pocaUnc.2.2 + 1e-7) low.2.2)

/-- `reshape(nx, ny, nz)` of a flat row: RuntimeError if the sizes do not match -/
def reshape3 {β : Type} (nx ny nz : Nat) (l : List β) : Except Err (List (List (List β))) :=
  if l.length = nx * ny * nz then
    .ok ((List.range nx).map fun i => (List.range ny).map fun j => (l.drop ((i * ny + j) * nz)).take nz)
  else .error .runtimeError

/-- `permute` from (x, y, z) to (z, x, y) -/
def permuteZXY (nz : Nat) (t : List (List (List ℝ))) : List (List (List ℝ)) :=
  (List.range nz).map fun k => t.map fun tx => tx.map fun ty => ty.getD k 0

/-- volume.py 361-398 `muon_probs_per_voxel_zxy` of one muon; `shp` is `shp_xyz`. -/
def muonProbs (cdf : ℝ → ℝ → ℝ → ℝ) (size : ℝ) (edges : List (ℝ × ℝ × ℝ)) (shp : Nat × Nat × Nat) (r : MuRow) : Except Err (List (List (List ℝ))) := do
  let t ← reshape3 shp.1 shp.2.1 shp.2.2 (edges.map (voxelProb cdf size r))
  .ok ((permuteZXY shp.2.2 t).map fun a => a.map fun b => b.map (· + 1e-15))

/-- entry (z, x, y) -/
def at3 (t : List (List (List ℝ))) (k i j : Nat) : ℝ := ((t.getD k []).getD i []).getD j 0

/-- volume.py 310-315: variance of the square of a variable -/
def sqVar (x u : ℝ) : ℝ := (2 * x * u) ^ 2

/-- volume.py 306-326 for one voxel; `ps` are the probabilities of the muons for it. -/
def voxelX0 (big size : ℝ) (rows : List MuRow) (effs ps : List ℝ) : XF :=
  let w := List.zipWith (· * ·) effs ps
  let wgt := fun (vars : List ℝ) => List.zipWith (fun w v => nanToNum big (XF.quot w v)) w vars
  let momVar := rows.map fun r => sqVar r.mom r.momUnc
  let momDen := if momVar.all (fun v => decide (v = 0)) then rows.map (fun _ => 1) else momVar
  match weightedRms (rows.map (·.scat)) (wgt (rows.map fun r => sqVar r.scat r.scatUnc)),
    weightedRms (rows.map (·.thIn)) (wgt (rows.map fun r => sqVar r.thIn r.thInUnc)),
    weightedRms (rows.map (·.thOut)) (wgt (rows.map fun r => sqVar r.thOut r.thOutUnc)),
    weightedRms (rows.map (·.mom)) (wgt momDen) with
  | some s, some i, some o, some m => x0FromScatters size (s / sqrt 2) i o m
  | _, _, _, _ => .nan

def isNan : XF → Bool
  | .nan => true
  | _ => false

/-- volume.py 297-332 `_get_voxel_zxy_x0_preds`; ValueError if any voxel is NaN. -/
def voxelPreds (big size : ℝ) (shp : Nat × Nat × Nat) (rows : List MuRow) (effs : List ℝ) (probs : List (List (List (List ℝ)))) :
    Except Err (List (List (List XF))) :=
  let pred := (List.range shp.2.2).map fun k => (List.range shp.1).map fun i => (List.range shp.2.1).map fun j =>
    voxelX0 big size rows effs (probs.map fun t => at3 t k i j)
  if pred.any fun a => a.any fun b => b.any isNan then .error .valueError else .ok pred

/-! ### The inferrer as a state machine -/

/-- the fixed part: functions of the volume and of the subclass -/
structure Conf where
  cdf : ℝ → ℝ → ℝ → ℝ
  big : ℝ
  size : ℝ
  edges : List (ℝ × ℝ × ℝ)
  shp : Nat × Nat × Nat
  eff : ScVars → Except Err (List ℝ)

/-- volume.py 42-55 `__init__` with 392-399 of volume/volume.py; `len(get_passives())` layers. -/
def confOf (V : Volume) (cdf : ℝ → ℝ → ℝ → ℝ) (big : ℝ) (eff : ScVars → Except Err (List ℝ)) : Except Err Conf := do
  let lw ← V.lw
  let s ← V.passiveSize
  let es ← V.xyzEdges
  .ok ⟨cdf, big, s, es, ((pyRound (lw.1 / s)).toNat, (pyRound (lw.2 / s)).toNat, V.passives.length), eff⟩

/-- the mutable part (volume.py 123-129 and 49); `_vox_zxy_x0_pred_uncs` is added in Model/PredUnc -/
structure St where
  batches : List ScVars
  vars : Option (List (List XF) × List (List XF))
  eff : Option (List ℝ)
  nMu : Option Nat
  probs : Option (List (List (List (List ℝ))))
  preds : Option (List (List (List XF)))

def St.init : St := ⟨[], none, none, none, none, none⟩

/-- volume.py 82-90 `add_scatters` with 203-214 `_reset_vars` -/
def addScatters (s : St) (b : ScVars) : St := ⟨s.batches ++ [b], none, none, none, none, none⟩

/-- volume.py 233-267 `_combine_scatters`: the variables are stored before the efficiencies are computed (264-267), so they stay if that raises. -/
def combine (c : Conf) (s : St) : St × Except Err Unit :=
  if s.batches.length = 0 then (s, .error .valueError)
  else
    let s := { s with vars := some (combineVars s.batches) }
    match combineEff c.eff s.batches with
    | .error e => (s, .error e)
    | .ok e => ({ s with eff := some e, nMu := some (combineVars s.batches).1.length }, .ok ())

/-- the test at the head of every property 400-523 -/
def ensure (c : Conf) (s : St) : St × Except Err Unit :=
  match s.vars with
  | none => combine c s
  | some _ => (s, .ok ())

/-- 400-510: a property reading the combined tensors (all of them read through this test) -/
def readVars (c : Conf) (s : St) : St × Except Err (List (List XF) × List (List XF)) :=
  match ensure c s with
  | (s, .error e) => (s, .error e)
  | (s, .ok _) => match s.vars with
    | some v => (s, .ok v)
    | none => (s, .error .typeError)

/-- volume.py 520-531 `muon_efficiency`; `None` where it was never set -/
def readEff (c : Conf) (s : St) : St × Except Err (Option (List ℝ)) :=
  match ensure c s with
  | (s, .error e) => (s, .error e)
  | (s, .ok _) => (s, .ok s.eff)

/-- volume.py 400-409 `n_mu` -/
def readN (c : Conf) (s : St) : St × Except Err (Option Nat) :=
  match ensure c s with
  | (s, .error e) => (s, .error e)
  | (s, .ok _) => (s, .ok s.nMu)

/-- volume.py 361-398 `muon_probs_per_voxel_zxy`: a missing `n_mu` makes the reshape raise a TypeError. -/
def readProbs (c : Conf) (s : St) : St × Except Err (List (List (List (List ℝ)))) :=
  match s.probs with
  | some p => (s, .ok p)
  | none =>
    match readVars c s with
    | (s, .error e) => (s, .error e)
    | (s, .ok v) =>
      match s.nMu with
      | none => (s, .error .typeError)
      | some _ =>
        match parseRows v.1 v.2 with
        | .error e => (s, .error e)
        | .ok rows =>
          match mapE (muonProbs c.cdf c.size c.edges c.shp) rows with
          | .error e => (s, .error e)
          | .ok p => ({ s with probs := some p }, .ok p)

/-- volume.py 334-344 `vox_zxy_x0_preds` with 297-332. Line 307 first reads the efficiency: `None.reshape` is an AttributeError. -/
def readPreds (c : Conf) (s : St) : St × Except Err (List (List (List XF))) :=
  match s.preds with
  | some p => (s, .ok p)
  | none =>
    match readEff c s with
    | (s, .error e) => (s, .error e)
    | (s, .ok none) => (s, .error .attributeError)
    | (s, .ok (some eff)) =>
      match readProbs c s with
      | (s, .error e) => (s, .error e)
      | (s, .ok probs) =>
        match readVars c s with
        | (s, .error e) => (s, .error e)
        | (s, .ok v) =>
          match parseRows v.1 v.2 with
          | .error e => (s, .error e)
          | .ok rows =>
            match voxelPreds c.big c.size c.shp rows eff probs with
            | .error e => (s, .error e)
            | .ok p => ({ s with preds := some p }, .ok p)

/-- volume.py 160-171 `get_prediction`: `None` before any batch was added -/
def getPrediction (c : Conf) (s : St) : St × Except Err (Option (List (List (List XF)))) :=
  if s.batches.length = 0 then (s, .ok none)
  else
    match readPreds c s with
    | (s, .error e) => (s, .error e)
    | (s, .ok p) => (s, .ok (some p))

/-- what a user can do with an inferrer -/
inductive Op where
  | add (b : ScVars)
  | prediction
  | vars
  | efficiency
  | nMuons
  | probs

/-- the answers -/
inductive Ans where
  | done
  | pred (r : Except Err (Option (List (List (List XF)))))
  | vars (r : Except Err (List (List XF) × List (List XF)))
  | eff (r : Except Err (Option (List ℝ)))
  | n (r : Except Err (Option Nat))
  | probs (r : Except Err (List (List (List (List ℝ)))))

def step (c : Conf) (s : St) : Op → St × Ans
  | .add b => (addScatters s b, .done)
  | .prediction => let r := getPrediction c s; (r.1, .pred r.2)
  | .vars => let r := readVars c s; (r.1, .vars r.2)
  | .efficiency => let r := readEff c s; (r.1, .eff r.2)
  | .nMuons => let r := readN c s; (r.1, .n r.2)
  | .probs => let r := readProbs c s; (r.1, .probs r.2)

/-- a history of operations and its answers -/
def run (c : Conf) : St → List Op → List Ans
  | _, [] => []
  | s, o :: os => let r := step c s o; r.2 :: run c r.1 os

end Infer

end

end Tomopt
