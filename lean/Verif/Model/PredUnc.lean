import Verif.Model.Infer
import Mathlib.Analysis.Calculus.Deriv.Basic

/- Models: uncertainties of the predicted X0 of a voxel, by propagation through gradients. -/
namespace Tomopt

noncomputable section

open Real

namespace Infer

/-- columns of the tensor of variables (volume.py 216-231) -/
inductive Col where
  | pocaX
  | pocaY
  | pocaZ
  | scat
  | thIn
  | thOut
  | mom

/-- all of them, in order -/
def Col.all : List Col := [.pocaX, .pocaY, .pocaZ, .scat, .thIn, .thOut, .mom]

/-- entry of a column -/
def MuRow.get (r : MuRow) : Col → ℝ
  | .pocaX => r.poca.1
  | .pocaY => r.poca.2.1
  | .pocaZ => r.poca.2.2
  | .scat => r.scat
  | .thIn => r.thIn
  | .thOut => r.thOut
  | .mom => r.mom

/-- entry of a column of the tensor of uncertainties -/
def MuRow.unc (r : MuRow) : Col → ℝ
  | .pocaX => r.pocaUnc.1
  | .pocaY => r.pocaUnc.2.1
  | .pocaZ => r.pocaUnc.2.2
  | .scat => r.scatUnc
  | .thIn => r.thInUnc
  | .thOut => r.thOutUnc
  | .mom => r.momUnc

/-- the row with another value in a column; the uncertainties are another tensor -/
def MuRow.put (r : MuRow) (c : Col) (t : ℝ) : MuRow :=
  match c with
  | .pocaX => { r with poca := (t, r.poca.2) }
  | .pocaY => { r with poca := (r.poca.1, t, r.poca.2.2) }
  | .pocaZ => { r with poca := (r.poca.1, r.poca.2.1, t) }
  | .scat => { r with scat := t }
  | .thIn => { r with thIn := t }
  | .thOut => { r with thOut := t }
  | .mom => { r with mom := t }

/-- volume.py 297-332 and 361-398 for the voxel with lower corner `low`, as a function of the variables and efficiencies of the muons. -/
def voxelOf (cdf : ℝ → ℝ → ℝ → ℝ) (big size : ℝ) (low : ℝ × ℝ × ℝ) (ms : List (MuRow × ℝ)) : XF :=
  voxelX0 big size (ms.map (·.1)) (ms.map (·.2)) (ms.map fun m => voxelProb cdf size m.1 low + 1e-15)

/-- the value of a prediction, which is a number where it is differentiated -/
def predValue : XF → ℝ
  | .num x => x
  | _ => 0

/-- Whether autograd's derivative by the column is a number: a variance of zero gives an infinite weight, which `nan_to_num` (310-320) replaces by a
constant; backwards, its gradient of zero is then divided by zero. The PoCA enters the weights of all four averages. -/
def smooth (r : MuRow) : Col → Bool
  | .scat => decide (sqVar r.scat r.scatUnc ≠ 0)
  | .thIn => decide (sqVar r.thIn r.thInUnc ≠ 0)
  | .thOut => decide (sqVar r.thOut r.thOutUnc ≠ 0)
  | .mom => true
  | _ => decide (sqVar r.scat r.scatUnc ≠ 0) && decide (sqVar r.thIn r.thInUnc ≠ 0) && decide (sqVar r.thOut r.thOutUnc ≠ 0)

/-- volume.py 287 `nan_to_num(jacobian(...))`, the entry of one voxel, one muon `m` (`a` come before it, `b` after it) and one column. Assumed: autograd computes
derivatives, NaN where `smooth` says so. -/
def jacEntry (cdf : ℝ → ℝ → ℝ → ℝ) (big size : ℝ) (low : ℝ × ℝ × ℝ) (a : List (MuRow × ℝ)) (m : MuRow × ℝ) (b : List (MuRow × ℝ)) (c : Col) : ℝ :=
  if smooth m.1 c then deriv (fun t => predValue (voxelOf cdf big size low (a ++ (m.1.put c t, m.2) :: b))) (m.1.get c) else 0

/-- every muon with those before and after it -/
def holes {β : Type} : List β → List (List β × β × List β)
  | [] => []
  | x :: l => ([], x, l) :: (holes l).map fun h => (x :: h.1, h.2.1, h.2.2)

/-- volume.py 292 `unc_2`, for one muon, summed over the columns; the infinite uncertainties which 289 replaces have been filtered out before (256-262). -/
def unc2 (cdf : ℝ → ℝ → ℝ → ℝ) (big size : ℝ) (low : ℝ × ℝ × ℝ) (a : List (MuRow × ℝ)) (m : MuRow × ℝ) (b : List (MuRow × ℝ)) : ℝ :=
  (Col.all.map fun c => (jacEntry cdf big size low a m b c * m.1.unc c) ^ 2).sum

/-- volume.py 271-295 `_get_voxel_zxy_x0_pred_uncs`, for one voxel. -/
def predUnc (cdf : ℝ → ℝ → ℝ → ℝ) (big size : ℝ) (low : ℝ × ℝ × ℝ) (ms : List (MuRow × ℝ)) : ℝ :=
  sqrt (((holes ms).map fun h => unc2 cdf big size low h.1 h.2.1 h.2.2).sum)

/-- lower corner of the voxel with indices (z, x, y) in the flat list of edges (volume.py 381-391) -/
def lowAt (c : Conf) (k i j : Nat) : ℝ × ℝ × ℝ := c.edges.getD ((i * c.shp.2.1 + j) * c.shp.2.2 + k) (0, 0, 0)

/-- volume.py 271-295 `_get_voxel_zxy_x0_pred_uncs`, for all voxels. Without layers the Jacobian is `None` (utils.py 32-33) and `nan_to_num` a TypeError. The variables are
assumed to require gradients. -/
def predUncs (c : Conf) (rows : List MuRow) (effs : List ℝ) : Except Err (List (List (List ℝ))) :=
  if c.shp.2.2 = 0 then .error .typeError
  else .ok ((List.range c.shp.2.2).map fun k => (List.range c.shp.1).map fun i => (List.range c.shp.2.1).map fun j =>
    predUnc c.cdf c.big c.size (lowAt c k i j) (rows.zip effs))

/-- the inferrer with its remembered uncertainties (volume.py 129) -/
structure USt where
  st : St
  uncs : Option (List (List (List ℝ)))

def USt.init : USt := ⟨St.init, none⟩

/-- volume.py 346-358 `vox_zxy_x0_pred_uncs` with 287: the predictions are computed first, the variables are then there. -/
def readUncs (c : Conf) (s : USt) : USt × Except Err (List (List (List ℝ))) :=
  match s.uncs with
  | some u => (s, .ok u)
  | none =>
    match readPreds c s.st with
    | (st, .error e) => (⟨st, none⟩, .error e)
    | (st, .ok _) =>
      match st.vars, st.eff with
      | some v, some eff =>
        match parseRows v.1 v.2 with
        | .error e => (⟨st, none⟩, .error e)
        | .ok rows =>
          match predUncs c rows eff with
          | .error e => (⟨st, none⟩, .error e)
          | .ok u => (⟨st, some u⟩, .ok u)
      | _, _ => (⟨st, none⟩, .error .runtimeError)

/-- what a user can do -/
inductive UOp where
  | op (o : Op)
  | uncs

inductive UAns where
  | ans (a : Ans)
  | uncs (r : Except Err (List (List (List ℝ))))

/-- one operation: adding resets everything (203-214), computing predictions forgets the uncertainties (341-343) -/
def uStep (c : Conf) (s : USt) : UOp → USt × UAns
  | .op (.add b) => (⟨addScatters s.st b, none⟩, .ans .done)
  | .op o => let r := step c s.st o; (⟨r.1, if s.st.preds.isNone && r.1.preds.isSome then none else s.uncs⟩, .ans r.2)
  | .uncs => let r := readUncs c s; (r.1, .uncs r.2)

/-- a history of operations and its answers -/
def uRun (c : Conf) : USt → List UOp → List UAns
  | _, [] => []
  | s, o :: os => let r := uStep c s o; r.2 :: uRun c r.1 os

end Infer

end

end Tomopt
