import Verif.Model.Infer

/-
Model of inference/volume.py 139-186 and 297-326 with floating-point arithmetic: every result is rounded by `fl`, sums over muons are taken by `sum`, in whatever order,
and cosines by `cosFl`.
-/
namespace Tomopt

noncomputable section
open Real

namespace Infer

/-- an order of additions -/
inductive Tree where
  | nil
  | leaf (x : ℝ)
  | node (l r : Tree)

def Tree.leaves : Tree → List ℝ
  | .nil => []
  | .leaf x => [x]
  | .node l r => l.leaves ++ r.leaves

/-- number of additions one after the other -/
def Tree.depth : Tree → Nat
  | .nil => 0
  | .leaf _ => 0
  | .node l r => max l.depth r.depth + 1

/-- the result of the additions -/
def Tree.eval (fl : ℝ → ℝ) : Tree → ℝ
  | .nil => 0
  | .leaf x => x
  | .node l r => fl (l.eval fl + r.eval fl)

/-- `torch.sum` adds all entries, in an order which the package does not know -/
def Summation (fl : ℝ → ℝ) (depth : Nat → Nat) (sum : List ℝ → ℝ) : Prop := ∀ xs, ∃ t : Tree, t.leaves.Perm xs ∧ t.depth ≤ depth xs.length ∧ sum xs = t.eval fl

/-- rounding of a number, infinities and NaN as they are -/
def xround (fl : ℝ → ℝ) : XF → XF
  | .num x => .num (fl x)
  | x => x

/-- volume.py 174-186 `_weighted_rms` -/
def weightedRmsFl (fl : ℝ → ℝ) (sum : List ℝ → ℝ) (xs ws : List ℝ) : Option ℝ :=
  if sum ws = 0 then none else some (fl (sqrt (fl (sum (List.zipWith (fun x w => fl (fl (x ^ 2) * w)) xs ws) / sum ws))))

/-- volume.py 310-315: variance of the square of a variable -/
def sqVarFl (fl : ℝ → ℝ) (x u : ℝ) : ℝ := fl (fl (fl (2 * x) * u) ^ 2)

/-- volume.py 139-158 `x0_from_scatters` -/
def x0FromScattersFl (fl cosFl : ℝ → ℝ) (deltaz totalScatter thetaIn thetaOut mom : ℝ) : XF :=
  let cosTheta := fl (fl (cosFl thetaIn + cosFl thetaOut) / 2)
  xround fl ((xround fl (xmulR (xround fl (xsq (xround fl (XF.quot (fl scatterCoefA) mom)))) deltaz)).div (.num (fl (fl (totalScatter ^ 2) * cosTheta))))

/-- volume.py 306-326 for one voxel -/
def voxelX0Fl (fl cosFl : ℝ → ℝ) (sum : List ℝ → ℝ) (big size : ℝ) (rows : List MuRow) (effs ps : List ℝ) : XF :=
  let w := List.zipWith (fun e p => fl (e * p)) effs ps
  let wgt := fun (vars : List ℝ) => List.zipWith (fun w v => nanToNum big (xround fl (XF.quot w v))) w vars
  let momVar := rows.map fun r => sqVarFl fl r.mom r.momUnc
  let momDen := if momVar.all (fun v => decide (v = 0)) then rows.map (fun _ => 1) else momVar
  match weightedRmsFl fl sum (rows.map (·.scat)) (wgt (rows.map fun r => sqVarFl fl r.scat r.scatUnc)),
    weightedRmsFl fl sum (rows.map (·.thIn)) (wgt (rows.map fun r => sqVarFl fl r.thIn r.thInUnc)),
    weightedRmsFl fl sum (rows.map (·.thOut)) (wgt (rows.map fun r => sqVarFl fl r.thOut r.thOutUnc)),
    weightedRmsFl fl sum (rows.map (·.mom)) (wgt momDen) with
  | some s, some i, some o, some m => x0FromScattersFl fl cosFl size (fl (s / fl (sqrt 2))) i o m
  | _, _, _, _ => .nan

end Infer

end

end Tomopt
