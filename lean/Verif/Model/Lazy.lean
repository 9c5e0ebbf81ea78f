import Verif.Model.Scatter

/-
Model of the memoised properties of tomopt/inference/scattering.py (752-1087): the variables of a scatter batch are computed when they are first asked for and
stored. Automatic differentiation is a parameter, as in `Model/Uncert.lean`.
-/
namespace Tomopt

noncomputable section
open Real

namespace Scatter

/-- the memoised variables, 68-94 -/
inductive SVar
  | poca | dxy | thetaIn | thetaOut | phiIn | phiOut | dtheta | dphi | total | thetaXYIn | thetaXYOut | dthetaXY | xyzIn | xyzOut
  deriving DecidableEq

/-- A tensor of shape (muons, components); `none` is NaN. -/
abbrev Rows := List (List (Option ℝ))

/-- scattering.py 60-94: the fitted tracks with their coefficients, one entry per muon, the range of heights of the passive volume, and the memory. `log` is a ghost
list of the variables whose values were computed. -/
structure Memo where
  tracks : List (Track × Track × (ℝ × ℝ × ℝ))
  zr : ℝ × ℝ
  val : SVar → Option Rows
  unc : SVar → Option Rows
  log : List SVar

/-- a scatter batch after its construction (60-94: everything else `None`) -/
def Memo.fresh (tracks : List (Track × Track × (ℝ × ℝ × ℝ))) (zr : ℝ × ℝ) : Memo := ⟨tracks, zr, fun _ => none, fun _ => none, []⟩

/-- `self._v = r; self._v_unc = None` -/
def Memo.store (s : Memo) (v : SVar) (r : Rows) : Memo :=
  { s with val := fun w => if w = v then some r else s.val w, unc := fun w => if w = v then none else s.unc w, log := s.log ++ [v] }

/-- `if self._v is None: self._v = …; self._v_unc = None` followed by `return self._v`, for a value computed from the tracks alone -/
def Memo.once (s : Memo) (v : SVar) (r : Rows) : Rows × Memo :=
  match s.val v with
  | some x => (x, s)
  | none => (r, s.store v r)

def row3 (p : V3) : List (Option ℝ) := [some p.1, some p.2.1, some p.2.2]
def row3O : Option V3 → List (Option ℝ)
  | some p => row3 p
  | none => [none, none, none]
def row2 (p : ℝ × ℝ) : List (Option ℝ) := [some p.1, some p.2]

/-- scattering.py 799-808 `theta_in` -/
def Memo.thetaIn (s : Memo) : Rows × Memo := s.once .thetaIn (s.tracks.map fun t => [thetaOf t.1.1])
/-- scattering.py 822-831 `theta_out` -/
def Memo.thetaOut (s : Memo) : Rows × Memo := s.once .thetaOut (s.tracks.map fun t => [thetaOf t.2.1.1])
/-- scattering.py 845-854 `phi_in` -/
def Memo.phiIn (s : Memo) : Rows × Memo := s.once .phiIn (s.tracks.map fun t => [some (phiOf t.1.1.1 t.1.1.2.1)])
/-- scattering.py 868-877 `phi_out` -/
def Memo.phiOut (s : Memo) : Rows × Memo := s.once .phiOut (s.tracks.map fun t => [some (phiOf t.2.1.1.1 t.2.1.1.2.1)])

/-- 396: the two results for one muon, from (muons,1) tensors -/
def dthetaDphiRow (tie : Bool) : List (Option ℝ) → List (Option ℝ) → List (Option ℝ) → List (Option ℝ) → Option ℝ × Option ℝ
  | [some a], [some f], [some b], [some g] => (some (Scatter.dthetaDphi tie a f b g).1, some (Scatter.dthetaDphi tie a f b g).2)
  | _, _, _, _ => (none, none)

/-- element-wise operation on four (muons,1) tensors -/
def zip4 {β : Type} (f : List (Option ℝ) → List (Option ℝ) → List (Option ℝ) → List (Option ℝ) → β) : Rows → Rows → Rows → Rows → List β
  | a :: as, b :: bs, c :: cs, d :: ds => f a b c d :: zip4 f as bs cs ds
  | _, _, _, _ => []

/-- scattering.py 541-554 `_set_dtheta_dphi_scatter`: both variables are set at once. -/
def Memo.setDthetaDphi (tie : Bool) (s : Memo) : Memo :=
  let (a, s) := s.thetaIn
  let (f, s) := s.phiIn
  let (b, s) := s.thetaOut
  let (g, s) := s.phiOut
  let r := zip4 (dthetaDphiRow tie) a f b g
  (s.store .dtheta (r.map fun x => [x.1])).store .dphi (r.map fun x => [x.2])

/-- 984, 1006 for one muon -/
def thetaXYRow : List (Option ℝ) → List (Option ℝ) → List (Option ℝ)
  | [some t], [some f] => row2 (Scatter.thetaXY t f)
  | _, _ => [none, none]

/-- scattering.py 975-986 `theta_xy_in`. Simplification: the two operands are read once instead of twice. -/
def Memo.thetaXYIn (s : Memo) : Rows × Memo :=
  match s.val .thetaXYIn with
  | some x => (x, s)
  | none =>
    let (t, s) := s.thetaIn
    let (f, s) := s.phiIn
    let r := List.zipWith thetaXYRow t f
    (r, s.store .thetaXYIn r)

/-- scattering.py 998-1008 `theta_xy_out` -/
def Memo.thetaXYOut (s : Memo) : Rows × Memo :=
  match s.val .thetaXYOut with
  | some x => (x, s)
  | none =>
    let (t, s) := s.thetaOut
    let (f, s) := s.phiOut
    let r := List.zipWith thetaXYRow t f
    (r, s.store .thetaXYOut r)

/-- 1028 for one muon -/
def dthetaXYRow : List (Option ℝ) → List (Option ℝ) → List (Option ℝ)
  | [some a, some b], [some c, some d] => row2 (Scatter.dthetaXY (a, b) (c, d))
  | _, _ => [none, none]

/-- The properties 752-1076, one by one. `tie` is the choice of `argmin` between equal hypotheses. -/
def Memo.get (tie : Bool) (s : Memo) : SVar → Rows × Memo
  | .poca => s.once .poca (s.tracks.map fun t => row3 (poca t.1 t.2.1 t.2.2))
  | .dxy => s.once .dxy (s.tracks.map fun t => row2 (dxy t.1 t.2.1 t.2.2))
  | .thetaIn => s.thetaIn
  | .thetaOut => s.thetaOut
  | .phiIn => s.phiIn
  | .phiOut => s.phiOut
  | .dtheta =>
    match s.val .dtheta with
    | some x => (x, s)
    | none => let s := s.setDthetaDphi tie; ((s.val .dtheta).getD [], s)
  | .dphi =>
    match s.val .dphi with
    | some x => (x, s)
    | none => let s := s.setDthetaDphi tie; ((s.val .dphi).getD [], s)
  | .total => s.once .total (s.tracks.map fun t => [thetaMsc t.1.1 t.2.1.1])
  | .thetaXYIn => s.thetaXYIn
  | .thetaXYOut => s.thetaXYOut
  | .dthetaXY =>
    match s.val .dthetaXY with
    | some x => (x, s)
    | none =>
      let (a, s) := s.thetaXYIn
      let (b, s) := s.thetaXYOut
      let r := List.zipWith dthetaXYRow a b
      (r, s.store .dthetaXY r)
  | .xyzIn => s.once .xyzIn (s.tracks.map fun t => row3O (xyzIn s.zr t.1))
  | .xyzOut => s.once .xyzOut (s.tracks.map fun t => row3O (xyzOut s.zr t.2.1))

/-- The properties `…_unc`, 765-773 and so on; `unc v x` is what `_compute_out_var_unc` (515-539) makes of the variable `v` of value `x`, or raises. -/
def Memo.getUnc (tie : Bool) (unc : SVar → Rows → Except Err Rows) (s : Memo) (v : SVar) : Except Err Rows × Memo :=
  match s.unc v with
  | some u => (.ok u, s)
  | none =>
    let (x, s) := s.get tie v
    match unc v x with
    | .error e => (.error e, s)
    | .ok u => (.ok u, { s with unc := fun w => if w = v then some u else s.unc w })

/-- what a user can ask for: a variable or its uncertainty -/
inductive Ask
  | value (v : SVar)
  | uncertainty (v : SVar)

/-- one request -/
def Memo.ask (tie : Bool) (unc : SVar → Rows → Except Err Rows) (s : Memo) : Ask → Except Err Rows × Memo
  | .value v => (.ok (s.get tie v).1, (s.get tie v).2)
  | .uncertainty v => s.getUnc tie unc v

/-- a sequence of requests, with what the user sees each time -/
def Memo.asks (tie : Bool) (unc : SVar → Rows → Except Err Rows) : Memo → List Ask → List (Except Err Rows) × Memo
  | s, [] => ([], s)
  | s, q :: qs =>
    let (r, s) := s.ask tie unc q
    let (rs, s) := Memo.asks tie unc s qs
    (r :: rs, s)

/-! ### Several scatter batches of one batch of muons -/

/-- A scatter batch keeps a reference to the muons (107), which it filters in place (461); its variables belong to the muons of the moment of its construction. Here
the one batch of muons is the state, `rows` the rows of the scatter batch's own tensors. -/
structure Obj where
  rows : List (Track × Track × (ℝ × ℝ × ℝ))

/-- scattering.py 99-109 `__init__`: the muons left in the shared batch, and the new object -/
def construct (gen : Bool) (V : Volume) (mu : Batch Row) : Except Err (Batch Row × Obj) :=
  match build gen V mu with
  | .error e => .error e
  | .ok (s, cs) => .ok (s.mu, ⟨cs⟩)

/-- scattering.py 111-112 `__len__`: the length of the muons referred to -/
def Obj.len (_ : Obj) (mu : Batch Row) : Nat := mu.muons.length

end Scatter

end

end Tomopt
