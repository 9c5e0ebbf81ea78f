import Verif.Model.Heatmap

/-
Model of tomopt/volume/layer.py 402-617: detector layers. `np.argsort` (unstable for ties) is a parameter.
-/
namespace Tomopt

noncomputable section

/-- A panel of either kind. -/
inductive AnyPanel where
  | panel (p : Panel)
  | heatmap (h : Heatmap)

namespace AnyPanel

def z : AnyPanel → ℝ
  | .panel p => p.z
  | .heatmap h => h.z

def getCost : AnyPanel → ℝ
  | .panel p => p.getCost
  | .heatmap h => h.getCost

def assignBudget (b : Option ℝ) : AnyPanel → Except Err AnyPanel
  | .panel p => .ok (.panel (p.assignBudget b))
  | .heatmap h => match h.assignBudget b with
    | .ok h => .ok (.heatmap h)
    | .error e => .error e

def getHits (noise : Nat → ℝ × ℝ) (b : Batch Row) : AnyPanel → Except Err (Dict String (List Row))
  | .panel p => p.getHits noise b
  | .heatmap h => .ok (h.getHits noise b)

end AnyPanel

/-- layer.py 487-507 `PanelDetectorLayer`. -/
structure DetLayer where
  pos : String
  lw : ℝ × ℝ
  z : ℝ
  size : ℝ
  panels : List AnyPanel

namespace DetLayer

/-- layer.py 529-535 `get_panel_zorder`: `argsort(z)[::-1]`. -/
def zorder (argsort : List ℝ → List Nat) (L : DetLayer) : List Nat := (argsort (L.panels.map AnyPanel.z)).reverse

/-- layer.py 537-546 `yield_zordered_panels`. -/
def zpanels (argsort : List ℝ → List Nat) (L : DetLayer) : List (Nat × AnyPanel) :=
  (L.zorder argsort).filterMap fun i => (L.panels[i]?).map fun p => (i, p)

/-- layer.py 581-585: the loop of `forward`. -/
def visit (pos : String) (noise : Nat → Nat → ℝ × ℝ) : List (Nat × AnyPanel) → Batch Row → Except Err (Batch Row)
  | [], b => .ok b
  | (i, p) :: ps, b =>
    match b.propagateDz (.vec (b.muons.map fun m => m.z - p.z)) none with
    | .error e => .error e
    | .ok b1 =>
      match p.getHits (noise i) b1 with
      | .error e => .error e
      | .ok hits => visit pos noise ps (b1.appendHits hits pos)

/-- layer.py 573-586 `forward`. -/
def forward (argsort : List ℝ → List Nat) (noise : Nat → Nat → ℝ × ℝ) (L : DetLayer) (b : Batch Row) : Except Err (Batch Row) :=
  match visit L.pos noise (L.zpanels argsort) b with
  | .error e => .error e
  | .ok b1 => b1.propagateDz (.vec (b1.muons.map fun m => m.z - (L.z - L.size))) none

/-- layer.py 588-600 `get_cost`; `None` without panels. -/
def getCost (L : DetLayer) : Option ℝ :=
  L.panels.foldl (fun c p => match c with | none => some p.getCost | some c => some (c + p.getCost)) none

/-- layer.py 613-617: the loop of `assign_budget` over the z-ordered panel indices; `budget[i]` out of range is an IndexError. -/
def assignLoop (budget : List ℝ) : List Nat → Nat → List AnyPanel → Except Err (List AnyPanel)
  | [], _, ps => .ok ps
  | j :: js, i, ps =>
    match ps[j]?, budget[i]? with
    | some p, some v =>
      match p.assignBudget (some v) with
      | .error e => .error e
      | .ok p' => assignLoop budget js (i + 1) (ps.set j p')
    | _, _ => .error .indexError

/-- layer.py 602-617 `assign_budget`. -/
def assignBudget (argsort : List ℝ → List Nat) (L : DetLayer) : Option (List ℝ) → Except Err DetLayer
  | none => .ok L
  | some budget =>
    match assignLoop budget (L.zorder argsort) 0 L.panels with
    | .error e => .error e
    | .ok ps => .ok { L with panels := ps }

/-- layer.py 500-507: the type label comes from the first panel. -/
def isHeatmap (L : DetLayer) : Bool :=
  match L.panels with
  | .heatmap _ :: _ => true
  | _ => false

/-- layer.py 548-571 `conform_detector`; `eps` gives the jitter used for each panel. A layer mixing both kinds is not considered: a
panel of the other kind is left alone here (the code raises). -/
def conform (eps : Nat → ℝ) (L : DetLayer) : DetLayer :=
  { L with panels := L.panels.zipIdx.map fun pi =>
      match L.isHeatmap, pi.1 with
      | true, .heatmap h =>
        let lo := max 0 (h.xyFix.1 - rangeMult * h.deltaXy)
        let hi := min L.lw.1 (h.xyFix.2 + rangeMult * h.deltaXy)
        .heatmap (h.clampParams (eps pi.2) (lo, 0, L.z - L.size) (hi, L.lw.2, L.z))
      | false, .panel p => .panel (p.clampParams (eps pi.2) (0, 0, L.z - L.size) (L.lw.1, L.lw.2, L.z))
      | _, p => p }

end DetLayer

end

end Tomopt
