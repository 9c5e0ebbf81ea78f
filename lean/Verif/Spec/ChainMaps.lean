import Verif.Spec.Chain
import Verif.Props.C123

/- What a detector of panels and heat maps that depends on a number `t` tells the inferrer about a muon, for fixed noise. -/
namespace Tomopt

noncomputable section
open Real Scatter Chain

namespace C130
open C121

variable {n n' : Nat}

/-- the row which a panel of either kind records under `var` for one muon, when `N` is the noise drawn for it -/
def note (P : AnyPanel) (N : ℝ × ℝ) (m : Muon) (var : String) : Row :=
  match P.tensorAt (fun _ => N) ⟨[m], [], [], []⟩ var with
  | some [row] => row
  | _ => []

/-- an entry of this row -/
def entry (P : AnyPanel) (N : ℝ × ℝ) (m : Muon) (var : String) (c : Nat) : XF := (note P N m var).getD c .nan

/-- What the detector `D` tells of a muon at `t`: its hits, their uncertainties, these over the efficiencies, and the efficiencies. -/
def told (D : Plane n n' → ℝ → AnyPanel) (r : Ray n n') (t : ℝ) : Told n n' where
  hit k := num (entry (D k.1 t) (r.noise k.1) (r.muon k.1) "reco_xyz" k.2)
  unc k := num (entry (D k.1 t) (r.noise k.1) (r.muon k.1) "unc_xyz" k.2)
  wgt k := num ((entry (D k.1 t) (r.noise k.1) (r.muon k.1) "unc_xyz" k.2).div (entry (D k.1 t) (r.noise k.1) (r.muon k.1) "eff" 0))
  eff p := num (entry (D p t) (r.noise p) (r.muon p) "eff" 0)

/-- A heat map in training whose centres, widths, scale and height are differentiable functions of a number. Widths and scale are positive, and at one of the centres the sum of the Gaussians is larger than at the
others. -/
structure Adapts (H : ℝ → Heatmap) (t0 : ℝ) : Prop where
  same : ∀ t, (H t).res = (H t0).res ∧ (H t).eff = (H t0).eff ∧ (H t).training = true
  res : 0 < (H t0).res
  eff : 0 < (H t0).eff ∧ (H t0).eff ≤ 1
  clusters : ∃ (l r : List C123.Moving) (c : C123.Moving), (∀ x ∈ l ++ c :: r, DifferentiableAt ℝ x.1 t0 ∧ DifferentiableAt ℝ x.2 t0) ∧ C123.Wide (C123.atTime (l ++ c :: r) t0) ∧ C123.Peaked l r c t0 ∧
    ∀ t, (H t).mu = (l ++ c :: r).map (fun x => x.1 t) ∧ (H t).sig = (l ++ c :: r).map fun x => x.2 t
  norm : DifferentiableAt ℝ (fun t => (H t).norm) t0 ∧ 0 < (H t0).norm
  z : DifferentiableAt ℝ (fun t => (H t).z) t0

/-- A panel or a heat map in training with differentiable parameters, and an efficiency of at most 1. -/
inductive Learns : (ℝ → AnyPanel) → ℝ → Prop
  | panel (Q : ℝ → Panel) (t0 : ℝ) (h : C111.Moving Q t0) (he : (Q t0).eff ≤ 1) : Learns (fun t => .panel (Q t)) t0
  | heatmap (Q : ℝ → Heatmap) (t0 : ℝ) (h : Adapts Q t0) : Learns (fun t => .heatmap (Q t)) t0

/-- The muon does not cross where the answer has a kink: see C111 for panels; the efficiency of a heat map is cut off where its response exceeds 1. -/
def Clear : AnyPanel → Muon → Prop
  | .panel p, m => C111.Clear p m
  | .heatmap h, m => h.gmm (crossing m h.z) ≠ 1

/-- A batch in training. -/
structure Batch (lw : ℝ × ℝ) (D : Plane n n' → ℝ → AnyPanel) (t0 : ℝ) (rs : List (Ray n n')) : Prop where
  above : 2 ≤ n
  below : 2 ≤ n'
  some : rs ≠ []
  learns : ∀ p, Learns (D p) t0
  clear : ∀ r ∈ rs, ∀ p, Clear (D p t0) (r.muon p)
  usable : ∀ r ∈ rs, Usable lw (told D r t0).hit (told D r t0).wgt
  mom : ∀ r ∈ rs, 0 < r.mom

/-- What automatic differentiation at `t0` sees of a muon: it crosses every panel where it does at `t0`. -/
def frozen (D : Plane n n' → ℝ → AnyPanel) (t0 : ℝ) (r : Ray n n') : Ray n n' := if followsHeight then r else { r with muon := fun p => plumb (r.muon p) (D p t0).z }

/-- the price of area -/
def price : AnyPanel → ℝ
  | .panel p => p.m2cost
  | .heatmap h => h.m2cost

end C130

end

end Tomopt
