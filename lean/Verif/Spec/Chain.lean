import Verif.Lemmas.PerfectTracks
import Verif.Props.C111
import Verif.Props.C98
import Verif.Model.Chain

/- What a detector that depends on a number `t` tells the inferrer about a batch of muons, for fixed noise. -/
namespace Tomopt

noncomputable section
open Real Scatter Chain

namespace C121

variable {n n' : Nat}

/-- What the inferrer is told of one muon: hits, their uncertainties, these over the efficiencies, and the efficiencies. -/
structure Told (n n' : Nat) where
  hit : Coords n n'
  unc : Coords n n'
  wgt : Scaled n n'
  eff : Plane n n' → ℝ

/-- the efficiency the inferrer computes for the muon -/
def Told.muon (a : Told n n') : ℝ :=
  match Infer.groupEff (List.ofFn fun k => a.eff (Sum.inl k)), Infer.groupEff (List.ofFn fun k => a.eff (Sum.inr k)) with
  | .ok x, .ok y => x * y
  | _, _ => 0

/-- the Jacobians of the variables of a muon by its hits -/
def Told.jacs (lw : ℝ × ℝ) (a : Told n n') : Var → Plane n n' × Fin 3 → ℝ := jac lw a.hit a.wgt

/-- What the voxel with lowest corner `low` sees of a muon of momentum `mom`, with Jacobians `J`; `Φ` is the distribution function of the standard normal distribution. -/
def Told.seen (lw : ℝ × ℝ) (Φ : ℝ → ℝ) (size : ℝ) (low : ℝ × ℝ × ℝ) (J : Var → Plane n n' × Fin 3 → ℝ) (mom : ℝ) (a : Told n n') : C98.Seen where
  row := muRow lw a.hit a.wgt a.unc J mom
  eff := a.muon
  prob := Infer.voxelProb (fun m s x => Φ ((x - m) / s)) size (muRow lw a.hit a.wgt a.unc J mom) low + 1e-15

/-- What a muon brings: how it crosses each panel, the noise drawn for it, and its momentum. -/
structure Ray (n n' : Nat) where
  muon : Plane n n' → Muon
  noise : Plane n n' → ℝ × ℝ
  mom : ℝ

/-- the number, where there is one -/
def num : XF → ℝ
  | .num x => x
  | _ => 0

/-- a coordinate -/
def comp (v : X3) : Fin 3 → XF
  | 0 => v.1
  | 1 => v.2.1
  | 2 => v.2.2

/-- the hits which panels `D` record at `t` -/
def hits (D : Plane n n' → ℝ → Panel) (r : Ray n n') (t : ℝ) : Coords n n' := fun k => num (comp ((D k.1 t).recoX (r.noise k.1) (r.muon k.1)) k.2)

/-- their uncertainties -/
def uncs (D : Plane n n' → ℝ → Panel) (r : Ray n n') (t : ℝ) : Coords n n' := fun k => num (comp ((D k.1 t).uncX (r.muon k.1)) k.2)

/-- their uncertainties over their efficiencies -/
def wgts (D : Plane n n' → ℝ → Panel) (r : Ray n n') (t : ℝ) : Scaled n n' :=
  fun k => num (comp (scaleUnc ((D k.1 t).uncX (r.muon k.1)) ((D k.1 t).effX (r.muon k.1))) k.2.castSucc)

/-- their efficiencies -/
def effs (D : Plane n n' → ℝ → Panel) (r : Ray n n') (t : ℝ) (p : Plane n n') : ℝ := num ((D p t).effX (r.muon p))

/-- what panels `D` tell of the muon at `t` -/
def told (D : Plane n n' → ℝ → Panel) (r : Ray n n') (t : ℝ) : Told n n' := ⟨hits D r t, uncs D r t, wgts D r t, effs D r t⟩

/-- the efficiency the inferrer computes for the muon -/
def eff (D : Plane n n' → ℝ → Panel) (r : Ray n n') (t : ℝ) : ℝ := (told D r t).muon

/-- the Jacobians of the variables of a muon by its hits -/
def jacs (lw : ℝ × ℝ) (D : Plane n n' → ℝ → Panel) (r : Ray n n') (t : ℝ) : Var → Plane n n' × Fin 3 → ℝ := (told D r t).jacs lw

/-- What the voxel with lowest corner `low` sees of the muon, with Jacobians `J`. -/
def seen (lw : ℝ × ℝ) (Φ : ℝ → ℝ) (size : ℝ) (low : ℝ × ℝ × ℝ) (D : Plane n n' → ℝ → Panel) (r : Ray n n') (J : Var → Plane n n' × Fin 3 → ℝ) (t : ℝ) : C98.Seen :=
  (told D r t).seen lw Φ size low J r.mom

/-- A muon that can be used: both fitted tracks go downwards, are not vertical, and are not parallel. -/
def Usable (lw : ℝ × ℝ) (h : Coords n n') (w : Scaled n n') : Prop :=
  ∃ tin tout : Track, trajectory lw (rowsOf Sum.inl h w) = .ok (some tin) ∧ trajectory lw (rowsOf Sum.inr h w) = .ok (some tout) ∧ tin.1.2.2 < 0 ∧ tout.1.2.2 < 0 ∧
    (tin.1.1 ≠ 0 ∨ tin.1.2.1 ≠ 0) ∧ (tout.1.1 ≠ 0 ∨ tout.1.2.1 ≠ 0) ∧ ¬ Parallel tin.1 tout.1

/-- A batch in training: panels that depend on `t`, with efficiencies at most 1, and muons that all panels answer for and that can be used. -/
structure Batch (lw : ℝ × ℝ) (D : Plane n n' → ℝ → Panel) (t0 : ℝ) (rs : List (Ray n n')) : Prop where
  above : 2 ≤ n
  below : 2 ≤ n'
  some : rs ≠ []
  moving : ∀ p, C111.Moving (D p) t0
  eff : ∀ p, (D p t0).eff ≤ 1
  clear : ∀ r ∈ rs, ∀ p, C111.Clear (D p t0) (r.muon p)
  usable : ∀ r ∈ rs, Usable lw (hits D r t0) (wgts D r t0)
  mom : ∀ r ∈ rs, 0 < r.mom

/-- a muon that falls straight down from where `m` crosses height `z` -/
def plumb (m : Muon) (z : ℝ) : Muon := { m with x := (crossing m z).1, y := (crossing m z).2, th := 0 }

/-- What automatic differentiation at `t0` sees of a muon: it crosses every panel where it does at `t0`, also when the panel is moved up or down. -/
def Ray.frozen (D : Plane n n' → ℝ → Panel) (t0 : ℝ) (r : Ray n n') : Ray n n' := if followsHeight then r else { r with muon := fun p => plumb (r.muon p) (D p t0).z }

end C121

end

end Tomopt
