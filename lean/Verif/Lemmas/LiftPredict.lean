import Verif.Spec.LiftPredict
import Verif.Lemmas.LiftScatter
import Verif.Lemmas.ExchangePredict

/- Helper lemmas: predictions of voxels when everything is moved up by a whole number of voxels. -/
namespace Tomopt

noncomputable section
open Real Infer C107

namespace Lift

variable (h : ℝ)

def muRow (r : MuRow) : MuRow := { r with poca := (r.poca.1, r.poca.2.1, r.poca.2.2 + h) }

theorem block_lift {V : Volume} {s zb : ℝ} {nx ny nz : Nat} {mat : Nat → Nat → Nat → ℝ} (hV : Block V s zb nx ny nz mat) : Block (volume h V) s (zb + h) nx ny nz mat := by
  refine ⟨hV.pos, by rw [passives_lift, List.length_map]; exact hV.count, hV.nonempty, fun i L hL => ?_⟩
  rw [passives_lift, List.getElem?_map] at hL
  cases h0 : V.passives[i]? with
  | none => rw [h0] at hL; simp at hL
  | some L0 =>
    rw [h0] at hL
    simp only [Option.map_some, Option.some.injEq] at hL
    subst hL
    obtain ⟨h1, h2, h3, h4⟩ := hV.layer i L0 h0
    refine ⟨h1, h2, ?_, h4⟩
    simp only [passive, h3]
    ring

theorem parseRow_lift (a b c : ℝ) (r u : List XF) : parseRow (.num a :: .num b :: .num (c + h) :: r) u = (parseRow (.num a :: .num b :: .num c :: r) u).map (muRow h) := by
  rcases e : parseRow (.num a :: .num b :: .num c :: r) u with x | y
  · unfold parseRow at e ⊢
    split at e
    · cases e
    · rename_i hno
      cases e
      split
      · rename_i h1
        simp only [List.cons.injEq] at h1
        obtain ⟨-, -, -, rfl⟩ := h1
        exact (hno _ _ _ _ _ _ _ _ _ _ _ _ _ _ rfl rfl).elim
      · rfl
  · unfold parseRow at e
    split at e
    · rename_i h1
      simp only [List.cons.injEq, XF.num.injEq] at h1
      obtain ⟨rfl, rfl, rfl, rfl⟩ := h1
      cases e
      rfl
    · cases e

theorem usable_lift (m : Mu) : (mu h m).Usable ↔ m.Usable := by
  have key : ∀ r : List XF, (∀ x ∈ row h "reco_xyz" r, x.isFinite = true) ↔ ∀ x ∈ r, x.isFinite = true := by
    intro r
    unfold row
    rw [if_pos (.inl rfl)]
    split
    · simp [XF.isFinite]
    · rfl
  simp only [Mu.Usable, mu]
  refine and_congr (forall_congr' fun v => ?_) Iff.rfl
  split
  · rename_i e; subst e; exact key _
  · rfl

theorem parse_mu (m : Mu) (hu : m.Usable) (h3 : (m.vals .poca).length = 3) : parseRow (mu h m).rec'.vals (mu h m).rec'.uncs = (parseRow m.rec'.vals m.rec'.uncs).map (muRow h) := by
  obtain ⟨a, b, c, hv⟩ := List.length_eq_three.mp h3
  have f1 := hu.1 .poca
  rw [hv] at f1
  obtain ⟨a, rfl⟩ := Exchange.isFinite_num (f1 a (by simp))
  obtain ⟨b, rfl⟩ := Exchange.isFinite_num (f1 b (by simp))
  obtain ⟨c, rfl⟩ := Exchange.isFinite_num (f1 c (by simp))
  have e := parseRow_lift h a b c (m.vals .totScatter ++ (m.vals .thetaIn ++ (m.vals .thetaOut ++ m.vals .mom))) m.rec'.uncs
  simpa [Mu.rec', mu, hv, row] using e

theorem voxelProb_lift (cdf : ℝ → ℝ → ℝ → ℝ) (hm : Moves cdf) (s : ℝ) (r : MuRow) (x y z : ℝ) : voxelProb cdf s (muRow h r) (x, y, z + h) = voxelProb cdf s r (x, y, z) := by
  simp only [voxelProb, muRow]
  rw [add_right_comm z h s, hm, hm]

theorem voxelX0_lift (big s : ℝ) (rows : List MuRow) (effs ps : List ℝ) : voxelX0 big s (rows.map (muRow h)) effs ps = voxelX0 big s rows effs ps := by
  simp only [voxelX0, List.map_map, Function.comp_def, muRow]

theorem fromMuons_lift {V : Volume} {s zb : ℝ} {nx ny nz : Nat} {mat : Nat → Nat → Nat → ℝ} (hV : Block V s zb nx ny nz mat) (n m : ℤ) (hz : zb = n * s) {cdf big eff} (hm : Moves cdf)
    {c d : Conf} (hc : confOf V cdf big eff = .ok c) (hd : confOf (volume (m * s) V) cdf big eff = .ok d) (ks : List Mu) (hu : ∀ k ∈ ks, k.Usable) (h3 : ∀ k ∈ ks, (k.vals .poca).length = 3) :
    fromMuons d ((ks.map (mu (m * s))).map Mu.rec') = fromMuons c (ks.map Mu.rec') := by
  have hW := block_lift (m * s) hV
  have hz' : zb + m * s = ((n + m : ℤ) : ℝ) * s := by rw [hz]; push_cast; ring
  obtain ⟨-, c2, c3, c4, -, -⟩ := Exchange.block_conf hV n hz hc
  obtain ⟨-, d2, d3, d4, -, -⟩ := Exchange.block_conf hW (n + m) hz' hd
  have hp : mapE (fun k : MuonRec => parseRow k.vals k.uncs) ((ks.map (mu (m * s))).map Mu.rec') = (mapE (fun k : MuonRec => parseRow k.vals k.uncs) (ks.map Mu.rec')).map (·.map (muRow (m * s))) := by
    rw [mapE_map, mapE_map, mapE_map]
    have := mapE_comm (f := fun k : Mu => parseRow k.rec'.vals k.rec'.uncs) (f' := fun k : Mu => parseRow (mu (m * s) k).rec'.vals (mu (m * s) k).rec'.uncs) id (muRow (m * s)) ks
      (fun k hk => parse_mu (m * s) k (hu k hk) (h3 k hk))
    simpa using this
  have heff : ((ks.map (mu (m * s))).map Mu.rec').map (·.eff) = (ks.map Mu.rec').map (·.eff) := by
    simp only [List.map_map]
    exact List.map_congr_left fun m _ => rfl
  unfold fromMuons
  rw [hp, heff]
  cases mapE (fun k : MuonRec => parseRow k.vals k.uncs) (ks.map Mu.rec') with
  | error e => rfl
  | ok rows =>
    obtain ⟨P, p1, p2⟩ := Exchange.preds_block hV n hz hc rows
    obtain ⟨Q, q1, q2⟩ := Exchange.preds_block hW (n + m) hz' hd (rows.map (muRow (m * s)))
    simp only [Except.map, p1, q1]
    rw [c2, c3, c4, d2, d3, d4]
    have e : ((List.range nz).map fun k : Nat => (List.range nx).map fun i : Nat => (List.range ny).map fun j : Nat => voxelX0 big s (rows.map (muRow (m * s))) ((ks.map Mu.rec').map (·.eff)) (Q.map fun t => at3 t k i j)) =
        (List.range nz).map fun k : Nat => (List.range nx).map fun i : Nat => (List.range ny).map fun j : Nat => voxelX0 big s rows ((ks.map Mu.rec').map (·.eff)) (P.map fun t => at3 t k i j) := by
      refine List.map_congr_left fun k hk => List.map_congr_left fun i hi => List.map_congr_left fun j hj => ?_
      rw [voxelX0_lift, p2 k (List.mem_range.mp hk) i (List.mem_range.mp hi) j (List.mem_range.mp hj), q2 k (List.mem_range.mp hk) i (List.mem_range.mp hi) j (List.mem_range.mp hj)]
      simp only [Exchange.predOf, List.map_map]
      congr 1
      refine List.map_congr_left fun r _ => ?_
      simp only [Function.comp]
      rw [add_right_comm zb, voxelProb_lift _ _ hm]
    simp only [voxelPreds]
    rw [e]

/-! ### Costs -/

theorem detCost_lift (D : DetLayer) : (detector h D).getCost = D.getCost := by
  unfold DetLayer.getCost
  simp only [detector, List.foldl_map]
  congr 1
  funext c p
  cases p <;> rfl

theorem costLoop_lift : ∀ (Ds : List DetLayer) (c : Option ℝ), Volume.costLoop c (Ds.map (detector h)) = Volume.costLoop c Ds
  | [], _ => rfl
  | D :: Ds, none => by simp only [List.map_cons, Volume.costLoop, detCost_lift, costLoop_lift Ds]
  | D :: Ds, some c => by simp only [List.map_cons, Volume.costLoop, detCost_lift, costLoop_lift Ds]

theorem cost_lift (V : Volume) : (volume h V).getCost = V.getCost := by
  have e : (volume h V).detectors = V.detectors.map (detector h) := by
    simp only [Volume.detectors, volume, List.filterMap_map, List.map_filterMap]
    congr 1
    funext l
    cases l <;> rfl
  have e' : (volume h V).budget = V.budget := rfl
  simp only [Volume.getCost, e, e', costLoop_lift]

end Lift

end

end Tomopt
