import Verif.Spec.Rescale
import Verif.Lemmas.Muon
import Verif.Lemmas.Layer
import Verif.Lemmas.Lift

/- Helper lemmas: every step of the flight of muons commutes with a change of the unit of length. -/
namespace Tomopt

noncomputable section
open Real

namespace Rescale

/-- an argument that is a length -/
def arg (k : ℝ) : Arg → Arg
  | .scalar v => .scalar (k * v)
  | .vec l => .vec (l.map (k * ·))

theorem expand_sc (k : ℝ) (a : Arg) (n : Nat) : (arg k a).expand n = (a.expand n).map (List.map (k * ·)) := by
  cases a with
  | scalar v => simp [arg, Arg.expand, Except.map]
  | vec l =>
    simp only [arg, Arg.expand, List.length_map]
    split
    · rfl
    · rcases l with _ | ⟨a, _ | ⟨b, l⟩⟩
      · rfl
      · simp [Except.map]
      · rfl

theorem maskedUpd_sc {β γ : Type} (g : β → β) (u : γ → γ) (f : β → γ → β) (hf : ∀ x a, f (g x) (u a) = g (f x a)) (mask : List Bool) (rows : List β) (args : List γ) :
    maskedUpd mask (rows.map g) (args.map u) f = (maskedUpd mask rows args f).map g := by
  unfold maskedUpd
  rw [pick_map, ← Lift.put_map]
  congr 1
  rw [List.zipWith_map, List.map_zipWith]
  simp only [hf]

variable (k : ℝ)

theorem propDz_sc (m : Muon) (d : ℝ) : Batch.propDzRow (muon k m) (k * d) = muon k (Batch.propDzRow m d) := by
  simp only [Batch.propDzRow, muon]
  congr 1 <;> ring

theorem propD_sc (m : Muon) (d : ℝ) : Batch.propDRow (muon k m) (k * d) = muon k (Batch.propDRow m d) := by
  simp only [Batch.propDRow, muon]
  congr 1 <;> ring

theorem length_sc (b : Batch Row) : (batch k b).muons.length = b.muons.length := by simp [batch]

theorem propagateDz_sc (b : Batch Row) (d : Arg) (mask : Option (List Bool)) : (batch k b).propagateDz (arg k d) mask = (b.propagateDz d mask).map (batch k) := by
  unfold Batch.propagateDz
  rw [length_sc]
  cases resolveMask b.muons.length mask with
  | error e => rfl
  | ok m =>
    simp only [bind, Except.bind, expand_sc]
    cases d.expand (countTrue m) with
    | error e => rfl
    | ok vs =>
      simp only [Except.map]
      refine congrArg Except.ok ?_
      simp only [batch]
      rw [maskedUpd_sc _ _ _ (propDz_sc k)]

theorem propagateD_sc (b : Batch Row) (d : Arg) (mask : Option (List Bool)) : (batch k b).propagateD (arg k d) mask = (b.propagateD d mask).map (batch k) := by
  unfold Batch.propagateD
  rw [length_sc]
  cases resolveMask b.muons.length mask with
  | error e => rfl
  | ok m =>
    simp only [bind, Except.bind, expand_sc]
    cases d.expand (countTrue m) with
    | error e => rfl
    | ok vs =>
      simp only [Except.map]
      refine congrArg Except.ok ?_
      simp only [batch]
      rw [maskedUpd_sc _ _ _ (propD_sc k)]

theorem optUpd_sc (mask : List Bool) (rows : List Muon) (a : Option Arg) (f : Muon → ℝ → Muon) (hf : ∀ m v, f (muon k m) (k * v) = muon k (f m v)) :
    optUpd mask (rows.map (muon k)) (a.map (arg k)) f = (optUpd mask rows a f).map (List.map (muon k)) := by
  unfold optUpd
  cases a with
  | none => rfl
  | some a =>
    simp only [Option.map_some, bind, Except.bind, expand_sc]
    cases a.expand (countTrue mask) with
    | error e => rfl
    | ok vs =>
      simp only [Except.map]
      rw [maskedUpd_sc _ _ _ hf]

theorem scatterDxyz_sc (b : Batch Row) (dx dy dz : Option Arg) (mask : Option (List Bool)) :
    (batch k b).scatterDxyz (dx.map (arg k)) (dy.map (arg k)) (dz.map (arg k)) mask = (b.scatterDxyz dx dy dz mask).map (batch k) := by
  unfold Batch.scatterDxyz
  rw [length_sc]
  cases resolveMask b.muons.length mask with
  | error e => rfl
  | ok m =>
    simp only [bind, Except.bind]
    have e0 : (batch k b).muons = b.muons.map (muon k) := rfl
    rw [e0, optUpd_sc k m _ _ _ (fun m v => by simp only [muon]; congr 1; ring)]
    cases optUpd m b.muons dx fun m v => { m with x := m.x + v } with
    | error e => rfl
    | ok m1 =>
      simp only [Except.map]
      rw [optUpd_sc k m _ _ _ (fun m v => by simp only [muon]; congr 1; ring)]
      cases optUpd m m1 dy fun m v => { m with y := m.y + v } with
      | error e => rfl
      | ok m2 =>
        simp only [Except.map]
        rw [optUpd_sc k m _ _ _ (fun m v => by simp only [muon]; congr 1; ring)]
        cases optUpd m m2 dz fun m v => { m with z := m.z + v } with
        | error e => rfl
        | ok m3 => rfl

theorem filterHits_sc (hits : Dict String (Dict String (List (List Row)))) (keep : List Bool) :
    Batch.filterHits (hits.map fun kv => (kv.1, vars k kv.2)) keep = (Batch.filterHits hits keep).map fun kv => (kv.1, vars k kv.2) := by
  simp [Batch.filterHits, Dict.mapVals, vars, Function.comp_def, pick_map]

theorem toMuon_sc (m : RawMuon) : RawMuon.toMuon? (muon k m) = (RawMuon.toMuon? m).map (muon k) := by
  obtain ⟨i, x, y, z, p, th, ph⟩ := m
  cases th <;> cases ph <;> rfl

theorem filterMap_sc (rs : List RawMuon) : (rs.map (muon k)).filterMap RawMuon.toMuon? = (rs.filterMap RawMuon.toMuon?).map (muon k) := by
  induction rs with
  | nil => rfl
  | cons r rs ih =>
    simp only [List.map_cons, List.filterMap_cons, toMuon_sc]
    cases RawMuon.toMuon? r <;> simp [ih]

theorem removeUpwards_sc (b : Batch Row) (rs : List RawMuon) : (batch k b).removeUpwards (rs.map (muon k)) = batch k (b.removeUpwards rs) := by
  unfold Batch.removeUpwards
  have e : (rs.map (muon k)).map Batch.keepRow = rs.map Batch.keepRow := by
    rw [List.map_map]
    rfl
  simp only [e, List.length_map]
  split
  · simp only [batch, pick_map, filterMap_sc, List.map_append, filterHits_sc]
  · simp only [batch, filterMap_sc]

theorem raw_sc (ms : List Muon) : (ms.map (muon k)).map MuonOf.toRaw = (ms.map MuonOf.toRaw).map (muon k) := by
  rw [List.map_map, List.map_map]
  rfl

theorem scatterXYRowO_sc (m : RawMuon) (a c : Option ℝ) : PassiveLayer.scatterXYRowO (muon k m) a c = muon k (PassiveLayer.scatterXYRowO m a c) := by
  obtain ⟨i, x, y, z, p, th, ph⟩ := m
  cases a <;> cases c <;> try rfl
  rename_i a c
  cases th with
  | none => cases ph <;> rfl
  | some t =>
    cases ph with
    | none => rfl
    | some f =>
      simp only [PassiveLayer.scatterXYRowO, Batch.scatterXYRow, muon]
      cases thetaXFromThetaPhi t f <;> cases thetaYFromThetaPhi t f <;> rfl

/-- the change of a muon by a scattering -/
def scat (s : Scat) : Scat := { s with dx := k * s.dx, dy := k * s.dy, dz := k * s.dz }

theorem scatterAngles_sc (b : Batch Row) (scats : List Scat) (mask : List Bool) : PassiveLayer.scatterAngles (batch k b) (scats.map (scat k)) mask = batch k (PassiveLayer.scatterAngles b scats mask) := by
  unfold PassiveLayer.scatterAngles
  have e0 : (batch k b).muons = b.muons.map (muon k) := rfl
  rw [e0, raw_sc, maskedUpd_sc (muon k) (scat k) _ (fun m s => scatterXYRowO_sc k m s.dtx s.dty), removeUpwards_sc]

theorem snapshot_sc (b : Batch Row) : (batch k b).snapshot = batch k b.snapshot := by
  simp [Batch.snapshot, batch, muon]

variable {k} (hk : 0 < k)
include hk

theorem le_sc (a b : ℝ) : k * a ≤ k * b ↔ a ≤ b := mul_le_mul_iff_right₀ hk
theorem lt_sc (a b : ℝ) : k * a < k * b ↔ a < b := mul_lt_mul_iff_right₀ hk

theorem inWindow_sc (lo hi : ℝ × ℝ) (m : Muon) : Batch.inWindow (some (pair k lo)) (some (pair k hi)) (muon k m) = Batch.inWindow (some lo) (some hi) m := by
  simp only [Batch.inWindow, pair, muon, ge_iff_le, le_sc hk, lt_sc hk]

theorem theta0_sc (x0 p s : ℝ) : pdgTheta0 (k * x0) p (k * s) = pdgTheta0 x0 p s := by
  unfold pdgTheta0
  rw [mul_div_mul_left _ _ hk.ne']

theorem pdg_sc (x0 th ph : ℝ) (tx ty : Option ℝ) (p s : ℝ) (d : Draw) : pdgScatter (k * x0) th ph tx ty p (k * s) d = scat k (pdgScatter x0 th ph tx ty p s d) := by
  have e : ∀ t z1 z2, pdgDxy (k * s) t z1 z2 = k * pdgDxy s t z1 z2 := by intro t z1 z2; unfold pdgDxy; ring
  simp only [pdgScatter, theta0_sc hk, e, scat, pdgDxVol, pdgDyVol, pdgDzVol, Scat.mk.injEq, and_true]
  refine ⟨?_, ?_, ?_⟩ <;> split <;> ring

omit hk in
theorem getIdx_map {β γ : Type} (f : β → γ) (xs : List β) (i : ℤ) : getIdx (xs.map f) i = (getIdx xs i).map f := by
  unfold getIdx
  simp only [List.length_map, List.getElem?_map]
  generalize (if i < 0 then i + (xs.length : ℤ) else i) = j
  split
  · rfl
  · cases xs[j.toNat]? <;> rfl

theorem scatterOf_sc (L : PassiveLayer) (cube : List (List ℝ)) (draw : Nat → Draw) (m : Muon) :
    (passive k L).scatterOf (cube.map fun col => col.map (k * ·)) draw (muon k m) = (L.scatterOf cube draw m).map (scat k) := by
  have e : (passive k L).scatterStep (muon k m) = k * L.scatterStep m := by
    have e0 : ((muon k m).z - ((passive k L).z - (passive k L).size)) / cos (muon k m).th = k * ((m.z - (L.z - L.size)) / cos m.th) := by
      simp only [passive, muon]
      ring
    unfold PassiveLayer.scatterStep
    simp only [e0]
    have e1 : (passive k L).stepSz = k * L.stepSz := rfl
    rw [e1]
    simp only [lt_sc hk]
    split <;> rfl
  have ei : ∀ x, (passive k L).abs2idx (k * x) = L.abs2idx x := by
    intro x
    simp only [PassiveLayer.abs2idx, passive]
    rw [mul_div_mul_left _ _ hk.ne']
  have el : (passive k L).lookupX0 (cube.map fun col => col.map (k * ·)) (muon k m) = (L.lookupX0 cube m).map (k * ·) := by
    unfold PassiveLayer.lookupX0
    have e1 : (passive k L).abs2idx (muon k m).x = L.abs2idx m.x := ei _
    have e2 : (passive k L).abs2idx (muon k m).y = L.abs2idx m.y := ei _
    rw [e1, e2, getIdx_map]
    cases getIdx cube (L.abs2idx m.x) with
    | error e => rfl
    | ok col => simp only [Except.map]; rw [getIdx_map]; rfl
  unfold PassiveLayer.scatterOf
  rw [e, el]
  cases L.lookupX0 cube m with
  | error e => rfl
  | ok x0 =>
    simp only [Except.map]
    rw [pdg_sc hk]
    rfl

omit hk in
theorem dz_sc (L : PassiveLayer) (b : Batch Row) : (batch k b).muons.map (fun m => m.z - ((passive k L).z - (passive k L).size)) = (b.muons.map fun m => m.z - (L.z - L.size)).map (k * ·) := by
  simp only [batch, List.map_map, passive]
  congr 1
  funext m
  simp only [Function.comp, muon]
  ring

theorem neg_sc (xs : List ℝ) : (xs.map (k * ·)).map (fun d => decide (d < 0)) = xs.map fun d => decide (d < 0) := by
  rw [List.map_map]
  congr 1
  funext d
  simp only [Function.comp]
  refine decide_eq_decide.mpr ?_
  have := lt_sc hk d 0
  rwa [mul_zero] at this

omit hk in
theorem mapE_sc {β γ : Type} (g : γ → γ) (f : β → Except Err γ) (xs : List β) : mapE (fun x => (f x).map g) xs = (mapE f xs).map (List.map g) := by
  induction xs with
  | nil => rfl
  | cons x xs ih =>
    simp only [mapE, ih]
    cases f x with
    | error e => rfl
    | ok y =>
      cases mapE f xs <;> rfl

theorem xyMask_sc (b : Batch Row) (hi : ℝ × ℝ) : (batch k b).xyMask (some (0, 0)) (some (pair k hi)) = b.xyMask (some (0, 0)) (some hi) := by
  simp only [Batch.xyMask, batch, List.map_map]
  congr 1
  funext m
  have := inWindow_sc hk (0, 0) hi m
  simpa [pair] using this

theorem pass_sc (L : PassiveLayer) (draw : Nat → Draw) (b : Batch Row) (mask : List Bool) : (passive k L).pass draw (batch k b) mask = (L.pass draw b mask).map (batch k) := by
  unfold PassiveLayer.pass
  have e1 : (passive k L).radLength = L.radLength.map fun c => c.map fun col => col.map (k * ·) := rfl
  have e2 : Arg.scalar (passive k L).stepSz = arg k (.scalar L.stepSz) := rfl
  have e3 : (passive k L).lw = pair k L.lw := rfl
  have e4 : (passive k L).checkModel = L.checkModel := rfl
  have e5 : (batch k b).muons = b.muons.map (muon k) := rfl
  rw [e1]
  cases L.radLength with
  | none => simp only [Option.map_none, e2, propagateD_sc]
  | some cube =>
    simp only [Option.map_some, e2, e3, e4, xyMask_sc hk, bind, Except.bind]
    cases L.checkModel with
    | error e => rfl
    | ok u =>
      simp only
      rw [e5, pick_map, Lift.mapE_map]
      simp only [scatterOf_sc hk]
      rw [mapE_sc]
      cases mapE (fun x => L.scatterOf cube draw x) (pick ((b.xyMask (some (0, 0)) (some L.lw)).zipWith (· && ·) mask) b.muons) with
      | error e => rfl
      | ok scats =>
        simp only [Except.map]
        have ea : ∀ f : Scat → ℝ, (∀ s, f (scat k s) = k * f s) → some (Arg.vec ((scats.map (scat k)).map f)) = (some (Arg.vec (scats.map f))).map (arg k) := by
          intro f hf
          simp [arg, Function.comp_def, hf]
        rw [ea (·.dx) fun _ => rfl, ea (·.dy) fun _ => rfl, ea (·.dz) fun _ => rfl]
        simp only [scatterDxyz_sc]
        cases b.scatterDxyz (some (.vec (scats.map (·.dx)))) (some (.vec (scats.map (·.dy)))) (some (.vec (scats.map (·.dz)))) (some ((b.xyMask (some (0, 0)) (some L.lw)).zipWith (· && ·) mask)) with
        | error e => rfl
        | ok b1 =>
          simp only [Except.map, propagateD_sc]
          cases b1.propagateD (.scalar L.stepSz) (some mask) with
          | error e => rfl
          | ok b2 =>
            simp only [dz_sc, neg_sc hk]
            generalize (b2.muons.map fun m => m.z - (L.z - L.size)) = xs
            have ev : ∀ xs : List ℝ, Arg.vec (xs.map (k * ·)) = arg k (.vec xs) := fun _ => rfl
            rw [pick_map, ev, propagateDz_sc]
            cases b2.propagateDz (.vec (pick ((xs.map fun d => decide (d < 0)).zipWith (· && ·) mask) xs)) (some ((xs.map fun d => decide (d < 0)).zipWith (· && ·) mask)) with
            | error e => rfl
            | ok b3 => simp only [Except.map, scatterAngles_sc]

theorem inside_sc (L : PassiveLayer) (m : Muon) : (passive k L).inside (muon k m) = L.inside m := by
  unfold PassiveLayer.inside
  refine congrArg₂ _ (decide_eq_decide.mpr ?_) (decide_eq_decide.mpr ?_) <;> simp only [passive, muon, gt_iff_lt, ← mul_sub, lt_sc hk, le_sc hk]

theorem insides_sc (L : PassiveLayer) (b : Batch Row) : (batch k b).muons.map (passive k L).inside = b.muons.map L.inside := by
  simp only [batch, List.map_map]
  congr 1
  funext m
  exact inside_sc hk L m

theorem loop_sc (L : PassiveLayer) (rng : Nat → Nat → Draw) : ∀ (fuel i : Nat) (b : Batch Row) (mask : List Bool),
    (passive k L).loop rng fuel i (batch k b) mask = (L.loop rng fuel i b mask).map (Option.map (batch k))
  | 0, i, b, mask => by
    unfold PassiveLayer.loop
    split <;> rfl
  | fuel + 1, i, b, mask => by
    unfold PassiveLayer.loop
    split
    · simp only [pass_sc hk, bind, Except.bind]
      cases L.pass (rng i) b mask with
      | error e => rfl
      | ok b' =>
        simp only [Except.map, insides_sc hk]
        exact loop_sc L rng fuel (i + 1) b' _
    · rfl

omit hk in
theorem heights_sc (z : ℝ) (b : Batch Row) : Arg.vec ((batch k b).muons.map fun m => m.z - k * z) = arg k (.vec (b.muons.map fun m => m.z - z)) := by
  simp only [batch, arg, List.map_map]
  congr 2
  funext m
  simp only [Function.comp, muon]
  ring

theorem passive_sc (L : PassiveLayer) (rng : Nat → Nat → Draw) (fuel : Nat) (b : Batch Row) : (passive k L).forward rng fuel (batch k b) = (L.forward rng fuel b).map (Option.map (batch k)) := by
  unfold PassiveLayer.forward
  have e0 : (passive k L).z = k * L.z := rfl
  have e1 : (passive k L).z - (passive k L).size = k * (L.z - L.size) := (mul_sub _ _ _).symm
  simp only [e1, bind, Except.bind]
  rw [e0]
  simp only [heights_sc, propagateDz_sc]
  cases b.propagateDz (.vec (b.muons.map fun m => m.z - L.z)) none with
  | error e => rfl
  | ok b1 =>
    simp only [Except.map, length_sc, loop_sc hk]
    cases L.loop rng fuel 0 b1 (List.replicate b1.muons.length true) with
    | error e => rfl
    | ok r =>
      cases r with
      | none => rfl
      | some b2 =>
        simp only [Except.map, Option.map, heights_sc, propagateDz_sc]
        cases b2.propagateDz (.vec (b2.muons.map fun m => m.z - (L.z - L.size))) none <;> rfl

/-! ### Detectors -/

omit hk in
theorem panel_z (p : AnyPanel) : (panel k p).z = k * p.z := by cases p <;> rfl

omit hk in
theorem appendHits_sc (b : Batch Row) (hits : Dict String (List Row)) (pos : String) :
    (batch k b).appendHits (hits.map fun kv => (kv.1, kv.2.map (row k kv.1))) pos = batch k (b.appendHits hits pos) := by
  unfold Batch.appendHits
  simp only [batch]
  congr 1
  generalize b.hits = H
  induction hits generalizing H with
  | nil => rfl
  | cons kv hits ih =>
    simp only [List.map_cons, List.foldl_cons]
    rw [← ih]
    congr 1
    refine Lift.modify_map (fun _ => vars k) pos [] _ _ rfl (fun d => ?_) H
    exact Lift.modify_map (fun v t => t.map fun t => t.map (row k v)) kv.1 [] (fun t => t ++ [kv.2]) (fun t => t ++ [kv.2.map (row k kv.1)]) rfl (fun t => by simp) d

theorem quot_sc (a r : ℝ) : XF.quot a (r / k) = len k (XF.quot a r) := by
  unfold XF.quot
  by_cases h : r = 0
  · simp only [h, zero_div, ne_eq, not_true_eq_false, if_false]
    split
    · rfl
    · split <;> rfl
  · have : r / k ≠ 0 := div_ne_zero h hk.ne'
    rw [if_pos this, if_pos h]
    simp only [len]
    congr 1
    field_simp

omit hk in
theorem addR_sc (a : ℝ) (x : XF) : XF.addR (k * a) (len k x) = len k (XF.addR a x) := by
  cases x <;> simp [XF.addR, len]
  ring

theorem clamp_sc (x : XF) (s : ℝ) : (len k x).clamp 0 (k * s) = len k (x.clamp 0 s) := by
  have e : ∀ a b : ℝ, min (k * a) (k * b) = k * min a b := fun a b => (mul_min_of_nonneg a b hk.le).symm
  have e2 : ∀ a b : ℝ, max (k * a) (k * b) = k * max a b := fun a b => (mul_max_of_nonneg a b hk.le).symm
  cases x with
  | num x =>
    simp only [len, XF.clamp]
    have := e2 x 0
    rw [mul_zero] at this
    rw [this, e]
  | nan => rfl
  | pinf => rfl
  | ninf =>
    simp only [len, XF.clamp]
    have := e 0 s
    rw [mul_zero] at this
    rw [this]

/-- one measured coordinate, for panels of both kinds -/
theorem coord_sc (c : Bool) (low span x noise res : ℝ) :
    XF.addR (k * low) (if c then (XF.addR (k * x - k * low) (XF.quot noise (res / k))).clamp 0 (k * span) else XF.addR (k * x - k * low) (XF.quot noise (res / k))) =
      len k (XF.addR low (if c then (XF.addR (x - low) (XF.quot noise res)).clamp 0 span else XF.addR (x - low) (XF.quot noise res))) := by
  rw [← mul_sub, quot_sc hk, addR_sc]
  cases c
  · exact addR_sc _ _
  · simp only [if_true]
    rw [clamp_sc hk, addR_sc]

omit hk in
theorem span_sc (p : Panel) : (simplePanel k p).scaledSpan = pair k p.scaledSpan := by
  simp only [Panel.scaledSpan, simplePanel, pair, mul_assoc]

omit hk in
theorem low_sc (p : Panel) : (simplePanel k p).low = pair k p.low := by
  unfold Panel.low
  rw [span_sc]
  simp only [simplePanel, pair]
  congr 1 <;> ring

omit hk in
theorem high_sc (p : Panel) : (simplePanel k p).high = pair k p.high := by
  unfold Panel.high
  rw [span_sc]
  simp only [simplePanel, pair]
  congr 1 <;> ring

omit hk in
theorem resAt_sc (p : Panel) (hp : p.realistic = true ∧ p.training = false) (q : ℝ × ℝ) (c : Bool) :
    (simplePanel k p).resAt (pair k q) c = ((p.resAt q c).1 / k, (p.resAt q c).2 / k) := by
  have h1 : p.continuous = false := by simp [Panel.continuous, hp]
  have h2 : (simplePanel k p).continuous = false := h1
  unfold Panel.resAt
  rw [h1, h2]
  cases c <;> simp [simplePanel]

omit hk in
theorem effAt_sc (p : Panel) (hp : p.realistic = true ∧ p.training = false) (q : ℝ × ℝ) (c : Bool) : (simplePanel k p).effAt (pair k q) c = p.effAt q c := by
  have h1 : p.continuous = false := by simp [Panel.continuous, hp]
  have h2 : (simplePanel k p).continuous = false := h1
  unfold Panel.effAt
  rw [h1, h2]
  rfl

theorem panelHits_sc (p : Panel) (hp : p.realistic = true ∧ p.training = false) (noise : Nat → ℝ × ℝ) (b : Batch Row) :
    (simplePanel k p).getHits noise (batch k b) = (p.getHits noise b).map fun d => d.map fun kv => (kv.1, kv.2.map (row k kv.1)) := by
  have h1 : p.continuous = false := by simp [Panel.continuous, hp]
  have h2 : (simplePanel k p).continuous = false := h1
  simp only [Panel.getHits, h1, h2, Bool.false_eq_true, if_false, Except.map, low_sc, high_sc, List.map_cons, List.map_nil, batch, List.map_map]
  have ew : ∀ m : Muon, Batch.inWindow (some (pair k p.low)) (some (pair k p.high)) (muon k m) = Batch.inWindow (some p.low) (some p.high) m := inWindow_sc hk p.low p.high
  have ec : ∀ (low span x noise res : ℝ) (c : Bool), (simplePanel k p).recoCoord (k * low) (k * span) (k * x) noise (res / k) c = len k (p.recoCoord low span x noise res c) := by
    intro low span x noise res c
    have h3 : (simplePanel k p).training = p.training := rfl
    have h4 : (simplePanel k p).realistic = p.realistic := rfl
    simp only [Panel.recoCoord, h3, h4]
    exact coord_sc hk (!p.training && p.realistic && c) low span x noise res
  have r1 : ∀ m : Muon, (simplePanel k p).hitReco ((muon k m).x, (muon k m).y) (noise m.id) (Batch.inWindow (some p.low) (some p.high) m) =
      row k "reco_xyz" (p.hitReco (m.x, m.y) (noise m.id) (Batch.inWindow (some p.low) (some p.high) m)) := by
    intro m
    have := resAt_sc (k := k) p hp (m.x, m.y) (Batch.inWindow (some p.low) (some p.high) m)
    simp only [pair] at this
    simp only [Panel.hitReco, low_sc, span_sc, muon, pair, this, ec, row]
    simp [len, simplePanel]
  have r2 : ∀ m : Muon, (simplePanel k p).hitUnc ((muon k m).x, (muon k m).y) (Batch.inWindow (some p.low) (some p.high) m) =
      row k "unc_xyz" (p.hitUnc (m.x, m.y) (Batch.inWindow (some p.low) (some p.high) m)) := by
    intro m
    have := resAt_sc (k := k) p hp (m.x, m.y) (Batch.inWindow (some p.low) (some p.high) m)
    simp only [pair] at this
    simp only [Panel.hitUnc, muon, this, quot_sc hk, row]
    simp [len]
  have r3 : ∀ m : Muon, (simplePanel k p).hitEff ((muon k m).x, (muon k m).y) (Batch.inWindow (some p.low) (some p.high) m) =
      row k "eff" (p.hitEff (m.x, m.y) (Batch.inWindow (some p.low) (some p.high) m)) := by
    intro m
    have := effAt_sc (k := k) p hp (m.x, m.y) (Batch.inWindow (some p.low) (some p.high) m)
    simp only [pair] at this
    simp only [Panel.hitEff, muon, this, row]
    simp
  have r4 : ∀ m : Muon, (simplePanel k p).hitGen ((muon k m).x, (muon k m).y) = row k "gen_xyz" (p.hitGen (m.x, m.y)) := by
    intro m
    simp [Panel.hitGen, muon, row, len, simplePanel]
  have i0 : ∀ m : Muon, (muon k m).id = m.id := fun _ => rfl
  simp only [Function.comp_def, ew, i0, r1, r2, r3, r4]

/-! heat maps -/

theorem logProb_sc (mu s x : ℝ) (hs : 0 < s) : Panel.normalLogProb (k * mu) (k * s) (k * x) = Panel.normalLogProb mu s x - log k := by
  unfold Panel.normalLogProb
  rw [log_mul hk.ne' hs.ne']
  have : -((k * x - k * mu) ^ 2) / (2 * (k * s) ^ 2) = -((x - mu) ^ 2) / (2 * s ^ 2) := by
    rw [← mul_sub, mul_pow, mul_pow]
    field_simp
  rw [this]
  ring

theorem density_sc (p : Heatmap) (hp : ∀ s ∈ p.sig, 0 < s.1 ∧ 0 < s.2) (q : ℝ × ℝ) : (heatmap k p).density (pair k q) = exp (-(2 * log k)) * p.density q := by
  unfold Heatmap.density
  simp only [heatmap, List.length_map]
  rw [List.zip_map, List.map_map, ← mul_div_assoc, ← List.sum_map_mul_left]
  congr 2
  apply List.map_congr_left
  intro c hc
  have hs := hp c.2 (List.of_mem_zip hc).2
  simp only [Function.comp, Prod.map, pair]
  rw [logProb_sc hk _ _ _ hs.1, logProb_sc hk _ _ _ hs.2, ← exp_add]
  congr 1
  ring

theorem peak_sc (p : Heatmap) (hp : ∀ s ∈ p.sig, 0 < s.1 ∧ 0 < s.2) : (heatmap k p).peak = exp (-(2 * log k)) * p.peak := by
  unfold Heatmap.peak
  have e : (heatmap k p).mu = p.mu.map (pair k) := rfl
  rw [e, List.map_map]
  have e2 : (fun q => (heatmap k p).density (pair k q)) = fun q => exp (-(2 * log k)) * p.density q := by
    funext q
    exact density_sc hk p hp q
  simp only [Function.comp_def, e2]
  generalize p.mu = ms
  induction ms with
  | nil => simp
  | cons m ms ih =>
    simp only [List.map_cons, List.foldr_cons, ih]
    rw [mul_max_of_nonneg _ _ (exp_pos _).le]

omit hk in
theorem density_nonneg (p : Heatmap) (q : ℝ × ℝ) : 0 ≤ p.density q := by
  unfold Heatmap.density
  apply div_nonneg _ (Nat.cast_nonneg _)
  apply List.sum_nonneg
  intro x hx
  obtain ⟨c, -, rfl⟩ := List.mem_map.mp hx
  exact (exp_pos _).le

omit hk in
/-- densities are all positive or all zero -/
theorem density_zero (p : Heatmap) (q : ℝ × ℝ) (h : p.density q = 0) : ∀ r, p.density r = 0 := by
  intro r
  unfold Heatmap.density at h ⊢
  rcases div_eq_zero_iff.mp h with h | h
  · have : p.mu.zip p.sig = [] := by
      rcases hz : p.mu.zip p.sig with _ | ⟨c, cs⟩
      · rfl
      · rw [hz] at h
        simp only [List.map_cons, List.sum_cons] at h
        have h0 : 0 ≤ (cs.map fun c => exp (Panel.normalLogProb c.1.1 c.2.1 q.1 + Panel.normalLogProb c.1.2 c.2.2 q.2)).sum := by
          apply List.sum_nonneg
          intro x hx
          obtain ⟨c, -, rfl⟩ := List.mem_map.mp hx
          exact (exp_pos _).le
        have := exp_pos (Panel.normalLogProb c.1.1 c.2.1 q.1 + Panel.normalLogProb c.1.2 c.2.2 q.2)
        linarith
    simp [this]
  · rw [h, div_zero]

theorem gmm_sc (p : Heatmap) (hp : ∀ s ∈ p.sig, 0 < s.1 ∧ 0 < s.2) (q : ℝ × ℝ) : (heatmap k p).gmm (pair k q) = p.gmm q := by
  unfold Heatmap.gmm
  rw [density_sc hk p hp, peak_sc hk p hp]
  have en : (heatmap k p).norm = p.norm := rfl
  rw [en]
  congr 3
  by_cases h : p.density q = 0
  · have h0 : p.peak = 0 := by
      unfold Heatmap.peak
      have e : p.density = fun _ => 0 := by
        funext r
        exact density_zero p q h r
      rw [e]
      generalize p.mu = ms
      induction ms with
      | nil => rfl
      | cons m ms ih => simp only [List.map_cons, List.foldr_cons, ih, max_self]
    rw [h, h0]
    simp
  · have h0 : p.peak ≠ 0 := by
      unfold Heatmap.peak
      rcases hm : p.mu with _ | ⟨m, ms⟩
      · exfalso
        apply h
        unfold Heatmap.density
        rw [hm]
        simp
      · simp only [List.map_cons, List.foldr_cons]
        have h1 : p.density m ≠ 0 := fun h2 => h (density_zero p m h2 q)
        have h2 := lt_of_le_of_ne (density_nonneg p m) (Ne.symm h1)
        exact (lt_of_lt_of_le h2 (le_max_left _ _)).ne'
    rw [log_mul (exp_pos _).ne' h, log_mul (exp_pos _).ne' h0]
    ring

theorem heatRes_sc (p : Heatmap) (hp : ∀ s ∈ p.sig, 0 < s.1 ∧ 0 < s.2) (q : ℝ × ℝ) (c : Bool) : (heatmap k p).resAt (pair k q) c = ((p.resAt q c).1 / k, (p.resAt q c).2 / k) := by
  have h2 : (heatmap k p).continuous = p.continuous := rfl
  unfold Heatmap.resAt
  rw [h2, gmm_sc hk p hp]
  have h3 : (heatmap k p).res = p.res / k := rfl
  rw [h3]
  split
  · simp only
    congr 1 <;> ring
  · cases c <;> simp

theorem heatEff_sc (p : Heatmap) (hp : ∀ s ∈ p.sig, 0 < s.1 ∧ 0 < s.2) (q : ℝ × ℝ) (c : Bool) : (heatmap k p).effAt (pair k q) c = p.effAt q c := by
  have h2 : (heatmap k p).continuous = p.continuous := rfl
  unfold Heatmap.effAt
  rw [h2, gmm_sc hk p hp]
  rfl

theorem heatHits_sc (p : Heatmap) (hp : ∀ s ∈ p.sig, 0 < s.1 ∧ 0 < s.2) (noise : Nat → ℝ × ℝ) (b : Batch Row) :
    (heatmap k p).getHits noise (batch k b) = (p.getHits noise b).map fun kv => (kv.1, kv.2.map (row k kv.1)) := by
  simp only [Heatmap.getHits, List.map_cons, List.map_nil, batch, List.map_map, Function.comp_def]
  have ew : ∀ m : Muon, Batch.inWindow (some ((heatmap k p).xyFix.1 - rangeMult * (heatmap k p).deltaXy, (heatmap k p).xyFix.2 - rangeMult * (heatmap k p).deltaXy))
      (some ((heatmap k p).xyFix.1 + rangeMult * (heatmap k p).deltaXy, (heatmap k p).xyFix.2 + rangeMult * (heatmap k p).deltaXy)) (muon k m) =
      Batch.inWindow (some (p.xyFix.1 - rangeMult * p.deltaXy, p.xyFix.2 - rangeMult * p.deltaXy)) (some (p.xyFix.1 + rangeMult * p.deltaXy, p.xyFix.2 + rangeMult * p.deltaXy)) m := by
    intro m
    have e1 : ∀ a d : ℝ, k * a - rangeMult * (k * d) = k * (a - rangeMult * d) := by intro a d; ring
    have e2 : ∀ a d : ℝ, k * a + rangeMult * (k * d) = k * (a + rangeMult * d) := by intro a d; ring
    simp only [heatmap, pair, e1, e2]
    exact inWindow_sc hk (p.xyFix.1 - rangeMult * p.deltaXy, p.xyFix.2 - rangeMult * p.deltaXy) (p.xyFix.1 + rangeMult * p.deltaXy, p.xyFix.2 + rangeMult * p.deltaXy) m
  have ec : ∀ (a span x noise res : ℝ) (c : Bool), (heatmap k p).recoCoord (k * a) (k * span) (k * x) noise (res / k) c = len k (p.recoCoord a span x noise res c) := by
    intro a span x noise res c
    have h3 : (heatmap k p).training = p.training := rfl
    have h4 : (heatmap k p).realistic = p.realistic := rfl
    have h5 : k * a - (heatmap k p).deltaXy / 2 = k * (a - p.deltaXy / 2) := by simp only [heatmap]; ring
    simp only [Heatmap.recoCoord, h3, h4, h5]
    exact coord_sc hk (!p.training && p.realistic && c) (a - p.deltaXy / 2) span x noise res
  have er : ∀ (m : Muon) (c : Bool), (heatmap k p).resAt ((muon k m).x, (muon k m).y) c = ((p.resAt (m.x, m.y) c).1 / k, (p.resAt (m.x, m.y) c).2 / k) := fun m c => heatRes_sc hk p hp (m.x, m.y) c
  have ee : ∀ (m : Muon) (c : Bool), (heatmap k p).effAt ((muon k m).x, (muon k m).y) c = p.effAt (m.x, m.y) c := fun m c => heatEff_sc hk p hp (m.x, m.y) c
  have x1 : (heatmap k p).xyFix = pair k p.xyFix := rfl
  have x2 : (heatmap k p).xySpanFix = pair k p.xySpanFix := rfl
  have x3 : (heatmap k p).z = k * p.z := rfl
  have i0 : ∀ m : Muon, (muon k m).id = m.id := fun _ => rfl
  have i1 : ∀ m : Muon, (muon k m).x = k * m.x := fun _ => rfl
  have i2 : ∀ m : Muon, (muon k m).y = k * m.y := fun _ => rfl
  simp only [ew, er, ee]
  simp only [x1, x2, x3, i0, i1, i2, pair, ec, quot_sc hk, row]
  simp [len]

theorem getHits_sc (p : AnyPanel) (hp : Plain p) (noise : Nat → ℝ × ℝ) (b : Batch Row) :
    (panel k p).getHits noise (batch k b) = (p.getHits noise b).map fun d => d.map fun kv => (kv.1, kv.2.map (row k kv.1)) := by
  cases p with
  | panel p => exact panelHits_sc hk p hp noise b
  | heatmap p =>
    simp only [panel, AnyPanel.getHits, Except.map]
    exact congrArg _ (heatHits_sc hk p hp noise b)

theorem visit_sc (pos : String) (noise : Nat → Nat → ℝ × ℝ) : ∀ (ps : List (Nat × AnyPanel)), (∀ ip ∈ ps, Plain ip.2) → ∀ (b : Batch Row),
    DetLayer.visit pos noise (ps.map fun ip => (ip.1, panel k ip.2)) (batch k b) = (DetLayer.visit pos noise ps b).map (batch k)
  | [], _, b => rfl
  | (i, p) :: ps, hp, b => by
    simp only [List.map_cons, DetLayer.visit, panel_z, heights_sc, propagateDz_sc]
    cases b.propagateDz (.vec (b.muons.map fun m => m.z - p.z)) none with
    | error e => rfl
    | ok b1 =>
      simp only [Except.map, getHits_sc hk p (hp (i, p) List.mem_cons_self)]
      cases p.getHits (noise i) b1 with
      | error e => rfl
      | ok d =>
        simp only [Except.map, appendHits_sc]
        exact visit_sc pos noise ps (fun ip h => hp ip (List.mem_cons_of_mem _ h)) _

omit hk in
theorem zorder_sc (argsort : List ℝ → List Nat) (ha : ∀ zs : List ℝ, argsort (zs.map (k * ·)) = argsort zs) (D : DetLayer) : (detector k D).zorder argsort = D.zorder argsort := by
  unfold DetLayer.zorder
  have : (detector k D).panels.map AnyPanel.z = (D.panels.map AnyPanel.z).map (k * ·) := by
    simp only [detector, List.map_map]
    congr 1
    funext p
    exact panel_z p
  rw [this, ha]

omit hk in
theorem zpanels_sc (argsort : List ℝ → List Nat) (ha : ∀ zs : List ℝ, argsort (zs.map (k * ·)) = argsort zs) (D : DetLayer) :
    (detector k D).zpanels argsort = (D.zpanels argsort).map fun ip => (ip.1, panel k ip.2) := by
  unfold DetLayer.zpanels
  rw [zorder_sc argsort ha, List.map_filterMap]
  congr 1
  funext i
  simp only [detector, List.getElem?_map, Option.map_map]
  rfl

theorem detector_sc (argsort : List ℝ → List Nat) (ha : ∀ zs : List ℝ, argsort (zs.map (k * ·)) = argsort zs) (noise : Nat → Nat → ℝ × ℝ) (D : DetLayer) (hp : ∀ p ∈ D.panels, Plain p) (b : Batch Row) :
    (detector k D).forward argsort noise (batch k b) = (D.forward argsort noise b).map (batch k) := by
  unfold DetLayer.forward
  have e0 : (detector k D).pos = D.pos := rfl
  have hz : ∀ ip ∈ D.zpanels argsort, Plain ip.2 := by
    intro ip h
    unfold DetLayer.zpanels at h
    obtain ⟨i, -, hi⟩ := List.mem_filterMap.mp h
    cases hg : D.panels[i]? with
    | none => rw [hg] at hi; simp at hi
    | some p =>
      rw [hg] at hi
      simp at hi
      rw [← hi]
      exact hp p (List.mem_of_getElem? hg)
  rw [zpanels_sc argsort ha, e0, visit_sc hk _ _ _ hz]
  cases DetLayer.visit D.pos noise (D.zpanels argsort) b with
  | error e => rfl
  | ok b1 =>
    simp only [Except.map]
    have e1 : (detector k D).z - (detector k D).size = k * (D.z - D.size) := (mul_sub _ _ _).symm
    rw [e1, heights_sc, propagateDz_sc]
    rfl

theorem assign_sc (p : AnyPanel) (v : Option ℝ) : (panel k p).assignBudget v = (p.assignBudget v).map (panel k) := by
  cases p with
  | heatmap p => cases v <;> rfl
  | panel p =>
    cases v with
    | none => rfl
    | some v =>
      simp only [panel, AnyPanel.assignBudget, Except.map, Panel.assignBudget]
      have e : (simplePanel k p).m2cost * ((simplePanel k p).span.1 * (simplePanel k p).span.2) = p.m2cost * (p.span.1 * p.span.2) := by
        simp only [simplePanel, pair]
        field_simp
      rw [e]
      rfl

theorem assignLoop_sc (budget : List ℝ) : ∀ (js : List Nat) (i : Nat) (ps : List AnyPanel), DetLayer.assignLoop budget js i (ps.map (panel k)) = (DetLayer.assignLoop budget js i ps).map (List.map (panel k))
  | [], i, ps => rfl
  | j :: js, i, ps => by
    simp only [DetLayer.assignLoop, List.getElem?_map]
    cases ps[j]? with
    | none => rfl
    | some p =>
      cases budget[i]? with
      | none => rfl
      | some v =>
        simp only [Option.map, assign_sc hk]
        cases p.assignBudget (some v) with
        | error e => rfl
        | ok p' =>
          simp only [Except.map]
          rw [← List.map_set]
          exact assignLoop_sc budget js (i + 1) (ps.set j p')

theorem detBudget_sc (argsort : List ℝ → List Nat) (ha : ∀ zs : List ℝ, argsort (zs.map (k * ·)) = argsort zs) (D : DetLayer) (v : Option (List ℝ)) :
    (detector k D).assignBudget argsort v = (D.assignBudget argsort v).map (detector k) := by
  cases v with
  | none => rfl
  | some v =>
    simp only [DetLayer.assignBudget, zorder_sc argsort ha]
    have e : (detector k D).panels = D.panels.map (panel k) := rfl
    rw [e, assignLoop_sc hk]
    cases DetLayer.assignLoop v (D.zorder argsort) 0 D.panels <;> rfl

theorem volLoop_sc (argsort : List ℝ → List Nat) (ha : ∀ zs : List ℝ, argsort (zs.map (k * ·)) = argsort zs) (shares : List ℝ) (ns : List Nat) : ∀ (ls : List AnyLayer) (bi li : Nat),
    Volume.assignLoop argsort shares ns bi li (ls.map (layer k)) = (Volume.assignLoop argsort shares ns bi li ls).map (List.map (layer k))
  | [], bi, li => rfl
  | .passive L :: ls, bi, li => by
    simp only [List.map_cons, layer, Volume.assignLoop, volLoop_sc argsort ha shares ns ls]
    cases Volume.assignLoop argsort shares ns bi li ls <;> rfl
  | .detector D :: ls, bi, li => by
    simp only [List.map_cons, layer, Volume.assignLoop]
    cases ns[li]? with
    | none => rfl
    | some n =>
      simp only [detBudget_sc hk argsort ha]
      cases D.assignBudget argsort (some ((shares.drop bi).take n)) with
      | error e => rfl
      | ok D' =>
        simp only [Except.map, volLoop_sc argsort ha shares ns ls]
        cases Volume.assignLoop argsort shares ns (bi + n) (li + 1) ls <;> rfl

theorem budget_sc (argsort : List ℝ → List Nat) (ha : ∀ zs : List ℝ, argsort (zs.map (k * ·)) = argsort zs) (V : Volume) : (volume k V).assignBudget argsort = (V.assignBudget argsort).map (volume k) := by
  unfold Volume.assignBudget
  have e1 : (volume k V).budget = V.budget := rfl
  have e2 : (volume k V).weights = V.weights := rfl
  have e3 : (volume k V).nCosts = V.nCosts := rfl
  have e4 : (volume k V).layers = V.layers.map (layer k) := rfl
  rw [e1, e2, e3, e4]
  cases V.budget with
  | none => rfl
  | some b =>
    simp only [volLoop_sc hk argsort ha]
    cases Volume.assignLoop argsort ((softmax V.weights).map (b * ·)) V.nCosts 0 0 V.layers <;> rfl

theorem runLayers_sc (argsort : List ℝ → List Nat) (ha : ∀ zs : List ℝ, argsort (zs.map (k * ·)) = argsort zs) (rng : Nat → Nat → Nat → Draw) (noise : Nat → Nat → Nat → ℝ × ℝ) (fuel : Nat) :
    ∀ (ls : List AnyLayer), (∀ l ∈ ls, PlainLayer l) → ∀ (i : Nat) (b : Batch Row),
      Volume.runLayers argsort rng noise fuel i (ls.map (layer k)) (batch k b) = (Volume.runLayers argsort rng noise fuel i ls b).map (Option.map (batch k))
  | [], _, i, b => rfl
  | l :: ls, hp, i, b => by
    have e : Volume.layerForward argsort (rng i) (noise i) fuel (batch k b) (layer k l) = (Volume.layerForward argsort (rng i) (noise i) fuel b l).map (Option.map (batch k)) := by
      cases l with
      | passive L => exact passive_sc hk L (rng i) fuel b
      | detector D =>
        simp only [layer, Volume.layerForward, detector_sc hk argsort ha (noise i) D (hp _ List.mem_cons_self)]
        cases D.forward argsort (noise i) b <;> rfl
    simp only [List.map_cons, Volume.runLayers, e]
    cases Volume.layerForward argsort (rng i) (noise i) fuel b l with
    | error e => rfl
    | ok r =>
      cases r with
      | none => rfl
      | some b' =>
        simp only [Except.map, Option.map, snapshot_sc]
        exact runLayers_sc argsort ha rng noise fuel ls (fun l h => hp l (List.mem_cons_of_mem _ h)) (i + 1) _

omit hk in
theorem plain_assign (p p' : AnyPanel) (v : Option ℝ) (hp : Plain p) (h : p.assignBudget v = .ok p') : Plain p' := by
  cases p with
  | panel p =>
    simp only [AnyPanel.assignBudget, Except.ok.injEq] at h
    rw [← h]
    cases v <;> exact hp
  | heatmap p =>
    cases v with
    | none =>
      simp only [AnyPanel.assignBudget, Heatmap.assignBudget, Except.ok.injEq] at h
      rw [← h]
      exact hp
    | some v => simp [AnyPanel.assignBudget, Heatmap.assignBudget] at h

omit hk in
theorem plain_loop (budget : List ℝ) : ∀ (js : List Nat) (i : Nat) (ps ps' : List AnyPanel), (∀ p ∈ ps, Plain p) → DetLayer.assignLoop budget js i ps = .ok ps' → ∀ p ∈ ps', Plain p
  | [], i, ps, ps', hp, h => by
    simp only [DetLayer.assignLoop, Except.ok.injEq] at h
    rw [← h]
    exact hp
  | j :: js, i, ps, ps', hp, h => by
    simp only [DetLayer.assignLoop] at h
    split at h
    · rename_i p v h1 h2
      cases h3 : p.assignBudget (some v) with
      | error e => rw [h3] at h; simp at h
      | ok p1 =>
        rw [h3] at h
        refine plain_loop budget js (i + 1) (ps.set j p1) ps' (fun q hq => ?_) h
        rcases List.mem_or_eq_of_mem_set hq with hq | hq
        · exact hp q hq
        · rw [hq]
          exact plain_assign p p1 _ (hp p (List.mem_of_getElem? h1)) h3
    · simp at h

omit hk in
theorem plain_volLoop (argsort : List ℝ → List Nat) (shares : List ℝ) (ns : List Nat) : ∀ (ls ls' : List AnyLayer) (bi li : Nat), (∀ l ∈ ls, PlainLayer l) →
    Volume.assignLoop argsort shares ns bi li ls = .ok ls' → ∀ l ∈ ls', PlainLayer l
  | [], ls', bi, li, _, h => by
    simp only [Volume.assignLoop, Except.ok.injEq] at h
    rw [← h]
    simp
  | .passive L :: ls, ls', bi, li, hp, h => by
    simp only [Volume.assignLoop] at h
    cases h1 : Volume.assignLoop argsort shares ns bi li ls with
    | error e => rw [h1] at h; simp at h
    | ok l1 =>
      rw [h1] at h
      simp only [Except.ok.injEq] at h
      rw [← h]
      intro l hl
      rcases List.mem_cons.mp hl with rfl | hl
      · trivial
      · exact plain_volLoop argsort shares ns ls l1 bi li (fun l h => hp l (List.mem_cons_of_mem _ h)) h1 l hl
  | .detector D :: ls, ls', bi, li, hp, h => by
    simp only [Volume.assignLoop] at h
    cases hn : ns[li]? with
    | none => rw [hn] at h; simp at h
    | some n =>
      rw [hn] at h
      simp only at h
      cases hD : D.assignBudget argsort (some ((shares.drop bi).take n)) with
      | error e => rw [hD] at h; simp at h
      | ok D' =>
        rw [hD] at h
        simp only at h
        cases h1 : Volume.assignLoop argsort shares ns (bi + n) (li + 1) ls with
        | error e => rw [h1] at h; simp at h
        | ok l1 =>
          rw [h1] at h
          simp only [Except.ok.injEq] at h
          rw [← h]
          intro l hl
          rcases List.mem_cons.mp hl with rfl | hl
          · simp only [DetLayer.assignBudget] at hD
            cases h2 : DetLayer.assignLoop ((shares.drop bi).take n) (D.zorder argsort) 0 D.panels with
            | error e => rw [h2] at hD; simp at hD
            | ok ps =>
              rw [h2] at hD
              simp only [Except.ok.injEq] at hD
              rw [← hD]
              exact plain_loop _ _ _ _ _ (hp _ List.mem_cons_self) h2
          · exact plain_volLoop argsort shares ns ls l1 _ _ (fun l h => hp l (List.mem_cons_of_mem _ h)) h1 l hl

omit hk in
theorem plain_budget (argsort : List ℝ → List Nat) (V V' : Volume) (hp : ∀ l ∈ V.layers, PlainLayer l) (h : V.assignBudget argsort = .ok V') : ∀ l ∈ V'.layers, PlainLayer l := by
  unfold Volume.assignBudget at h
  cases hb : V.budget with
  | none =>
    rw [hb] at h
    simp only [Except.ok.injEq] at h
    rw [← h]
    exact hp
  | some b =>
    rw [hb] at h
    simp only at h
    cases h1 : Volume.assignLoop argsort ((softmax V.weights).map (b * ·)) V.nCosts 0 0 V.layers with
    | error e => rw [h1] at h; simp at h
    | ok ls =>
      rw [h1] at h
      simp only [Except.ok.injEq] at h
      rw [← h]
      exact plain_volLoop argsort _ _ _ _ _ _ hp h1

/-! ### Costs and responses -/

theorem panelCost_sc (p : AnyPanel) : (panel k p).getCost = p.getCost := by
  cases p with
  | panel p =>
    simp only [panel, AnyPanel.getCost, Panel.getCost, span_sc]
    simp only [simplePanel, pair]
    field_simp
  | heatmap p =>
    simp only [panel, AnyPanel.getCost, Heatmap.getCost, heatmap, List.map_map, List.length_map]
    have e : (fun s : ℝ × ℝ => s.1 * s.2) ∘ pair k = fun s => k * k * (s.1 * s.2) := by
      funext s
      simp only [Function.comp, pair]
      ring
    rw [e, List.sum_map_mul_left]
    field_simp

theorem detCost_sc (D : DetLayer) : (detector k D).getCost = D.getCost := by
  unfold DetLayer.getCost
  simp only [detector, List.foldl_map, panelCost_sc hk]

theorem costLoop_sc : ∀ (Ds : List DetLayer) (c : Option ℝ), Volume.costLoop c (Ds.map (detector k)) = Volume.costLoop c Ds
  | [], _ => rfl
  | D :: Ds, none => by simp only [List.map_cons, Volume.costLoop, detCost_sc hk, costLoop_sc Ds]
  | D :: Ds, some c => by simp only [List.map_cons, Volume.costLoop, detCost_sc hk, costLoop_sc Ds]

theorem cost_sc (V : Volume) : (volume k V).getCost = V.getCost := by
  have e : (volume k V).detectors = V.detectors.map (detector k) := by
    simp only [Volume.detectors, volume, List.filterMap_map, List.map_filterMap]
    congr 1
    funext l
    cases l <;> rfl
  have e' : (volume k V).budget = V.budget := rfl
  simp only [Volume.getCost, e, e', costLoop_sc hk]

theorem ratio_sc (kind : PanelKind) (mu span x : ℝ) (hs : 0 < span) : Panel.ratio kind (k * mu) (k * span) (k * x) = Panel.ratio kind mu span x := by
  cases kind with
  | gauss =>
    simp only [Panel.ratio, Panel.gaussRatio]
    rw [mul_div_assoc, logProb_sc hk _ _ _ (by positivity), logProb_sc hk _ _ _ (by positivity), exp_sub, exp_sub, div_div_div_cancel_right₀ (exp_pos _).ne']
  | sigmoid s =>
    have e : (k * x - k * mu) / (k * span / 2) = (x - mu) / (span / 2) := by
      rw [← mul_sub, mul_div_assoc k span 2, mul_div_mul_left _ _ hk.ne']
    simp only [Panel.ratio, Panel.sigRatio, e]

theorem clampR_sc (x lo hi : ℝ) : clampR (k * x) (k * lo) (k * hi) = k * clampR x lo hi := by
  simp only [clampR]
  rw [mul_min_of_nonneg _ _ hk.le, mul_max_of_nonneg _ _ hk.le]

end Rescale

end

end Tomopt
