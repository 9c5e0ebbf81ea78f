import Verif.Spec.Lift
import Verif.Lemmas.Muon
import Verif.Lemmas.Layer

/- Helper lemmas: every step of the flight of muons commutes with moving everything up. -/
namespace Tomopt

noncomputable section
open Real

namespace Lift

theorem put_map {β γ : Type} (f : β → γ) : ∀ (m : List Bool) (xs vs : List β), put m (xs.map f) (vs.map f) = (put m xs vs).map f
  | [], xs, vs => by cases xs <;> rfl
  | true :: ms, [], vs => rfl
  | false :: ms, [], vs => rfl
  | true :: ms, x :: xs, [] => by simpa [put] using put_map f ms xs []
  | true :: ms, x :: xs, v :: vs => by simpa [put] using put_map f ms xs vs
  | false :: ms, x :: xs, vs => by simpa [put] using put_map f ms xs vs

theorem maskedUpd_lift {β γ : Type} (g : β → β) (f : β → γ → β) (hf : ∀ x a, f (g x) a = g (f x a)) (mask : List Bool) (rows : List β) (args : List γ) :
    maskedUpd mask (rows.map g) args f = (maskedUpd mask rows args f).map g := by
  unfold maskedUpd
  rw [pick_map, ← put_map]
  congr 1
  rw [List.zipWith_map_left, List.map_zipWith]
  simp only [hf]

variable (h : ℝ)

theorem propDz_lift (m : Muon) (d : ℝ) : Batch.propDzRow (muon h m) d = muon h (Batch.propDzRow m d) := by
  simp only [Batch.propDzRow, muon]
  congr 1
  ring

theorem propD_lift (m : Muon) (d : ℝ) : Batch.propDRow (muon h m) d = muon h (Batch.propDRow m d) := by
  simp only [Batch.propDRow, muon]
  congr 1
  ring

theorem length_lift (b : Batch Row) : (batch h b).muons.length = b.muons.length := by simp [batch]

theorem propagateDz_lift (b : Batch Row) (d : Arg) (mask : Option (List Bool)) : (batch h b).propagateDz d mask = (b.propagateDz d mask).map (batch h) := by
  unfold Batch.propagateDz
  rw [length_lift]
  cases resolveMask b.muons.length mask with
  | error e => rfl
  | ok m =>
    simp only [bind, Except.bind]
    cases d.expand (countTrue m) with
    | error e => rfl
    | ok vs =>
      simp only [Except.map]
      refine congrArg Except.ok ?_
      simp only [batch]
      rw [maskedUpd_lift _ _ (propDz_lift h)]

theorem propagateD_lift (b : Batch Row) (d : Arg) (mask : Option (List Bool)) : (batch h b).propagateD d mask = (b.propagateD d mask).map (batch h) := by
  unfold Batch.propagateD
  rw [length_lift]
  cases resolveMask b.muons.length mask with
  | error e => rfl
  | ok m =>
    simp only [bind, Except.bind]
    cases d.expand (countTrue m) with
    | error e => rfl
    | ok vs =>
      simp only [Except.map]
      refine congrArg Except.ok ?_
      simp only [batch]
      rw [maskedUpd_lift _ _ (propD_lift h)]

theorem optUpd_lift (mask : List Bool) (rows : List Muon) (a : Option Arg) (f : Muon → ℝ → Muon) (hf : ∀ m v, f (muon h m) v = muon h (f m v)) :
    optUpd mask (rows.map (muon h)) a f = (optUpd mask rows a f).map (List.map (muon h)) := by
  unfold optUpd
  cases a with
  | none => rfl
  | some a =>
    simp only [bind, Except.bind]
    cases a.expand (countTrue mask) with
    | error e => rfl
    | ok vs =>
      simp only [Except.map]
      rw [maskedUpd_lift _ _ hf]

theorem scatterDxyz_lift (b : Batch Row) (dx dy dz : Option Arg) (mask : Option (List Bool)) : (batch h b).scatterDxyz dx dy dz mask = (b.scatterDxyz dx dy dz mask).map (batch h) := by
  unfold Batch.scatterDxyz
  rw [length_lift]
  cases resolveMask b.muons.length mask with
  | error e => rfl
  | ok m =>
    simp only [bind, Except.bind]
    have e0 : (batch h b).muons = b.muons.map (muon h) := rfl
    rw [e0, optUpd_lift h m _ _ _ (fun _ _ => rfl)]
    cases optUpd m b.muons dx fun m v => { m with x := m.x + v } with
    | error e => rfl
    | ok m1 =>
      simp only [Except.map]
      rw [optUpd_lift h m _ _ _ (fun _ _ => rfl)]
      cases optUpd m m1 dy fun m v => { m with y := m.y + v } with
      | error e => rfl
      | ok m2 =>
        simp only [Except.map]
        rw [optUpd_lift h m _ _ _ (fun m v => by simp only [muon]; congr 1; ring)]
        cases optUpd m m2 dz fun m v => { m with z := m.z + v } with
        | error e => rfl
        | ok m3 => rfl

theorem filterHits_lift (hits : Dict String (Dict String (List (List Row)))) (keep : List Bool) :
    Batch.filterHits (hits.map fun kv => (kv.1, vars h kv.2)) keep = (Batch.filterHits hits keep).map fun kv => (kv.1, vars h kv.2) := by
  simp [Batch.filterHits, Dict.mapVals, vars, Function.comp_def, pick_map]

theorem keepRow_lift (m : RawMuon) : Batch.keepRow (muon h m) = Batch.keepRow m := rfl

theorem toMuon_lift (m : RawMuon) : RawMuon.toMuon? (muon h m) = (RawMuon.toMuon? m).map (muon h) := by
  obtain ⟨i, x, y, z, p, th, ph⟩ := m
  cases th <;> cases ph <;> rfl

theorem filterMap_lift (rs : List RawMuon) : (rs.map (muon h)).filterMap RawMuon.toMuon? = (rs.filterMap RawMuon.toMuon?).map (muon h) := by
  induction rs with
  | nil => rfl
  | cons r rs ih =>
    simp only [List.map_cons, List.filterMap_cons, toMuon_lift]
    cases RawMuon.toMuon? r <;> simp [ih]

theorem removeUpwards_lift (b : Batch Row) (rs : List RawMuon) : (batch h b).removeUpwards (rs.map (muon h)) = batch h (b.removeUpwards rs) := by
  unfold Batch.removeUpwards
  have e : (rs.map (muon h)).map Batch.keepRow = rs.map Batch.keepRow := by
    rw [List.map_map]
    rfl
  simp only [e, List.length_map]
  split
  · simp only [batch, pick_map, filterMap_lift, List.map_append, filterHits_lift]
  · simp only [batch, filterMap_lift]

theorem xyMask_lift (b : Batch Row) (lo hi : Option (ℝ × ℝ)) : (batch h b).xyMask lo hi = b.xyMask lo hi := by
  simp only [Batch.xyMask, batch, List.map_map]
  rfl

theorem scatterOf_lift (L : PassiveLayer) (cube : List (List ℝ)) (draw : Nat → Draw) (m : Muon) : (passive h L).scatterOf cube draw (muon h m) = L.scatterOf cube draw m := by
  have e : (passive h L).scatterStep (muon h m) = L.scatterStep m := by
    have e0 : (muon h m).z - ((passive h L).z - (passive h L).size) = m.z - (L.z - L.size) := by
      simp only [passive, muon]
      ring
    unfold PassiveLayer.scatterStep
    simp only [e0]
    rfl
  unfold PassiveLayer.scatterOf
  rw [e]
  rfl

theorem mapE_map {β γ δ : Type} (g : δ → β) (f : β → Except Err γ) (xs : List δ) : mapE f (xs.map g) = mapE (fun x => f (g x)) xs := by
  induction xs with
  | nil => rfl
  | cons x xs ih => simp only [List.map_cons, mapE, ih]

theorem raw_lift (ms : List Muon) : (ms.map (muon h)).map MuonOf.toRaw = (ms.map MuonOf.toRaw).map (muon h) := by
  rw [List.map_map, List.map_map]
  rfl

theorem scatterXYRowO_lift (m : RawMuon) (a c : Option ℝ) : PassiveLayer.scatterXYRowO (muon h m) a c = muon h (PassiveLayer.scatterXYRowO m a c) := by
  obtain ⟨i, x, y, z, p, th, ph⟩ := m
  cases a <;> cases c <;> try rfl
  rename_i a c
  cases th with
  | none => cases ph <;> rfl
  | some t =>
    cases ph with
    | none => rfl
    | some f =>
      simp only [PassiveLayer.scatterXYRowO, Batch.scatterXYRow, muon]
      cases thetaXFromThetaPhi t f <;> cases thetaYFromThetaPhi t f <;> rfl

theorem scatterAngles_lift (b : Batch Row) (scats : List Scat) (mask : List Bool) : PassiveLayer.scatterAngles (batch h b) scats mask = batch h (PassiveLayer.scatterAngles b scats mask) := by
  unfold PassiveLayer.scatterAngles
  have e0 : (batch h b).muons = b.muons.map (muon h) := rfl
  rw [e0, raw_lift, maskedUpd_lift _ _ (fun m s => scatterXYRowO_lift h m s.dtx s.dty), removeUpwards_lift]

theorem dz_lift (L : PassiveLayer) (b : Batch Row) : (batch h b).muons.map (fun m => m.z - ((passive h L).z - (passive h L).size)) = b.muons.map fun m => m.z - (L.z - L.size) := by
  simp only [batch, List.map_map, passive]
  congr 1
  funext m
  simp only [Function.comp, muon]
  ring

theorem pass_lift (L : PassiveLayer) (draw : Nat → Draw) (b : Batch Row) (mask : List Bool) : (passive h L).pass draw (batch h b) mask = (L.pass draw b mask).map (batch h) := by
  unfold PassiveLayer.pass
  have e1 : (passive h L).radLength = L.radLength := rfl
  have e2 : (passive h L).stepSz = L.stepSz := rfl
  have e3 : (passive h L).lw = L.lw := rfl
  have e4 : (passive h L).checkModel = L.checkModel := rfl
  have e5 : (batch h b).muons = b.muons.map (muon h) := rfl
  rw [e1]
  cases L.radLength with
  | none => simp only [e2, propagateD_lift]
  | some cube =>
    simp only [e2, e3, e4, xyMask_lift, bind, Except.bind]
    cases L.checkModel with
    | error e => rfl
    | ok u =>
      simp only
      rw [e5, pick_map, mapE_map]
      simp only [scatterOf_lift]
      cases mapE (fun x => L.scatterOf cube draw x) (pick ((b.xyMask (some (0, 0)) (some L.lw)).zipWith (· && ·) mask) b.muons) with
      | error e => rfl
      | ok scats =>
        simp only [scatterDxyz_lift]
        cases b.scatterDxyz (some (.vec (scats.map (·.dx)))) (some (.vec (scats.map (·.dy)))) (some (.vec (scats.map (·.dz)))) (some ((b.xyMask (some (0, 0)) (some L.lw)).zipWith (· && ·) mask)) with
        | error e => rfl
        | ok b1 =>
          simp only [Except.map, propagateD_lift]
          cases b1.propagateD (.scalar L.stepSz) (some mask) with
          | error e => rfl
          | ok b2 =>
            simp only [dz_lift, propagateDz_lift]
            cases b2.propagateDz (.vec (pick (((b2.muons.map fun m => m.z - (L.z - L.size)).map fun d => decide (d < 0)).zipWith (· && ·) mask) (b2.muons.map fun m => m.z - (L.z - L.size))))
                (some (((b2.muons.map fun m => m.z - (L.z - L.size)).map fun d => decide (d < 0)).zipWith (· && ·) mask)) with
            | error e => rfl
            | ok b3 => simp only [Except.map, scatterAngles_lift]

theorem inside_lift (L : PassiveLayer) (m : Muon) : (passive h L).inside (muon h m) = L.inside m := by
  unfold PassiveLayer.inside
  refine congrArg₂ _ (decide_eq_decide.mpr ?_) (decide_eq_decide.mpr ?_) <;> simp only [passive, muon]
  · exact ⟨fun _ => by linarith, fun _ => by linarith⟩
  · exact ⟨fun _ => by linarith, fun _ => by linarith⟩

theorem insides_lift (L : PassiveLayer) (b : Batch Row) : (batch h b).muons.map (passive h L).inside = b.muons.map L.inside := by
  simp only [batch, List.map_map]
  congr 1
  funext m
  exact inside_lift h L m

theorem loop_lift (L : PassiveLayer) (rng : Nat → Nat → Draw) : ∀ (fuel k : Nat) (b : Batch Row) (mask : List Bool),
    (passive h L).loop rng fuel k (batch h b) mask = (L.loop rng fuel k b mask).map (Option.map (batch h))
  | 0, k, b, mask => by
    unfold PassiveLayer.loop
    split <;> rfl
  | fuel + 1, k, b, mask => by
    unfold PassiveLayer.loop
    split
    · simp only [pass_lift, bind, Except.bind]
      cases L.pass (rng k) b mask with
      | error e => rfl
      | ok b' =>
        simp only [Except.map, insides_lift]
        exact loop_lift L rng fuel (k + 1) b' _
    · rfl

theorem passive_lift (L : PassiveLayer) (rng : Nat → Nat → Draw) (fuel : Nat) (b : Batch Row) : (passive h L).forward rng fuel (batch h b) = (L.forward rng fuel b).map (Option.map (batch h)) := by
  unfold PassiveLayer.forward
  have e0 : (batch h b).muons.map (fun m => m.z - (passive h L).z) = b.muons.map fun m => m.z - L.z := by
    simp only [batch, List.map_map, passive]
    congr 1
    funext m
    simp only [Function.comp, muon]
    ring
  simp only [e0, propagateDz_lift, bind, Except.bind]
  cases b.propagateDz (.vec (b.muons.map fun m => m.z - L.z)) none with
  | error e => rfl
  | ok b1 =>
    simp only [Except.map, length_lift, loop_lift]
    cases L.loop rng fuel 0 b1 (List.replicate b1.muons.length true) with
    | error e => rfl
    | ok r =>
      cases r with
      | none => rfl
      | some b2 =>
        simp only [Except.map, Option.map, dz_lift, propagateDz_lift]
        cases b2.propagateDz (.vec (b2.muons.map fun m => m.z - (L.z - L.size))) none <;> rfl

/-! ### Detectors -/

theorem panel_z (p : AnyPanel) : (panel h p).z = p.z + h := by cases p <;> rfl

theorem modify_map {v : Type} (g : String → v → v) (k : String) (dflt : v) (f f' : v → v) (hd : g k dflt = dflt) (hf : ∀ x, f' (g k x) = g k (f x)) : ∀ d : Dict String v,
    Dict.modify (d.map fun kv => (kv.1, g kv.1 kv.2)) k dflt f' = (Dict.modify d k dflt f).map fun kv => (kv.1, g kv.1 kv.2)
  | [] => by
    have := hf dflt
    rw [hd] at this
    simp [Dict.modify, this]
  | (k', x) :: d => by
    simp only [List.map_cons, Dict.modify]
    by_cases e : k' = k
    · subst e
      simp [hf]
    · simp only [e, if_false, List.map_cons, modify_map g k dflt f f' hd hf d]

theorem appendHits_lift (b : Batch Row) (hits : Dict String (List Row)) (pos : String) :
    (batch h b).appendHits (hits.map fun kv => (kv.1, kv.2.map (row h kv.1))) pos = batch h (b.appendHits hits pos) := by
  unfold Batch.appendHits
  simp only [batch]
  congr 1
  generalize b.hits = H
  induction hits generalizing H with
  | nil => rfl
  | cons kv hits ih =>
    simp only [List.map_cons, List.foldl_cons]
    rw [← ih]
    congr 1
    refine modify_map (fun _ => vars h) pos [] _ _ rfl (fun d => ?_) H
    exact modify_map (fun k t => t.map fun t => t.map (row h k)) kv.1 [] (fun t => t ++ [kv.2]) (fun t => t ++ [kv.2.map (row h kv.1)]) rfl (fun t => by simp) d

theorem getHits_lift (p : AnyPanel) (noise : Nat → ℝ × ℝ) (b : Batch Row) :
    (panel h p).getHits noise (batch h b) = (p.getHits noise b).map fun d => d.map fun kv => (kv.1, kv.2.map (row h kv.1)) := by
  cases p with
  | panel p =>
    simp only [panel, AnyPanel.getHits, Panel.getHits]
    have e1 : ({ p with z := p.z + h } : Panel).continuous = p.continuous := rfl
    have e2 : ({ p with z := p.z + h } : Panel).checkResponse = p.checkResponse := rfl
    rw [e1, e2]
    cases (if p.continuous = true then p.checkResponse else .ok ()) with
    | error e => rfl
    | ok u =>
      simp only [Except.map, batch, List.map_map, List.map_cons, List.map_nil, row]
      simp
      refine ⟨?_, ?_, ?_, ?_⟩ <;> (intro a ha; rfl)
  | heatmap p =>
    simp only [panel, AnyPanel.getHits, Heatmap.getHits, Except.map, batch, List.map_map, List.map_cons, List.map_nil, row]
    simp
    refine ⟨?_, ?_, ?_, ?_⟩ <;> (intro a ha; rfl)

theorem visit_lift (pos : String) (noise : Nat → Nat → ℝ × ℝ) : ∀ (ps : List (Nat × AnyPanel)) (b : Batch Row),
    DetLayer.visit pos noise (ps.map fun ip => (ip.1, panel h ip.2)) (batch h b) = (DetLayer.visit pos noise ps b).map (batch h)
  | [], b => rfl
  | (i, p) :: ps, b => by
    simp only [List.map_cons, DetLayer.visit]
    have e0 : (batch h b).muons.map (fun m => m.z - (panel h p).z) = b.muons.map fun m => m.z - p.z := by
      simp only [batch, List.map_map, panel_z]
      congr 1
      funext m
      simp only [Function.comp, muon]
      ring
    rw [e0, propagateDz_lift]
    cases b.propagateDz (.vec (b.muons.map fun m => m.z - p.z)) none with
    | error e => rfl
    | ok b1 =>
      simp only [Except.map, getHits_lift]
      cases p.getHits (noise i) b1 with
      | error e => rfl
      | ok d =>
        simp only [Except.map, appendHits_lift]
        exact visit_lift pos noise ps _

theorem zorder_lift (argsort : List ℝ → List Nat) (ha : ∀ zs : List ℝ, argsort (zs.map (· + h)) = argsort zs) (D : DetLayer) : (detector h D).zorder argsort = D.zorder argsort := by
  unfold DetLayer.zorder
  have : (detector h D).panels.map AnyPanel.z = (D.panels.map AnyPanel.z).map (· + h) := by
    simp only [detector, List.map_map]
    congr 1
    funext p
    exact panel_z h p
  rw [this, ha]

theorem zpanels_lift (argsort : List ℝ → List Nat) (ha : ∀ zs : List ℝ, argsort (zs.map (· + h)) = argsort zs) (D : DetLayer) :
    (detector h D).zpanels argsort = (D.zpanels argsort).map fun ip => (ip.1, panel h ip.2) := by
  unfold DetLayer.zpanels
  rw [zorder_lift h argsort ha, List.map_filterMap]
  congr 1
  funext i
  simp only [detector, List.getElem?_map, Option.map_map]
  rfl

theorem detector_lift (argsort : List ℝ → List Nat) (ha : ∀ zs : List ℝ, argsort (zs.map (· + h)) = argsort zs) (noise : Nat → Nat → ℝ × ℝ) (D : DetLayer) (b : Batch Row) :
    (detector h D).forward argsort noise (batch h b) = (D.forward argsort noise b).map (batch h) := by
  unfold DetLayer.forward
  have e0 : (detector h D).pos = D.pos := rfl
  rw [zpanels_lift h argsort ha, e0, visit_lift]
  cases DetLayer.visit D.pos noise (D.zpanels argsort) b with
  | error e => rfl
  | ok b1 =>
    simp only [Except.map]
    have e1 : (batch h b1).muons.map (fun m => m.z - ((detector h D).z - (detector h D).size)) = b1.muons.map fun m => m.z - (D.z - D.size) := by
      simp only [batch, List.map_map, detector]
      congr 1
      funext m
      simp only [Function.comp, muon]
      ring
    rw [e1, propagateDz_lift]
    rfl

theorem assign_lift (p : AnyPanel) (v : Option ℝ) : (panel h p).assignBudget v = (p.assignBudget v).map (panel h) := by
  cases p <;> cases v <;> rfl

theorem assignLoop_lift (budget : List ℝ) : ∀ (js : List Nat) (i : Nat) (ps : List AnyPanel), DetLayer.assignLoop budget js i (ps.map (panel h)) = (DetLayer.assignLoop budget js i ps).map (List.map (panel h))
  | [], i, ps => rfl
  | j :: js, i, ps => by
    simp only [DetLayer.assignLoop, List.getElem?_map]
    cases ps[j]? with
    | none => rfl
    | some p =>
      cases budget[i]? with
      | none => rfl
      | some v =>
        simp only [Option.map, assign_lift]
        cases p.assignBudget (some v) with
        | error e => rfl
        | ok p' =>
          simp only [Except.map]
          rw [← List.map_set]
          exact assignLoop_lift budget js (i + 1) (ps.set j p')

theorem detBudget_lift (argsort : List ℝ → List Nat) (ha : ∀ zs : List ℝ, argsort (zs.map (· + h)) = argsort zs) (D : DetLayer) (v : Option (List ℝ)) :
    (detector h D).assignBudget argsort v = (D.assignBudget argsort v).map (detector h) := by
  cases v with
  | none => rfl
  | some v =>
    simp only [DetLayer.assignBudget, zorder_lift h argsort ha]
    have e : (detector h D).panels = D.panels.map (panel h) := rfl
    rw [e, assignLoop_lift]
    cases DetLayer.assignLoop v (D.zorder argsort) 0 D.panels <;> rfl

theorem volLoop_lift (argsort : List ℝ → List Nat) (ha : ∀ zs : List ℝ, argsort (zs.map (· + h)) = argsort zs) (shares : List ℝ) (ns : List Nat) : ∀ (ls : List AnyLayer) (bi li : Nat),
    Volume.assignLoop argsort shares ns bi li (ls.map (layer h)) = (Volume.assignLoop argsort shares ns bi li ls).map (List.map (layer h))
  | [], bi, li => rfl
  | .passive L :: ls, bi, li => by
    simp only [List.map_cons, layer, Volume.assignLoop, volLoop_lift argsort ha shares ns ls]
    cases Volume.assignLoop argsort shares ns bi li ls <;> rfl
  | .detector D :: ls, bi, li => by
    simp only [List.map_cons, layer, Volume.assignLoop]
    cases ns[li]? with
    | none => rfl
    | some n =>
      simp only [detBudget_lift h argsort ha]
      cases D.assignBudget argsort (some ((shares.drop bi).take n)) with
      | error e => rfl
      | ok D' =>
        simp only [Except.map, volLoop_lift argsort ha shares ns ls]
        cases Volume.assignLoop argsort shares ns (bi + n) (li + 1) ls <;> rfl

theorem budget_lift (argsort : List ℝ → List Nat) (ha : ∀ zs : List ℝ, argsort (zs.map (· + h)) = argsort zs) (V : Volume) : (volume h V).assignBudget argsort = (V.assignBudget argsort).map (volume h) := by
  unfold Volume.assignBudget
  have e1 : (volume h V).budget = V.budget := rfl
  have e2 : (volume h V).weights = V.weights := rfl
  have e3 : (volume h V).nCosts = V.nCosts := rfl
  have e4 : (volume h V).layers = V.layers.map (layer h) := rfl
  rw [e1, e2, e3, e4]
  cases V.budget with
  | none => rfl
  | some b =>
    simp only [volLoop_lift h argsort ha]
    cases Volume.assignLoop argsort ((softmax V.weights).map (b * ·)) V.nCosts 0 0 V.layers <;> rfl

theorem snapshot_lift (b : Batch Row) : (batch h b).snapshot = batch h b.snapshot := by
  simp [Batch.snapshot, batch, muon]

theorem runLayers_lift (argsort : List ℝ → List Nat) (ha : ∀ zs : List ℝ, argsort (zs.map (· + h)) = argsort zs) (rng : Nat → Nat → Nat → Draw) (noise : Nat → Nat → Nat → ℝ × ℝ) (fuel : Nat) :
    ∀ (ls : List AnyLayer) (i : Nat) (b : Batch Row), Volume.runLayers argsort rng noise fuel i (ls.map (layer h)) (batch h b) = (Volume.runLayers argsort rng noise fuel i ls b).map (Option.map (batch h))
  | [], i, b => rfl
  | l :: ls, i, b => by
    have e : Volume.layerForward argsort (rng i) (noise i) fuel (batch h b) (layer h l) = (Volume.layerForward argsort (rng i) (noise i) fuel b l).map (Option.map (batch h)) := by
      cases l with
      | passive L => exact passive_lift h L (rng i) fuel b
      | detector D =>
        simp only [layer, Volume.layerForward, detector_lift h argsort ha]
        cases D.forward argsort (noise i) b <;> rfl
    simp only [List.map_cons, Volume.runLayers, e]
    cases Volume.layerForward argsort (rng i) (noise i) fuel b l with
    | error e => rfl
    | ok r =>
      cases r with
      | none => rfl
      | some b' =>
        simp only [Except.map, Option.map, snapshot_lift]
        exact runLayers_lift argsort ha rng noise fuel ls (i + 1) _

end Lift

end

end Tomopt
