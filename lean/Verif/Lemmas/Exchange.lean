import Verif.Spec.Exchange
import Verif.Lemmas.Subbatch
import Verif.Lemmas.LayerLoop

/- Helper lemmas: the flight of muons when the horizontal axes are exchanged. -/
namespace Tomopt

noncomputable section
open Real

namespace Exchange

variable {α : Type}

/-- the same of angles that may be NaN -/
inductive SwPh : Option ℝ → Option ℝ → Prop
  | nan : SwPh none none
  | num (f g : ℝ) : cos g = sin f → sin g = cos f → SwPh (some f) (some g)

/-- the same of rows whose angles may be NaN -/
structure SwR (m m' : RawMuon) : Prop where
  id : m'.id = m.id
  x : m'.x = m.y
  y : m'.y = m.x
  z : m'.z = m.z
  p : m'.p = m.p
  th : m'.th = m.th
  ph : SwPh m.ph m'.ph

/-- the same of scatterings -/
structure SwS (v v' : Scat) : Prop where
  dx : v'.dx = v.dy
  dy : v'.dy = v.dx
  dz : v'.dz = v.dz
  dtx : v'.dtx = v.dty
  dty : v'.dty = v.dtx

/-- the random numbers for the exchanged flight: two signs change, or for vertical muons the axes are exchanged -/
def swDraw (vertical : Prop) [Decidable vertical] (d : Draw) : Draw := if vertical then ⟨d.z1y, d.z1x, d.z2y, d.z2x⟩ else ⟨-d.z1x, d.z1y, -d.z2x, d.z2y⟩

theorem thetaX_sw {m m' : Muon} (h : Sw m m') : thetaXFromThetaPhi m'.th m'.ph = thetaYFromThetaPhi m.th m.ph ∧ thetaYFromThetaPhi m'.th m'.ph = thetaXFromThetaPhi m.th m.ph := by
  unfold thetaXFromThetaPhi thetaYFromThetaPhi
  rw [h.th, h.cosPh, h.sinPh]
  exact ⟨rfl, rfl⟩

theorem theta_sw (tx ty : ℝ) : thetaFromThetaXY ty tx = thetaFromThetaXY tx ty := by
  unfold thetaFromThetaXY
  simp only [or_comm (a := |ty| ≥ π / 2), add_comm (tan ty ^ 2)]

theorem phi_sw (tx ty : ℝ) : SwPh (phiFromThetaXY tx ty) (phiFromThetaXY ty tx) := by
  by_cases h : |tx| ≥ π / 2 ∨ |ty| ≥ π / 2
  · have h' : |ty| ≥ π / 2 ∨ |tx| ≥ π / 2 := h.symm
    unfold phiFromThetaXY
    rw [if_pos h, if_pos h']
    exact .nan
  · obtain ⟨hx, hy⟩ := not_or.mp h
    have hx := not_le.mp hx
    have hy := not_le.mp hy
    by_cases h0 : tan tx = 0 ∧ tan ty = 0
    · unfold phiFromThetaXY
      rw [if_neg h, if_neg (fun h' => h h'.symm), h0.1, h0.2]
      simp only [arctanDiv, ne_eq, not_true_eq_false, if_false, lt_irrefl, Option.map_none]
      exact .nan
    · have h1 : tan tx ≠ 0 ∨ tan ty ≠ 0 := by tauto
      obtain ⟨f, f0, f1, fx, fy⟩ := polar_exists (tan tx) (tan ty) h1
      obtain ⟨g, g0, g1, gx, gy⟩ := polar_exists (tan ty) (tan tx) h1.symm
      have hr : 0 < sqrt (tan tx ^ 2 + tan ty ^ 2) := by
        apply Real.sqrt_pos.mpr
        rcases h1 with h1 | h1 <;> positivity
      rw [add_comm (tan ty ^ 2)] at gx gy
      rw [phi_of_polar hx hy hr f0 f1 fx fy, phi_of_polar hy hx hr g0 g1 gx gy]
      refine .num f g ?_ ?_
      · exact mul_left_cancel₀ hr.ne' (gx.symm.trans fy)
      · exact mul_left_cancel₀ hr.ne' (gy.symm.trans fx)

theorem pdgDtheta_neg {z t : ℝ} (h : |z * t| ≤ π / 2.2) : pdgDtheta (-z) t = -pdgDtheta z t := by
  obtain ⟨h1, h2⟩ := abs_le.mp h
  unfold pdgDtheta
  rw [min_eq_left h2, min_eq_left (by linarith)]
  ring

theorem pdgDxy_neg (s t z1 z2 : ℝ) : pdgDxy s t (-z1) (-z2) = -pdgDxy s t z1 z2 := by
  unfold pdgDxy
  ring

theorem pdgDOut_sw {th f g tx ty a0 a1 : ℝ} (hth : th ≠ 0) (hc : cos g = sin f) (hs : sin g = cos f) :
    pdgDOut th g ty tx (-a0) a1 = ((pdgDOut th f tx ty a0 a1).2.1, (pdgDOut th f tx ty a0 a1).1, (pdgDOut th f tx ty a0 a1).2.2) := by
  unfold pdgDOut
  simp only [hth, ne_eq, not_false_eq_true, if_true, hc, hs, Real.tan_neg, add_comm (tan ty ^ 2)]
  refine Prod.ext ?_ (Prod.ext ?_ rfl)
  · ring
  · ring

theorem pdgDOut_sw0 {f g tx ty a0 a1 : ℝ} : pdgDOut 0 g ty tx a1 a0 = ((pdgDOut 0 f tx ty a0 a1).2.1, (pdgDOut 0 f tx ty a0 a1).1, (pdgDOut 0 f tx ty a0 a1).2.2) := by
  unfold pdgDOut
  simp only [ne_eq, not_true_eq_false, if_false, add_comm (tan ty ^ 2)]

theorem pdgScatter_sw (x0 th f g : ℝ) (tx ty : Option ℝ) (mom s : ℝ) (d : Draw) [Decidable (th = 0)] (hc : cos g = sin f) (hs : sin g = cos f) (hcl : |d.z2x * pdgTheta0 x0 mom s| ≤ π / 2.2) :
    SwS (pdgScatter x0 th f tx ty mom s d) (pdgScatter x0 th g ty tx mom s (swDraw (th = 0) d)) := by
  unfold swDraw
  by_cases h0 : th = 0
  · subst h0
    rw [if_pos rfl]
    refine ⟨?_, ?_, ?_, ?_, ?_⟩
    · simp [pdgScatter, pdgDxVol, pdgDyVol]
    · simp [pdgScatter, pdgDxVol, pdgDyVol]
    · simp [pdgScatter, pdgDzVol]
    · simp only [pdgScatter]
      cases tx <;> cases ty <;> simp only [pdgDOut_sw0 (f := f) (g := g)]
    · simp only [pdgScatter]
      cases tx <;> cases ty <;> simp only [pdgDOut_sw0 (f := f) (g := g)]
  · rw [if_neg h0]
    refine ⟨?_, ?_, ?_, ?_, ?_⟩
    · simp only [pdgScatter, pdgDxVol, pdgDyVol, ne_eq, h0, not_false_eq_true, if_true, pdgDxy_neg, hc, hs]
      ring
    · simp only [pdgScatter, pdgDxVol, pdgDyVol, ne_eq, h0, not_false_eq_true, if_true, pdgDxy_neg, hc, hs]
    · simp [pdgScatter, pdgDzVol]
    · simp only [pdgScatter, pdgDtheta_neg hcl]
      cases tx <;> cases ty <;> simp only [pdgDOut_sw h0 hc hs]
    · simp only [pdgScatter, pdgDtheta_neg hcl]
      cases tx <;> cases ty <;> simp only [pdgDOut_sw h0 hc hs]

theorem propD_sw {m m' : Muon} (h : Sw m m') (d : ℝ) : Sw (Batch.propDRow m d) (Batch.propDRow m' d) := by
  refine ⟨h.id, ?_, ?_, ?_, h.p, h.th, h.cosPh, h.sinPh⟩ <;> simp [Batch.propDRow, h.x, h.y, h.z, h.th, h.cosPh, h.sinPh]

theorem propDz_sw {m m' : Muon} (h : Sw m m') (d : ℝ) : Sw (Batch.propDzRow m d) (Batch.propDzRow m' d) := by
  refine ⟨h.id, ?_, ?_, ?_, h.p, h.th, h.cosPh, h.sinPh⟩ <;> simp [Batch.propDzRow, h.x, h.y, h.z, h.th, h.cosPh, h.sinPh]

theorem shift_sw {m m' : Muon} (h : Sw m m') {v v' : Scat} (hv : SwS v v') : Sw (shiftXYZ m v.dx v.dy v.dz) (shiftXYZ m' v'.dx v'.dy v'.dz) := by
  refine ⟨h.id, ?_, ?_, ?_, h.p, h.th, h.cosPh, h.sinPh⟩ <;> simp [shiftXYZ, h.x, h.y, h.z, hv.dx, hv.dy, hv.dz]

theorem toRaw_sw {m m' : Muon} (h : Sw m m') : SwR m.toRaw m'.toRaw := ⟨h.id, h.x, h.y, h.z, h.p, by simp [MuonOf.toRaw, h.th], .num _ _ h.cosPh h.sinPh⟩

theorem scatterXYRowO_sw {m m' : Muon} (h : Sw m m') {v v' : Scat} (hv : SwS v v') : SwR (PassiveLayer.scatterXYRowO m.toRaw v.dtx v.dty) (PassiveLayer.scatterXYRowO m'.toRaw v'.dtx v'.dty) := by
  obtain ⟨e1, e2⟩ := thetaX_sw h
  rw [hv.dtx, hv.dty]
  have nan : ∀ a b : Option ℝ, SwR { m.toRaw with th := none, ph := none } { m'.toRaw with th := none, ph := none } := fun _ _ => ⟨h.id, h.x, h.y, h.z, h.p, rfl, .nan⟩
  cases ha : v.dtx with
  | none => cases v.dty <;> exact nan none none
  | some a =>
    cases hb : v.dty with
    | none => exact nan none none
    | some b =>
      simp only [PassiveLayer.scatterXYRowO, Batch.scatterXYRow, MuonOf.toRaw, e1, e2]
      cases thetaXFromThetaPhi m.th m.ph with
      | none => cases thetaYFromThetaPhi m.th m.ph <;> exact nan none none
      | some tx =>
        cases thetaYFromThetaPhi m.th m.ph with
        | none => exact nan none none
        | some ty => exact ⟨h.id, h.x, h.y, h.z, h.p, theta_sw _ _, phi_sw _ _⟩

theorem removeUpwards_sw {b c : Batch α} (rs rs' : List RawMuon) (h : List.Forall₂ SwR rs rs') : List.Forall₂ Sw (b.removeUpwards rs).muons (c.removeUpwards rs').muons := by
  rw [(removeUpwards_spec b rs).1, (removeUpwards_spec c rs').1]
  induction h with
  | nil => exact .nil
  | @cons r r' rs rs' hr _ ih =>
    obtain ⟨i, x, y, z, p, th, ph⟩ := r
    obtain ⟨i', x', y', z', p', th', ph'⟩ := r'
    obtain ⟨h1, h2, h3, h4, h5, h6, h7⟩ := hr
    simp only at h1 h2 h3 h4 h5 h6 h7
    subst h1 h2 h3 h4 h5 h6
    cases h7 with
    | nan =>
      have : ∀ x y : ℝ, Batch.keepRow ⟨i', x, y, z', p', th', none⟩ = false := by intro x y; cases th' <;> rfl
      simp only [List.filter_cons, this]
      exact ih
    | num f g hc hs =>
      cases th' with
      | none => exact ih
      | some t =>
        simp only [List.filter_cons, Batch.keepRow]
        by_cases ht : t < π / 2
        · simp only [ht, decide_true, if_true, List.filterMap_cons, RawMuon.toMuon?]
          exact .cons ⟨rfl, rfl, rfl, rfl, rfl, rfl, hc, hs⟩ ih
        · simp only [ht, decide_false]
          exact ih

/-! ### Layers -/

theorem foot_sw {L L' : PassiveLayer} (hL : ExL L L') {m m' : Muon} (h : Sw m m') : L'.footprint m' = L.footprint m := by
  rw [Bool.eq_iff_iff, PassiveLayer.footprint_iff, PassiveLayer.footprint_iff]
  unfold Over
  rw [hL.lw, h.x, h.y]
  tauto

theorem inside_sw {L L' : PassiveLayer} (hL : ExL L L') {m m' : Muon} (h : Sw m m') : L'.inside m' = L.inside m := by
  unfold PassiveLayer.inside
  rw [hL.z, hL.size, h.z]

theorem getIdx_inv {β : Type} {xs : List β} {i : ℤ} (h0 : 0 ≤ i) {x : β} : getIdx xs i = .ok x ↔ xs[i.toNat]? = some x := by
  unfold getIdx
  simp only [not_lt.mpr h0, if_false]
  cases xs[i.toNat]? <;> simp

theorem lookup_inv (L : PassiveLayer) (hs : 0 < L.size) (c : List (List ℝ)) (m : Muon) (hm : L.footprint m = true) (v : ℝ) :
    L.lookupX0 c m = .ok v ↔ ∃ r, c[(L.abs2idx m.x).toNat]? = some r ∧ r[(L.abs2idx m.y).toNat]? = some v := by
  obtain ⟨hx, -, hy, -⟩ := (PassiveLayer.footprint_iff L m).mp hm
  have ix : 0 ≤ L.abs2idx m.x := Int.floor_nonneg.mpr (by positivity)
  have iy : 0 ≤ L.abs2idx m.y := Int.floor_nonneg.mpr (by positivity)
  unfold PassiveLayer.lookupX0
  cases h : getIdx c (L.abs2idx m.x) with
  | error e =>
    simp only [reduceCtorEq, false_iff, not_exists, not_and]
    intro r hr
    rw [(getIdx_inv ix).mpr hr] at h
    simp at h
  | ok r =>
    have := (getIdx_inv ix).mp h
    simp only [this, Option.some.injEq, exists_eq_left', getIdx_inv iy]

theorem scatVal_sw {L L' : PassiveLayer} (hL : ExL L L') (hs : 0 < L.size) {m m' : Muon} (h : Sw m m') (hm : L.footprint m = true) (momenta : List ℝ) (hp : m.p ∈ momenta) {c c' : List (List ℝ)}
    (hc : L.radLength = some c) (ht : ∀ (i j : Nat) (r : List ℝ) (v : ℝ), c[i]? = some r → r[j]? = some v → ∃ r', c'[j]? = some r' ∧ r'[i]? = some v)
    (draw draw' : Nat → Draw) (hd : Free L momenta (draw m.id)) [Decidable (m.th = 0)] (hdr : draw' m.id = swDraw (m.th = 0) (draw m.id)) (s : Scat) (hsc : L.scatterOf c draw m = .ok s) :
    ∃ s', L'.scatterOf c' draw' m' = .ok s' ∧ SwS s s' := by
  have hm' : L'.footprint m' = true := by rw [foot_sw hL h, hm]
  unfold PassiveLayer.scatterOf at hsc ⊢
  cases hl : L.lookupX0 c m with
  | error e => rw [hl] at hsc; simp at hsc
  | ok x0 =>
    rw [hl] at hsc
    obtain ⟨r, h1, h2⟩ := (lookup_inv L hs c m hm x0).mp hl
    obtain ⟨r', h1', h2'⟩ := ht _ _ r x0 h1 h2
    have hl' : L'.lookupX0 c' m' = .ok x0 := by
      rw [lookup_inv L' (by rw [hL.size]; exact hs) c' m' hm' x0]
      refine ⟨r', ?_, ?_⟩
      · unfold PassiveLayer.abs2idx at h1' ⊢; rw [hL.size, h.x]; exact h1'
      · unfold PassiveLayer.abs2idx at h2' ⊢; rw [hL.size, h.y]; exact h2'
    rw [hl']
    simp only [Except.ok.injEq] at hsc
    subst hsc
    refine ⟨_, rfl, ?_⟩
    obtain ⟨e1, e2⟩ := thetaX_sw h
    have est : L'.scatterStep m' = L.scatterStep m := by
      unfold PassiveLayer.scatterStep
      rw [hL.z, hL.size, hL.stepSz, h.z, h.th]
    have hle : L.scatterStep m ≤ L.stepSz := by
      unfold PassiveLayer.scatterStep
      simp only
      split
      · linarith
      · exact le_rfl
    rw [e1, e2, est, h.th, h.p, h.id, hdr]
    exact pdgScatter_sw x0 m.th m.ph m'.ph _ _ m.p _ _ h.cosPh h.sinPh (hd c hc r (List.mem_of_getElem? h1) x0 (List.mem_of_getElem? h2) m.p hp _ hle)

theorem rowPass_sw {L L' : PassiveLayer} (hL : ExL L L') {m m' : Muon} (h : Sw m m') (sc inM : Bool) {v v' : Scat} (hv : sc = true → SwS v v') : SwR (L.rowPass sc inM v m) (L'.rowPass sc inM v' m') := by
  have h3 : Sw (L.rowPos sc inM v m) (L'.rowPos sc inM v' m') := by
    unfold PassiveLayer.rowPos
    simp only [hL.z, hL.size, hL.stepSz]
    have h1 : Sw (if sc = true then shiftXYZ m v.dx v.dy v.dz else m) (if sc = true then shiftXYZ m' v'.dx v'.dy v'.dz else m') := by
      split
      · exact shift_sw h (hv (by assumption))
      · exact h
    generalize (if sc = true then shiftXYZ m v.dx v.dy v.dz else m) = m1 at *
    generalize (if sc = true then shiftXYZ m' v'.dx v'.dy v'.dz else m') = m1' at *
    have h2 : Sw (if inM = true then Batch.propDRow m1 L.stepSz else m1) (if inM = true then Batch.propDRow m1' L.stepSz else m1') := by
      split
      · exact propD_sw h1 _
      · exact h1
    generalize (if inM = true then Batch.propDRow m1 L.stepSz else m1) = m2 at *
    generalize (if inM = true then Batch.propDRow m1' L.stepSz else m1') = m2' at *
    rw [h2.z]
    split
    · exact propDz_sw h2 _
    · exact h2
  unfold PassiveLayer.rowPass
  split
  · exact scatterXYRowO_sw h3 (hv (by assumption))
  · exact toRaw_sw h3

theorem forall₂_map {β γ δ ε : Type} {R : β → γ → Prop} {S : δ → ε → Prop} {f : β → δ} {g : γ → ε} {xs : List β} {ys : List γ} (h : List.Forall₂ R xs ys)
    (hf : ∀ x ∈ xs, ∀ y, R x y → S (f x) (g y)) : List.Forall₂ S (xs.map f) (ys.map g) := by
  induction h with
  | nil => exact .nil
  | cons hr _ ih => exact .cons (hf _ (by simp) _ hr) (ih fun x hx => hf x (by simp [hx]))

theorem forall₂_mem_right {β γ : Type} {R : β → γ → Prop} {xs : List β} {ys : List γ} (h : List.Forall₂ R xs ys) {y : γ} (hy : y ∈ ys) : ∃ x ∈ xs, R x y := by
  induction h with
  | nil => simp at hy
  | cons hr _ ih =>
    rcases List.mem_cons.mp hy with rfl | h
    · exact ⟨_, by simp, hr⟩
    · obtain ⟨x, hx, e⟩ := ih h
      exact ⟨x, by simp [hx], e⟩

theorem id_unique {ms : List Muon} (hn : (ms.map (·.id)).Nodup) {m n : Muon} (hm : m ∈ ms) (hn' : n ∈ ms) (h : m.id = n.id) : m = n :=
  List.inj_on_of_nodup_map hn hm hn' h

open Classical in
/-- the draws for the exchanged flight of these muons -/
def swDraws (ms : List Muon) (draw : Nat → Draw) (i : Nat) : Draw := swDraw (∃ m ∈ ms, m.id = i ∧ m.th = 0) (draw i)

open Classical in
theorem swDraws_of {ms : List Muon} (hn : (ms.map (·.id)).Nodup) {m : Muon} (hm : m ∈ ms) (draw : Nat → Draw) : swDraws ms draw m.id = swDraw (m.th = 0) (draw m.id) := by
  have : (∃ n ∈ ms, n.id = m.id ∧ n.th = 0) ↔ m.th = 0 := by
    constructor
    · rintro ⟨n, h1, h2, h3⟩
      rw [← id_unique hn h1 hm h2]
      exact h3
    · exact fun h => ⟨m, hm, rfl, h⟩
  unfold swDraws swDraw
  simp only [this]

theorem pass_sw {L L' : PassiveLayer} (hL : ExL L L') (hs : 0 < L.size) (momenta : List ℝ) (draw : Nat → Draw) (hd : ∀ i, Free L momenta (draw i)) (b b' c : Batch α) (p p' : Muon → Bool)
    (hp : ∀ m ∈ b.muons, m.p ∈ momenta) (hn : (b.muons.map (·.id)).Nodup) (h : List.Forall₂ Sw b.muons c.muons) (hpp : ∀ m m', Sw m m' → p' m' = p m) (hb : L.pass draw b (b.muons.map p) = .ok b') :
    ∃ c', L'.pass (swDraws b.muons draw) c (c.muons.map p') = .ok c' ∧ List.Forall₂ Sw b'.muons c'.muons := by
  classical
  cases hc : L.radLength with
  | none =>
    rw [PassiveLayer.pass_empty L hc] at hb
    simp only [Except.ok.injEq] at hb
    subst hb
    refine ⟨_, PassiveLayer.pass_empty L' (hL.none hc) _ c p', ?_⟩
    refine forall₂_map h fun m _ m' hm => ?_
    rw [hpp m m' hm, hL.stepSz]
    split
    · exact propD_sw hm _
    · exact hm
  | some cube =>
    obtain ⟨cube', hc', ht⟩ := hL.some cube hc
    obtain ⟨k1, k2⟩ := PassiveLayer.pass_ok_inv L cube hc draw b b' p hb
    have hb' := PassiveLayer.pass_rows L cube hc draw b b' p hb
    have key : ∀ m ∈ b.muons, ∀ m', Sw m m' → L.footprint m = true → p m = true → ∃ s s', L.scatterOf cube draw m = .ok s ∧ L'.scatterOf cube' (swDraws b.muons draw) m' = .ok s' ∧ SwS s s' := by
      intro m hm m' hsw hf hpm
      obtain ⟨s, e⟩ := k2 m hm hf hpm
      obtain ⟨s', e', hss⟩ := scatVal_sw hL hs hsw hf momenta (hp m hm) hc ht draw (swDraws b.muons draw) (hd m.id) (swDraws_of hn hm draw) s e
      exact ⟨s, s', e, e', hss⟩
    have hm' : L'.checkModel = .ok () := by
      unfold PassiveLayer.checkModel at k1 ⊢
      rw [hL.model]
      exact k1
    refine ⟨_, PassiveLayer.pass_rows_ok L' cube' hc' hm' (swDraws b.muons draw) c p' ?_, ?_⟩
    · intro m' hm' hf' hpm'
      obtain ⟨m, hm, hsw⟩ := forall₂_mem_right h hm'
      obtain ⟨s, s', -, e, -⟩ := key m hm m' hsw (by rw [← foot_sw hL hsw]; exact hf') (by rw [← hpp m m' hsw]; exact hpm')
      exact ⟨s', e⟩
    · rw [hb']
      refine removeUpwards_sw _ _ (forall₂_map h fun m hm m' hsw => ?_)
      rw [foot_sw hL hsw, hpp m m' hsw]
      refine rowPass_sw hL hsw _ _ fun hsc => ?_
      obtain ⟨hf, hpm⟩ := Bool.and_eq_true_iff.mp hsc
      obtain ⟨s, s', e, e', hss⟩ := key m hm m' hsw hf hpm
      unfold PassiveLayer.scatVal
      rw [e, e']
      exact hss

theorem loop_congr (L : PassiveLayer) (rng rng' : Nat → Nat → Draw) (fuel : Nat) : ∀ (k : Nat) (b : Batch α) (mask : List Bool), (∀ j, k ≤ j → rng j = rng' j) → L.loop rng fuel k b mask = L.loop rng' fuel k b mask := by
  induction fuel with
  | zero => intro k b mask _; unfold PassiveLayer.loop; rfl
  | succ n ih =>
    intro k b mask h
    unfold PassiveLayer.loop
    rw [h k le_rfl]
    split
    · cases L.pass (rng' k) b mask with
      | error e => rfl
      | ok b' => exact ih (k + 1) b' _ fun j hj => h j (by omega)
    · rfl

theorem mirrored_sw (v : Prop) [Decidable v] (d : Draw) : Mirrored d (swDraw v d) := by
  unfold swDraw Mirrored
  split
  · exact .inr rfl
  · exact .inl rfl

theorem loop_sw {L L' : PassiveLayer} (hL : ExL L L') (hs : 0 < L.size) (momenta : List ℝ) (rng : Nat → Nat → Draw) (hd : ∀ k i, Free L momenta (rng k i)) (fuel : Nat) : ∀ (k : Nat) (b b' c : Batch α) (p p' : Muon → Bool),
    (∀ m ∈ b.muons, m.p ∈ momenta) → (b.muons.map (·.id)).Nodup → List.Forall₂ Sw b.muons c.muons → (∀ m m', Sw m m' → p' m' = p m) → L.loop rng fuel k b (b.muons.map p) = .ok (some b') →
    ∃ rng', (∀ k i, Mirrored (rng k i) (rng' k i)) ∧ ∃ c', L'.loop rng' fuel k c (c.muons.map p') = .ok (some c') ∧ List.Forall₂ Sw b'.muons c'.muons ∧ (∀ m ∈ b'.muons, m.p ∈ momenta) ∧ (b'.muons.map (·.id)).Nodup := by
  induction fuel with
  | zero =>
    intro k b b' c p p' hp hn h hpp hl
    have hany : (c.muons.map p').any id = (b.muons.map p).any id := by
      clear hl hp hn
      generalize b.muons = bs at *
      generalize c.muons = cs at *
      induction h with
      | nil => rfl
      | cons hr _ ih => simp only [List.map_cons, List.any_cons, hpp _ _ hr, ih]
    unfold PassiveLayer.loop at hl
    split at hl
    · simp at hl
    · rename_i ha
      simp only [Except.ok.injEq, Option.some.injEq] at hl
      subst hl
      refine ⟨fun k i => swDraw False (rng k i), fun k i => mirrored_sw _ _, c, ?_, h, hp, hn⟩
      unfold PassiveLayer.loop
      rw [hany, if_neg ha]
  | succ n ih =>
    intro k b b' c p p' hp hn h hpp hl
    have hany : (c.muons.map p').any id = (b.muons.map p).any id := by
      clear hl hp hn
      generalize b.muons = bs at *
      generalize c.muons = cs at *
      induction h with
      | nil => rfl
      | cons hr _ ih => simp only [List.map_cons, List.any_cons, hpp _ _ hr, ih]
    unfold PassiveLayer.loop at hl
    split at hl
    · rename_i ha
      obtain ⟨b1, h1, hl⟩ := bind_ok hl
      obtain ⟨c1, h1', hsw⟩ := pass_sw hL hs momenta (rng k) (hd k) b b1 c p p' hp hn h hpp h1
      obtain ⟨cons, -⟩ := PassiveLayer.pass_conserves L (rng k) b b1 p h1
      have hsub := cons.order
      have hp1 : ∀ m ∈ b1.muons, m.p ∈ momenta := by
        intro m hm
        obtain ⟨n, hn1, hn2⟩ := List.mem_map.mp (hsub.subset (List.mem_map_of_mem hm))
        have : n.p = m.p := (Prod.ext_iff.mp hn2).2
        rw [← this]
        exact hp n hn1
      have hn1 : (b1.muons.map (·.id)).Nodup := by
        have := (hsub.map Prod.fst)
        rw [List.map_map, List.map_map] at this
        exact hn.sublist this
      obtain ⟨r2, hr2, c', e1, e2, e3, e4⟩ := ih (k + 1) b1 b' c1 L.inside L'.inside hp1 hn1 hsw (fun m m' hm => inside_sw hL hm) hl
      refine ⟨fun j => if j = k then swDraws b.muons (rng k) else r2 j, ?_, c', ?_, e2, e3, e4⟩
      · intro j i
        by_cases hj : j = k
        · subst hj
          simp only [if_true]
          exact mirrored_sw _ _
        · simp only [hj, if_false]
          exact hr2 j i
      · unfold PassiveLayer.loop
        rw [hany, if_pos ha]
        simp only [if_true, h1', bind, Except.bind]
        rw [loop_congr L' _ r2 n (k + 1) c1 _ fun j hj => if_neg (by omega)]
        exact e1
    · rename_i ha
      simp only [Except.ok.injEq, Option.some.injEq] at hl
      subst hl
      refine ⟨fun k i => swDraw False (rng k i), fun k i => mirrored_sw _ _, c, ?_, h, hp, hn⟩
      unfold PassiveLayer.loop
      rw [hany, if_neg ha]

theorem forward_sw {L L' : PassiveLayer} (hL : ExL L L') (hs : 0 < L.size) (momenta : List ℝ) (rng : Nat → Nat → Draw) (hd : ∀ k i, Free L momenta (rng k i)) (fuel : Nat) (b b' c : Batch α)
    (hp : ∀ m ∈ b.muons, m.p ∈ momenta) (hn : (b.muons.map (·.id)).Nodup) (h : List.Forall₂ Sw b.muons c.muons) (hf : L.forward rng fuel b = .ok (some b')) :
    ∃ rng', (∀ k i, Mirrored (rng k i) (rng' k i)) ∧ ∃ c', L'.forward rng' fuel c = .ok (some c') ∧ List.Forall₂ Sw b'.muons c'.muons ∧ (∀ m ∈ b'.muons, m.p ∈ momenta) ∧ (b'.muons.map (·.id)).Nodup := by
  obtain ⟨b2, h2, rfl⟩ := PassiveLayer.forward_inv L rng fuel b b' hf
  have hrep : ∀ (bs : List Muon), List.replicate bs.length true = (bs.map fun m => Batch.propDzRow m (m.z - L.z)).map fun _ => true := by intro bs; simp
  have hpd : ∀ m ∈ ({ b with muons := b.muons.map fun m => Batch.propDzRow m (m.z - L.z) } : Batch α).muons, m.p ∈ momenta := by
    intro m hm
    obtain ⟨n, hn1, rfl⟩ := List.mem_map.mp hm
    exact hp n hn1
  have hnd : (({ b with muons := b.muons.map fun m => Batch.propDzRow m (m.z - L.z) } : Batch α).muons.map (·.id)).Nodup := by
    rw [List.map_map]
    exact hn
  rw [hrep] at h2
  obtain ⟨rng', hr, c2, e1, e2, e3, e4⟩ := loop_sw hL hs momenta rng hd fuel 0 _ b2 { c with muons := c.muons.map fun m => Batch.propDzRow m (m.z - L'.z) } (fun _ => true) (fun _ => true) hpd hnd
    (forall₂_map h fun m _ m' hm => by rw [hL.z, hm.z]; exact propDz_sw hm _) (fun _ _ _ => rfl) h2
  refine ⟨rng', hr, _, PassiveLayer.forward_returns_of L' rng' fuel c (b2 := c2) ?_, ?_, ?_, ?_⟩
  · rw [← e1]
    congr 1
    simp
  · exact forall₂_map e2 fun m _ m' hm => by rw [hL.z, hL.size, hm.z]; exact propDz_sw hm _
  · intro m hm
    obtain ⟨n, hn1, rfl⟩ := List.mem_map.mp hm
    exact e3 n hn1
  · rw [List.map_map]
    exact e4

/-! ### Stacks of layers -/

theorem runLayers_congr (argsort : List ℝ → List Nat) (rng rng' : Nat → Nat → Nat → Draw) (noise : Nat → Nat → Nat → ℝ × ℝ) (fuel : Nat) (ls : List AnyLayer) : ∀ (i : Nat) (b : Batch Row), (∀ j, i ≤ j → rng j = rng' j) →
    Volume.runLayers argsort rng noise fuel i ls b = Volume.runLayers argsort rng' noise fuel i ls b := by
  induction ls with
  | nil => intro i b _; rfl
  | cons l ls ih =>
    intro i b h
    unfold Volume.runLayers
    rw [h i le_rfl]
    cases Volume.layerForward argsort (rng' i) (noise i) fuel b l with
    | error e => rfl
    | ok r =>
      cases r with
      | none => rfl
      | some b' => exact ih (i + 1) _ fun j hj => h j (by omega)

theorem atHeight_sw {m m' : Muon} (h : Sw m m') (z : ℝ) : Sw (atHeight z m) (atHeight z m') := by
  refine ⟨h.id, ?_, ?_, rfl, h.p, h.th, h.cosPh, h.sinPh⟩ <;> simp [atHeight, crossing, h.x, h.y, h.z, h.th, h.cosPh, h.sinPh]

theorem forward_hist (L : PassiveLayer) (rng : Nat → Nat → Draw) (fuel : Nat) (b b' : Batch α) (h : L.forward rng fuel b = .ok (some b')) : b'.hist = b.hist := by
  obtain ⟨b2, h2, rfl⟩ := PassiveLayer.forward_inv L rng fuel b b' h
  have : List.replicate b.muons.length true = (b.muons.map fun m => Batch.propDzRow m (m.z - L.z)).map fun _ => true := by simp
  rw [this] at h2
  exact (PassiveLayer.loop_conserves L rng fuel 0 _ b2 (fun _ => true) h2).2

theorem snapshot_sw {b c : Batch Row} (h : List.Forall₂ Sw b.muons c.muons) (hh : List.Forall₂ (List.Forall₂ SwXyz) b.hist c.hist) : List.Forall₂ (List.Forall₂ SwXyz) b.snapshot.hist c.snapshot.hist := by
  unfold Batch.snapshot
  refine List.rel_append hh (.cons ?_ .nil)
  exact forall₂_map h fun m _ m' hm => by simp [SwXyz, hm.x, hm.y, hm.z]

theorem runLayers_sw (argsort : List ℝ → List Nat) (ha : IsArgsort argsort) (momenta : List ℝ) (rng : Nat → Nat → Nat → Draw) (noise noise' : Nat → Nat → Nat → ℝ × ℝ) (fuel : Nat) (ls ls' : List AnyLayer) (hls : List.Forall₂ ExA ls ls') :
    ∀ (i : Nat) (b b' c : Batch Row), (∀ L, .passive L ∈ ls → ∀ i k j, Free L momenta (rng i k j)) → (∀ m ∈ b.muons, m.p ∈ momenta) → (b.muons.map (·.id)).Nodup → List.Forall₂ Sw b.muons c.muons →
    List.Forall₂ (List.Forall₂ SwXyz) b.hist c.hist → Volume.runLayers argsort rng noise fuel i ls b = .ok (some b') →
    ∃ rng', (∀ i k j, Mirrored (rng i k j) (rng' i k j)) ∧ ∃ c', Volume.runLayers argsort rng' noise' fuel i ls' c = .ok (some c') ∧ List.Forall₂ Sw b'.muons c'.muons ∧ List.Forall₂ (List.Forall₂ SwXyz) b'.hist c'.hist := by
  induction hls with
  | nil =>
    intro i b b' c _ _ _ h hh hr
    simp only [Volume.runLayers, Except.ok.injEq, Option.some.injEq] at hr
    subst hr
    exact ⟨fun i k j => swDraw False (rng i k j), fun i k j => mirrored_sw _ _, c, rfl, h, hh⟩
  | @cons l l' ls ls' hl _ ih =>
    intro i b b' c hfree hp hn h hh hr
    have hr0 := hr
    unfold Volume.runLayers at hr
    have step : ∀ b1, Volume.layerForward argsort (rng i) (noise i) fuel b l = .ok (some b1) → ∃ ri, (∀ k j, Mirrored (rng i k j) (ri k j)) ∧ ∃ c1, Volume.layerForward argsort ri (noise' i) fuel c l' = .ok (some c1) ∧
        List.Forall₂ Sw b1.muons c1.muons ∧ (∀ m ∈ b1.muons, m.p ∈ momenta) ∧ (b1.muons.map (·.id)).Nodup ∧ b1.hist = b.hist ∧ c1.hist = c.hist := by
      intro b1 h1
      cases hl with
      | passive L L' hL hs =>
        obtain ⟨ri, e0, c1, e1, e2, e3, e4⟩ := forward_sw hL hs momenta (rng i) (hfree L (by simp) i) fuel b b1 c hp hn h h1
        exact ⟨ri, e0, c1, e1, e2, e3, e4, forward_hist L _ fuel b b1 h1, forward_hist L' _ fuel c c1 e1⟩
      | detector D D' hz hsz hresp =>
        have hD := run_responds argsort ha rng noise fuel _ i b b' hr0 D (by simp)
        obtain ⟨b2, _, f1, _, _, _, m1, _, g1, _⟩ := C13.layer_spec argsort ha (noise i) D b hD
        obtain ⟨c2, _, f2, _, _, _, m2, _, g2, _⟩ := C13.layer_spec argsort ha (noise' i) D' c hresp
        simp only [Volume.layerForward, f1, Except.ok.injEq, Option.some.injEq] at h1
        subst h1
        refine ⟨fun k j => swDraw False (rng i k j), fun k j => mirrored_sw _ _, c2, by simp only [Volume.layerForward, f2], ?_, ?_, ?_, g1, g2⟩
        · rw [m1, m2, hz, hsz]
          exact forall₂_map h fun m _ m' hm => atHeight_sw hm _
        · rw [m1]
          intro m hm
          obtain ⟨n, hn1, rfl⟩ := List.mem_map.mp hm
          exact hp n hn1
        · rw [m1, List.map_map]
          exact hn
    cases hb : Volume.layerForward argsort (rng i) (noise i) fuel b l with
    | error e => rw [hb] at hr; simp at hr
    | ok r =>
      cases r with
      | none => rw [hb] at hr; simp at hr
      | some b1 =>
        rw [hb] at hr
        simp only at hr
        obtain ⟨ri, r0, c1, r1, r2, r3, r4, r5, r6⟩ := step b1 hb
        obtain ⟨rs, s0, c', s1, s2, s3⟩ := ih (i + 1) b1.snapshot b' c1.snapshot (fun L hL => hfree L (by simp [hL])) r3 r4 r2 (snapshot_sw r2 (by rw [r5, r6]; exact hh)) hr
        refine ⟨fun j => if j = i then ri else rs j, ?_, c', ?_, s2, s3⟩
        · intro j k n
          by_cases hj : j = i
          · subst hj
            simp only [if_true]
            exact r0 k n
          · simp only [hj, if_false]
            exact s0 j k n
        · unfold Volume.runLayers
          simp only [if_true, r1]
          rw [runLayers_congr argsort _ rs noise' fuel ls' (i + 1) c1.snapshot fun j hj => if_neg (by omega)]
          exact s1

end Exchange

end

end Tomopt
