import Verif.Lemmas.MuonExec
import Verif.Props.C01_02

/- C124: what calls on a batch of muons leave behind when they fail. -/
namespace Tomopt

noncomputable section
open Batch

variable {α : Type}

namespace C124

theorem countTrue_count (m : List Bool) : countTrue m = m.count true := by
  unfold countTrue
  rw [← List.countP_eq_length_filter, List.count]
  congr 1
  funext x; cases x <;> rfl

theorem count_replicate (n : Nat) : countTrue (List.replicate n true) = n := by
  rw [countTrue_count]; simp

theorem fits_iff (b : Batch α) (mask : Option (List Bool)) (a : Arg) :
    a.Fits b.muons.length mask ↔ (b.maskOr mask).length = b.muons.length ∧ (a.size = 1 ∨ a.size = countTrue (b.maskOr mask)) := by
  cases mask with
  | none => simp [Arg.Fits, maskOr, count_replicate]
  | some m => simp [Arg.Fits, maskOr, countTrue_count]

theorem upd_ok (b : Batch α) (mask : Option (List Bool)) {ms : List Muon} (hl : ms.length = b.muons.length) (a : Option Arg) (f : Muon → ℝ → Muon) :
    (∃ ms', updExec (b.maskOr mask) ms a f = .ok ms') ↔ ∀ x, a = some x → x.Fits b.muons.length mask := by
  rw [updExec_ok, hl]
  simp only [fits_iff]

theorem resolve_ok (n : Nat) (mask : Option (List Bool)) : (∃ m, resolveMask n mask = .ok m) ↔ MaskFits n mask := by
  cases mask with
  | none => simp [resolveMask, MaskFits]
  | some m => by_cases h : m.length = n <;> simp [resolveMask, MaskFits, h]

theorem resolve_eq {b : Batch α} {mask : Option (List Bool)} {m : List Bool} (h : resolveMask b.muons.length mask = .ok m) :
    m = b.maskOr mask ∧ m.length = b.muons.length := by
  cases mask with
  | none => simp [resolveMask] at h; subst h; simp [maskOr]
  | some k =>
    simp only [resolveMask] at h
    split at h
    · simp at h; subst h; rename_i hk; exact ⟨rfl, hk⟩
    · simp at h

theorem not_ok {β : Type} {e : Except Err β} (h : ¬∃ v, e = .ok v) : ∃ x, e = .error x := by
  cases e with
  | error x => exact ⟨x, rfl⟩
  | ok v => exact absurd ⟨v, rfl⟩ h

theorem ok_or {β : Type} (e : Except Err β) : (∃ v, e = .ok v) ∨ ∃ x, e = .error x := by
  cases e with
  | error x => exact .inr ⟨x, rfl⟩
  | ok v => exact .inl ⟨v, rfl⟩

/-- **C124: which calls fail.** If every tensor of hits has one row per muon, a call fails exactly if its mask or one of its arguments has an unsuitable
length. -/
theorem fails (b : Batch α) (hw : Whole b.muons.length b.hits) (op : MuOp α) : (b.exec op).2 = none ↔ Suitable b.muons.length op := by
  cases op with
  | snap => simp [exec, Suitable]
  | append h p => simp [exec, Suitable]
  | dxyz dx dy dz mask =>
    simp only [exec, Suitable, dxyzExec]
    rw [← upd_ok b mask rfl dx fun m v => { m with x := m.x + v }]
    rcases ok_or (updExec (b.maskOr mask) b.muons dx fun m v => { m with x := m.x + v }) with ⟨m1, h1⟩ | ⟨e, h1⟩
    · have l1 := updExec_len h1
      rw [← upd_ok b mask l1 dy fun m v => { m with y := m.y + v }, h1]
      rcases ok_or (updExec (b.maskOr mask) m1 dy fun m v => { m with y := m.y + v }) with ⟨m2, h2⟩ | ⟨e, h2⟩
      · have l2 := updExec_len h2
        rw [← upd_ok b mask (l2.trans l1) dz fun m v => { m with z := m.z + v }]
        simp only [h2]
        rcases ok_or (updExec (b.maskOr mask) m2 dz fun m v => { m with z := m.z + v }) with ⟨m3, h3⟩ | ⟨e, h3⟩
        · simp [h3]
        · simp [h3]
      · simp [h2]
    · simp [h1]
  | dthetaDphi dth dph mask =>
    simp only [exec, Suitable, dthetaDphiExec]
    rw [← upd_ok b mask rfl dph addPhi]
    rcases ok_or (updExec (b.maskOr mask) b.muons dph addPhi) with ⟨m1, h1⟩ | ⟨e, h1⟩
    · have l1 := updExec_len h1
      rw [← upd_ok b mask l1 dth addTheta, h1]
      rcases ok_or (updExec (b.maskOr mask) m1 dth addTheta) with ⟨m2, h2⟩ | ⟨e, h2⟩
      · have l2 := updExec_len h2
        simp only [h2]
        rw [filterExec_up b _ (by simp [l2, l1]) hw]
        simp
      · simp [h2]
    · simp [h1]
  | dthetaXY dtx dty mask =>
    simp only [exec, Suitable, dthetaXYExec]
    rw [← resolve_ok]
    rcases ok_or (resolveMask b.muons.length mask) with ⟨m, hm⟩ | ⟨e, hm⟩
    · obtain ⟨em, lm⟩ := resolve_eq hm
      have key : ∀ a : Option Arg, (∃ xs, optArg a (countTrue m) = .ok xs) ↔ ∀ x, a = some x → x.Fits b.muons.length mask := by
        intro a
        cases a with
        | none => simp [optArg]
        | some x =>
          simp only [optArg, Option.some.injEq, forall_eq', fits_iff, ← em, lm, true_and]
          exact expand_iff x _
      rw [← key, ← key, hm]
      rcases ok_or (optArg dtx (countTrue m)) with ⟨xs, hx⟩ | ⟨e, hx⟩
      · rcases ok_or (optArg dty (countTrue m)) with ⟨ys, hy⟩ | ⟨e, hy⟩
        · simp only [hx, hy]
          rw [filterExec_up b _ (by simp) hw]
          simp
        · simp [hx, hy]
      · simp [hx]
    · simp [hm]
  | filter keep =>
    simp only [exec, Suitable]
    rw [filterExec_filter b keep hw]
    unfold filterMuons
    rw [countTrue_count]
    by_cases h1 : keep.count true < b.muons.length
    · by_cases h2 : keep.length = b.muons.length
      · simp [h1, h2]
      · simp [h1, h2]
    · simp [h1, not_lt.mp h1]
  | propDz d mask =>
    simp only [exec, Suitable, propExec]
    exact prop_ok d mask propDzRow
  | propD d mask =>
    simp only [exec, Suitable, propExec]
    exact prop_ok d mask propDRow
where
  prop_ok (d : Arg) (mask : Option (List Bool)) (row : Muon → ℝ → Muon) : (b.propExec row d mask).2 = none ↔ d.Fits b.muons.length mask := by
    unfold propExec
    rw [fits_iff]
    rcases ok_or (resolveMask b.muons.length mask) with ⟨m, hm⟩ | ⟨e, hm⟩
    · obtain ⟨em, lm⟩ := resolve_eq hm
      rw [← em, ← expand_iff, hm]
      rcases ok_or (d.expand (countTrue m)) with ⟨vs, hv⟩ | ⟨e, hv⟩
      · simp [hv, lm]
      · simp [hv]
    · have : ¬(b.maskOr mask).length = b.muons.length := by
        cases mask with
        | none => simp [resolveMask] at hm
        | some k =>
          intro h
          simp only [maskOr, Option.getD_some] at h
          simp [resolveMask, h] at hm
      simp [hm, this]

/-- Calls that move or turn muons in several ways, one after the other. -/
def Several : MuOp α → Prop
  | .dxyz _ _ _ _ => True
  | .dthetaDphi _ _ _ => True
  | _ => False

/-- **C124: failed calls.** A call other than `scatter_dxyz` and `scatter_dtheta_dphi` that fails leaves the batch as it was. -/
theorem kept (b : Batch α) (hw : Whole b.muons.length b.hits) (op : MuOp α) (hs : ¬Several op) (hf : (b.exec op).2 ≠ none) : (b.exec op).1 = b := by
  cases op with
  | snap => simp [exec] at hf
  | append h p => simp [exec] at hf
  | dxyz dx dy dz mask => exact absurd trivial hs
  | dthetaDphi dth dph mask => exact absurd trivial hs
  | dthetaXY dtx dty mask =>
    simp only [exec, dthetaXYExec] at hf ⊢
    rcases ok_or (resolveMask b.muons.length mask) with ⟨m, hm⟩ | ⟨e, hm⟩
    · rcases ok_or (optArg dtx (countTrue m)) with ⟨xs, hx⟩ | ⟨e, hx⟩
      · rcases ok_or (optArg dty (countTrue m)) with ⟨ys, hy⟩ | ⟨e, hy⟩
        · simp only [hm, hx, hy] at hf
          rw [filterExec_up b _ (by simp) hw] at hf
          exact absurd rfl hf
        · simp [hm, hx, hy]
      · simp [hm, hx]
    · simp [hm]
  | filter keep =>
    simp only [exec] at hf ⊢
    rw [filterExec_filter b keep hw] at hf ⊢
    cases h : b.filterMuons keep with
    | ok b' => simp [h] at hf
    | error e => rfl
  | propDz d mask => exact prop d mask propDzRow hf
  | propD d mask => exact prop d mask propDRow hf
where
  prop (d : Arg) (mask : Option (List Bool)) (row : Muon → ℝ → Muon) (hf : (b.propExec row d mask).2 ≠ none) : (b.propExec row d mask).1 = b := by
    unfold propExec at hf ⊢
    rcases ok_or (resolveMask b.muons.length mask) with ⟨m, hm⟩ | ⟨e, hm⟩
    · rcases ok_or (d.expand (countTrue m)) with ⟨vs, hv⟩ | ⟨e, hv⟩
      · simp [hm, hv] at hf
      · simp [hm, hv]
    · simp [hm]

/-- Arguments of the same length are all suitable or all unsuitable. -/
theorem same_size {n : Nat} {mask : Option (List Bool)} {a c : Arg} (h : a.size = c.size) : a.Fits n mask ↔ c.Fits n mask := by
  unfold Arg.Fits; rw [h]

/-- **C124: failed calls with arguments of equal lengths.** A call of `scatter_dxyz` or `scatter_dtheta_dphi` whose arguments have equal lengths leaves the
batch as it was if it fails. In particular, this holds for calls with one argument. -/
theorem kept_alike (b : Batch α) (hw : Whole b.muons.length b.hits) (k : Nat) (mask : Option (List Bool)) :
    (∀ dx dy dz : Option Arg, (∀ a, dx = some a ∨ dy = some a ∨ dz = some a → a.size = k) → (b.exec (.dxyz dx dy dz mask)).2 ≠ none →
      (b.exec (.dxyz dx dy dz mask)).1 = b) ∧
    (∀ dth dph : Option Arg, (∀ a, dth = some a ∨ dph = some a → a.size = k) → (b.exec (.dthetaDphi dth dph mask)).2 ≠ none →
      (b.exec (.dthetaDphi dth dph mask)).1 = b) := by
  refine ⟨fun dx dy dz hk hf => ?_, fun dth dph hk hf => ?_⟩
  · have hn := fun h => hf ((fails b hw _).mpr h)
    -- one argument is unsuitable, so all are
    have hall : ∀ a, dx = some a ∨ dy = some a ∨ dz = some a → ¬a.Fits b.muons.length mask := by
      intro a ha hfit
      refine hn ⟨fun c hc => ?_, fun c hc => ?_, fun c hc => ?_⟩ <;>
        exact (same_size ((hk a ha).trans (hk c (by simp [hc])).symm)).mp hfit
    have step : ∀ (a : Option Arg) (f : Muon → ℝ → Muon), (∀ x, a = some x → ¬x.Fits b.muons.length mask) →
        updExec (b.maskOr mask) b.muons a f = .ok b.muons ∨ ∃ e, updExec (b.maskOr mask) b.muons a f = .error e := by
      intro a f ha
      cases a with
      | none => left; rfl
      | some x =>
        right
        refine not_ok fun h => ?_
        exact ha x rfl ((upd_ok b mask rfl (some x) f).mp h x rfl)
    simp only [exec, dxyzExec] at hf ⊢
    rcases step dx (fun m v => { m with x := m.x + v }) fun x hx => hall x (by simp [hx]) with h1 | ⟨e, h1⟩
    · rcases step dy (fun m v => { m with y := m.y + v }) fun x hx => hall x (by simp [hx]) with h2 | ⟨e, h2⟩
      · rcases step dz (fun m v => { m with z := m.z + v }) fun x hx => hall x (by simp [hx]) with h3 | ⟨e, h3⟩
        · simp [h1, h2, h3] at hf
        · simp [h1, h2, h3]
      · simp [h1, h2]
    · simp [h1]
  · have hn := fun h => hf ((fails b hw _).mpr h)
    have hall : ∀ a, dth = some a ∨ dph = some a → ¬a.Fits b.muons.length mask := by
      intro a ha hfit
      refine hn ⟨fun c hc => ?_, fun c hc => ?_⟩ <;>
        exact (same_size ((hk a ha).trans (hk c (by simp [hc])).symm)).mp hfit
    simp only [exec, dthetaDphiExec] at hf ⊢
    cases dph with
    | none =>
      cases dth with
      | none => exact absurd ⟨by simp, by simp⟩ hn
      | some x =>
        have : ∃ e, updExec (b.maskOr mask) b.muons (some x) addTheta = .error e :=
          not_ok fun h => hall x (by simp) ((upd_ok b mask rfl (some x) addTheta).mp h x rfl)
        obtain ⟨e, he⟩ := this
        have h0 : updExec (b.maskOr mask) b.muons none addPhi = .ok b.muons := rfl
        simp [h0, he]
    | some x =>
      have : ∃ e, updExec (b.maskOr mask) b.muons (some x) addPhi = .error e :=
        not_ok fun h => hall x (by simp) ((upd_ok b mask rfl (some x) addPhi).mp h x rfl)
      obtain ⟨e, he⟩ := this
      simp [he]

/-- **C124: half-done calls.** A displacement in x and y of which only the part in x has a suitable length fails after the muons have been displaced in x. A
change of theta and phi of which only the part in phi has a suitable length fails after the muons have been turned in phi, and removes none of them. -/
theorem half (b : Batch α) (mask : Option (List Bool)) (a c : Arg) (ha : a.Fits b.muons.length mask) (hc : ¬c.Fits b.muons.length mask) :
    (∀ dz, ∃ e, b.exec (.dxyz (some a) (some c) dz mask) = ((b.exec (.dxyz (some a) none none mask)).1, some e)) ∧
    (∃ e b1, b.exec (.dthetaDphi (some c) (some a) mask) = (b1, some e) ∧ b1.muons.length = b.muons.length ∧ b1.removed = b.removed ∧ b1.hits = b.hits ∧
      ∃ vs, a.expand (countTrue (b.maskOr mask)) = .ok vs ∧ b1.muons = maskedUpd (b.maskOr mask) b.muons vs fun m v => { m with ph := pmod (m.ph + v) (2 * Real.pi) }) := by
  refine ⟨fun dz => ?_, ?_⟩
  · obtain ⟨m1, h1⟩ := (upd_ok b mask rfl (some a) fun m v => { m with x := m.x + v }).mpr (by rintro x hx; rw [← Option.some.inj hx]; exact ha)
    obtain ⟨e, h2⟩ := not_ok (e := updExec (b.maskOr mask) m1 (some c) fun m v => { m with y := m.y + v }) fun h => hc ((upd_ok b mask (updExec_len h1) _ _).mp h c rfl)
    refine ⟨e, ?_⟩
    have h3 : ∀ f, updExec (b.maskOr mask) m1 none f = .ok m1 := fun _ => rfl
    simp only [exec, dxyzExec, h1, h2, h3]
  · obtain ⟨m1, h1⟩ := (upd_ok b mask rfl (some a) addPhi).mpr (by rintro x hx; rw [← Option.some.inj hx]; exact ha)
    obtain ⟨e, h2⟩ := not_ok (e := updExec (b.maskOr mask) m1 (some c) addTheta) fun h => hc ((upd_ok b mask (updExec_len h1) _ _).mp h c rfl)
    obtain ⟨vs, hvs⟩ := (expand_iff a (countTrue (b.maskOr mask))).mpr ((fits_iff b mask a).mp ha).2
    refine ⟨e, { b with muons := m1 }, ?_, updExec_len h1, rfl, rfl, vs, hvs, ?_⟩
    · simp only [exec, dthetaDphiExec, h1, h2]
    · rw [updExec_opt ((fits_iff b mask a).mp ha).1] at h1
      simp only [optUpd, hvs, bind, Except.bind, Except.ok.injEq] at h1
      exact h1.symm

/-! ### Programs that go on after failures -/

theorem same_refl (b : Batch α) : Same b b := ⟨rfl, rfl, rfl⟩

/-- What any call does to muons and hits, whether it fails or not. -/
theorem exec_cases (b : Batch α) (hw : Whole b.muons.length b.hits) (op : MuOp α) (hna : ∀ hits pos, op ≠ .append hits pos) :
    Same b (b.exec op).1 ∨ ∃ keep, Filtered b (b.exec op).1 keep := by
  cases op with
  | append hits pos => exact absurd rfl (hna hits pos)
  | snap => left; exact ⟨rfl, rfl, rfl⟩
  | dxyz dx dy dz mask =>
    left
    simp only [exec, dxyzExec]
    rcases ok_or (updExec (b.maskOr mask) b.muons dx fun m v => { m with x := m.x + v }) with ⟨m1, h1⟩ | ⟨e, h1⟩
    · have k1 := updExec_keys (by intro _ _; rfl) h1
      rcases ok_or (updExec (b.maskOr mask) m1 dy fun m v => { m with y := m.y + v }) with ⟨m2, h2⟩ | ⟨e, h2⟩
      · have k2 := (updExec_keys (by intro _ _; rfl) h2).trans k1
        rcases ok_or (updExec (b.maskOr mask) m2 dz fun m v => { m with z := m.z + v }) with ⟨m3, h3⟩ | ⟨e, h3⟩
        · simp only [h1, h2, h3]
          exact ⟨(updExec_keys (by intro _ _; rfl) h3).trans k2, rfl, rfl⟩
        · simp only [h1, h2, h3]
          exact ⟨k2, rfl, rfl⟩
      · simp only [h1, h2]
        exact ⟨k1, rfl, rfl⟩
    · simp only [h1]
      exact same_refl b
  | dthetaDphi dth dph mask =>
    simp only [exec, dthetaDphiExec]
    rcases ok_or (updExec (b.maskOr mask) b.muons dph addPhi) with ⟨m1, h1⟩ | ⟨e, h1⟩
    · have k1 := updExec_keys (by intro _ _; rfl) h1
      rcases ok_or (updExec (b.maskOr mask) m1 dth addTheta) with ⟨m2, h2⟩ | ⟨e, h2⟩
      · have k2 := (updExec_keys addTheta_key h2).trans k1
        simp only [h1, h2]
        rw [filterExec_up b _ (by simp [updExec_len h2, updExec_len h1]) hw]
        exact removeUpwards_cases b _ (by rw [toRaw_keys]; exact k2)
      · simp only [h1, h2]
        left
        exact ⟨k1, rfl, rfl⟩
    · simp only [h1]
      left
      exact same_refl b
  | dthetaXY dtx dty mask =>
    simp only [exec, dthetaXYExec]
    rcases ok_or (resolveMask b.muons.length mask) with ⟨m, hm⟩ | ⟨e, hm⟩
    · rcases ok_or (optArg dtx (countTrue m)) with ⟨xs, hx⟩ | ⟨e, hx⟩
      · rcases ok_or (optArg dty (countTrue m)) with ⟨ys, hy⟩ | ⟨e, hy⟩
        · simp only [hm, hx, hy]
          rw [filterExec_up b _ (by simp) hw]
          apply removeUpwards_cases
          rw [maskedUpd_map_eq (fun m : RawMuon => (m.id, m.p)) _ (fun m d => scatterXYRow_key m d.1 d.2), toRaw_keys]
        · simp only [hm, hx, hy]; left; exact same_refl b
      · simp only [hm, hx]; left; exact same_refl b
    · simp only [hm]; left; exact same_refl b
  | filter keep =>
    simp only [exec]
    rw [filterExec_filter b keep hw]
    cases h : b.filterMuons keep with
    | error e => left; exact same_refl b
    | ok b' => exact step_cases (op := .filter keep) h (by intro _ _; simp)
  | propDz d mask => left; exact prop d mask propDzRow fun _ _ => rfl
  | propD d mask => left; exact prop d mask propDRow fun _ _ => rfl
where
  prop (d : Arg) (mask : Option (List Bool)) (row : Muon → ℝ → Muon) (hr : ∀ m v, ((row m v).id, (row m v).p) = (m.id, m.p)) : Same b (b.propExec row d mask).1 := by
    unfold propExec
    rcases ok_or (resolveMask b.muons.length mask) with ⟨m, hm⟩ | ⟨e, hm⟩
    · rcases ok_or (d.expand (countTrue m)) with ⟨vs, hv⟩ | ⟨e, hv⟩
      · simp only [hm, hv]
        exact ⟨maskedUpd_map_eq _ _ hr _ _ _, rfl, rfl⟩
      · simp only [hm, hv]; exact same_refl b
    · simp only [hm]; exact same_refl b

/-- Muons and removed muons do not depend on the hits. -/
theorem filter_hitless (b : Batch α) (raws : List RawMuon) (keep : List Bool) :
    (b.filterExec raws keep).1.muons = (({ b with hits := [] } : Batch α).filterExec raws keep).1.muons ∧
    (b.filterExec raws keep).1.removed = (({ b with hits := [] } : Batch α).filterExec raws keep).1.removed := by
  unfold filterExec
  by_cases h1 : countTrue keep < raws.length
  · by_cases h2 : keep.length = raws.length
    · simp [h1, h2]
    · simp [h1, h2]
  · simp [h1]

theorem exec_hitless (b : Batch α) (op : MuOp α) : (b.exec op).1.muons = (({ b with hits := [] } : Batch α).exec op).1.muons ∧
    (b.exec op).1.removed = (({ b with hits := [] } : Batch α).exec op).1.removed := by
  cases op with
  | append hits pos => exact ⟨rfl, rfl⟩
  | snap => exact ⟨rfl, rfl⟩
  | filter keep => exact filter_hitless b _ keep
  | dxyz dx dy dz mask =>
    have e : ({ b with hits := [] } : Batch α).maskOr mask = b.maskOr mask := rfl
    simp only [exec, dxyzExec, e]
    rcases ok_or (updExec (b.maskOr mask) b.muons dx fun m v => { m with x := m.x + v }) with ⟨m1, h1⟩ | ⟨e, h1⟩
    · rcases ok_or (updExec (b.maskOr mask) m1 dy fun m v => { m with y := m.y + v }) with ⟨m2, h2⟩ | ⟨e, h2⟩
      · rcases ok_or (updExec (b.maskOr mask) m2 dz fun m v => { m with z := m.z + v }) with ⟨m3, h3⟩ | ⟨e, h3⟩ <;> simp [h1, h2, h3]
      · simp [h1, h2]
    · simp [h1]
  | dthetaDphi dth dph mask =>
    have e : ({ b with hits := [] } : Batch α).maskOr mask = b.maskOr mask := rfl
    simp only [exec, dthetaDphiExec, e]
    rcases ok_or (updExec (b.maskOr mask) b.muons dph addPhi) with ⟨m1, h1⟩ | ⟨e, h1⟩
    · rcases ok_or (updExec (b.maskOr mask) m1 dth addTheta) with ⟨m2, h2⟩ | ⟨e, h2⟩
      · simp only [h1, h2]
        exact filter_hitless b _ _
      · simp [h1, h2]
    · simp [h1]
  | dthetaXY dtx dty mask =>
    simp only [exec, dthetaXYExec]
    rcases ok_or (resolveMask b.muons.length mask) with ⟨m, hm⟩ | ⟨e, hm⟩
    · rcases ok_or (optArg dtx (countTrue m)) with ⟨xs, hx⟩ | ⟨e, hx⟩
      · rcases ok_or (optArg dty (countTrue m)) with ⟨ys, hy⟩ | ⟨e, hy⟩
        · simp only [hm, hx, hy]
          exact filter_hitless b _ _
        · simp [hm, hx, hy]
      · simp [hm, hx]
    · simp [hm]
  | propDz d mask => exact prop d mask propDzRow
  | propD d mask => exact prop d mask propDRow
where
  prop (d : Arg) (mask : Option (List Bool)) (row : Muon → ℝ → Muon) :
      (b.propExec row d mask).1.muons = (({ b with hits := [] } : Batch α).propExec row d mask).1.muons ∧
      (b.propExec row d mask).1.removed = (({ b with hits := [] } : Batch α).propExec row d mask).1.removed := by
    unfold propExec
    rcases ok_or (resolveMask b.muons.length mask) with ⟨m, hm⟩ | ⟨e, hm⟩
    · rcases ok_or (d.expand (countTrue m)) with ⟨vs, hv⟩ | ⟨e, hv⟩ <;> simp [hm, hv]
    · simp [hm]

/-- **C124: no muon is lost.** Whatever calls fail, and whatever the hits are: the muons of the batch and the removed ones together are those there were at
the start, those of the batch are in their old order, and removed muons stay removed. -/
theorem conserved (b : Batch α) (ops : List (MuOp α)) :
    List.Perm ((b.execAll ops).muons.map (fun m => (m.id, m.p)) ++ (b.execAll ops).removed.map fun m => (m.id, m.p))
        (b.muons.map (fun m => (m.id, m.p)) ++ b.removed.map fun m => (m.id, m.p)) ∧
    List.Sublist ((b.execAll ops).muons.map fun m => (m.id, m.p)) (b.muons.map fun m => (m.id, m.p)) ∧
    b.removed <+: (b.execAll ops).removed := by
  induction ops generalizing b with
  | nil => exact ⟨List.Perm.refl _, List.Sublist.refl _, List.prefix_refl _⟩
  | cons op ops ih =>
    obtain ⟨p1, s1, r1⟩ := ih (b.exec op).1
    have one : List.Perm ((b.exec op).1.muons.map (fun m => (m.id, m.p)) ++ (b.exec op).1.removed.map fun m => (m.id, m.p))
        (b.muons.map (fun m => (m.id, m.p)) ++ b.removed.map fun m => (m.id, m.p)) ∧
        List.Sublist ((b.exec op).1.muons.map fun m => (m.id, m.p)) (b.muons.map fun m => (m.id, m.p)) ∧
        b.removed <+: (b.exec op).1.removed := by
      by_cases hap : ∃ hits p, op = .append hits p
      · obtain ⟨hits, p, rfl⟩ := hap
        exact ⟨List.Perm.refl _, List.Sublist.refl _, List.prefix_refl _⟩
      · obtain ⟨e1, e2⟩ := exec_hitless b op
        rw [e1, e2]
        have hw : Whole b.muons.length ({ b with hits := [] } : Batch α).hits := by intro pv hpv; simp at hpv
        rcases exec_cases { b with hits := [] } hw op (fun hits p h => hap ⟨hits, p, h⟩) with hsame | ⟨keep, hf⟩
        · rw [hsame.keys, hsame.removed]
          exact ⟨List.Perm.refl _, List.Sublist.refl _, List.prefix_refl _⟩
        · obtain ⟨rs, hrs, hrk⟩ := hf.gone
          rw [hf.kept, hrs]
          refine ⟨?_, pick_sublist _ _, List.prefix_append _ _⟩
          rw [List.map_append, hrk]
          have hp := pick_append_inv_perm keep (b.muons.map fun m => (m.id, m.p)) (by simpa using hf.len)
          refine List.Perm.trans ?_ (hp.append_right _)
          rw [List.append_assoc]
          exact (List.perm_append_comm).append_left _
    exact ⟨p1.trans one.1, s1.trans one.2.1, one.2.2.trans r1⟩

theorem whole_append {n : Nat} {hits : Dict String (Dict String (List (List α)))} (h : Whole n hits) (p : String) :
    ∀ (new : Dict String (List α)), (∀ kv ∈ new, kv.2.length = n) →
      Whole n (new.foldl (fun acc kv => acc.modify p [] fun vars => vars.modify kv.1 [] fun tensors => tensors ++ [kv.2]) hits) := by
  intro new
  induction new generalizing hits with
  | nil => intro _; simpa using h
  | cons kv new ih =>
    intro hl
    simp only [List.foldl_cons]
    refine ih ?_ (fun kv' h' => hl kv' (by simp [h']))
    have hkv := hl kv (by simp)
    have inner : ∀ vars : Dict String (List (List α)), (∀ vt ∈ vars, ∀ t ∈ vt.2, t.length = n) →
        ∀ vt ∈ Dict.modify vars kv.1 [] (fun ts => ts ++ [kv.2]), ∀ t ∈ vt.2, t.length = n := by
      intro vars hv vt hvt
      rcases Dict.mem_modify hvt with h1 | h1 | ⟨x, hx, h1⟩
      · exact hv vt h1
      · rw [h1]; simpa using hkv
      · rw [h1]
        intro t ht
        rcases List.mem_append.mp ht with h2 | h2
        · exact hv x hx t h2
        · simp at h2; rw [h2]; exact hkv
    intro pv hpv
    rcases Dict.mem_modify hpv with h1 | h1 | ⟨x, hx, h1⟩
    · exact h pv h1
    · rw [h1]; exact inner [] (by simp)
    · rw [h1]; exact inner x.2 (h x hx)

theorem whole_filter {n : Nat} {hits : Dict String (Dict String (List (List α)))} (h : Whole n hits) {keep : List Bool} (hk : keep.length = n) :
    Whole (countTrue keep) (filterHits hits keep) := by
  intro pv hpv vt hvt t ht
  simp only [filterHits, Dict.mapVals, List.mem_map] at hpv
  obtain ⟨x, hx, rfl⟩ := hpv
  simp only [List.mem_map] at hvt
  obtain ⟨y, hy, rfl⟩ := hvt
  simp only [List.mem_map] at ht
  obtain ⟨u, hu, rfl⟩ := ht
  exact pick_length keep u (hk.trans (h x hx y hy u hu).symm)

theorem whole_exec (b : Batch α) (hw : Whole b.muons.length b.hits) (op : MuOp α) (ha : AlignedOp b op) : Whole (b.exec op).1.muons.length (b.exec op).1.hits := by
  by_cases hap : ∃ hits p, op = .append hits p
  · obtain ⟨hits, p, rfl⟩ := hap
    exact whole_append hw p hits ha
  · rcases exec_cases b hw op (fun hits p h => hap ⟨hits, p, h⟩) with hs | ⟨keep, hf⟩
    · have := congrArg List.length hs.keys
      simp only [List.length_map] at this
      rw [this, hs.hits]; exact hw
    · have hl := congrArg List.length hf.kept
      rw [pick_length _ _ (by simpa using hf.len)] at hl
      simp only [List.length_map] at hl
      rw [hl, hf.hits]; exact whole_filter hw hf.len

/-- **C124: hits follow their muons.** Whatever calls fail: if every recording supplies one row per muon present, the stored tensors are exactly the recorded
ones, with one row per muon of the batch, and the row at the place of a muon is the one recorded for that very muon. -/
theorem hits_follow (b : Batch α) (ops : List (MuOp α)) (h0 : b.hits = []) (hn : b.ids.Nodup) (ha : AlignedAll b ops) (pos var : String) :
    ((b.execAll ops).tensors pos var).map (·.map some) = (recordedAll pos var b ops).map fun rec => (b.execAll ops).muons.map fun m => rec.lookup m.id := by
  have key : ∀ (ops : List (MuOp α)) (b : Batch α) (log : List (List (Nat × α))), Whole b.muons.length b.hits → b.ids.Nodup → AlignedAll b ops → C01.Inv b pos var log →
      C01.Inv (b.execAll ops) pos var (log ++ recordedAll pos var b ops) := by
    intro ops
    induction ops with
    | nil => intro b log _ _ _ hi; simpa [recordedAll, execAll] using hi
    | cons op ops ih =>
      intro b log hw hn ha hi
      have hx : (b.exec op).1.ids.Nodup ∧ C01.Inv (b.exec op).1 pos var (log ++ recordedBy b pos var op) := by
        by_cases hap : ∃ hits p, op = .append hits p
        · obtain ⟨hits, p, rfl⟩ := hap
          exact C01.inv_step (op := .append hits p) hn rfl ha.1 hi
        · have hna : ∀ hits p, op ≠ .append hits p := fun hits p h => hap ⟨hits, p, h⟩
          have hrec : recordedBy b pos var op = [] := by
            cases op <;> first | rfl | exact absurd rfl (hna _ _)
          rw [hrec, List.append_nil]
          exact C01.inv_cases hn (exec_cases b hw op hna) hi
      have := ih (b.exec op).1 _ (whole_exec b hw op ha.1) hx.1 ha.2 hx.2
      rwa [List.append_assoc] at this
  have h1 : C01.Inv b pos var [] := by simp [C01.Inv, Batch.tensors, h0, Dict.get?]
  have := key ops b [] (by rw [h0]; intro pv hpv; simp at hpv) hn ha h1
  simpa [C01.Inv, Batch.ids, Function.comp_def] using this

/-- Something is to be changed, so that the mask is looked at. -/
def Given : MuOp α → Prop
  | .dxyz dx dy dz _ => dx ≠ none ∨ dy ≠ none ∨ dz ≠ none
  | .dthetaDphi dth dph _ => dth ≠ none ∨ dph ≠ none
  | _ => True

/-- **C124: calls that succeed.** Calls succeed or fail, with the same exception and the same batch if they succeed, as in the model that stops at the first
failure. -/
theorem agrees (b : Batch α) (hw : Whole b.muons.length b.hits) (op : MuOp α) (hg : Given op) :
    (∀ b', b.step op = .ok b' → b.exec op = (b', none)) ∧ (∀ e, b.step op = .error e → ∃ c, b.exec op = (c, some e)) := by
  cases op with
  | append hits pos => exact ⟨fun b' h => by simp [Batch.step] at h; subst h; rfl, fun e h => by simp [Batch.step] at h⟩
  | snap => exact ⟨fun b' h => by simp [Batch.step] at h; subst h; rfl, fun e h => by simp [Batch.step] at h⟩
  | filter keep =>
    simp only [Batch.step, exec]
    rw [filterExec_filter b keep hw]
    exact ⟨fun b' h => by rw [h], fun e h => ⟨b, by rw [h]⟩⟩
  | propDz d mask =>
    simp only [Batch.step, exec, propagateDz, propExec]
    rcases ok_or (resolveMask b.muons.length mask) with ⟨m, hm⟩ | ⟨e, hm⟩
    · rcases ok_or (d.expand (countTrue m)) with ⟨vs, hv⟩ | ⟨e, hv⟩ <;> simp [hm, hv, bind, Except.bind]
    · simp [hm, bind, Except.bind]
  | propD d mask =>
    simp only [Batch.step, exec, propagateD, propExec]
    rcases ok_or (resolveMask b.muons.length mask) with ⟨m, hm⟩ | ⟨e, hm⟩
    · rcases ok_or (d.expand (countTrue m)) with ⟨vs, hv⟩ | ⟨e, hv⟩ <;> simp [hm, hv, bind, Except.bind]
    · simp [hm, bind, Except.bind]
  | dthetaXY dtx dty mask =>
    simp only [Batch.step, exec, scatterDthetaXY, dthetaXYExec]
    rcases ok_or (resolveMask b.muons.length mask) with ⟨m, hm⟩ | ⟨e, hm⟩
    · rcases ok_or (optArg dtx (countTrue m)) with ⟨xs, hx⟩ | ⟨e, hx⟩
      · rcases ok_or (optArg dty (countTrue m)) with ⟨ys, hy⟩ | ⟨e, hy⟩
        · simp only [hm, hx, hy, bind, Except.bind]
          rw [filterExec_up b _ (by simp) hw]
          simp
        · simp [hm, hx, hy, bind, Except.bind]
      · simp [hm, hx, bind, Except.bind]
    · simp [hm, bind, Except.bind]
  | dxyz dx dy dz mask =>
    simp only [Batch.step, exec, scatterDxyz, dxyzExec]
    rcases ok_or (resolveMask b.muons.length mask) with ⟨m, hm⟩ | ⟨e, hm⟩
    · obtain ⟨em, lm⟩ := resolve_eq hm
      rw [← em, updExec_opt lm]
      rcases ok_or (optUpd m b.muons dx fun m v => { m with x := m.x + v }) with ⟨m1, h1⟩ | ⟨e, h1⟩
      · have l1 : m.length = m1.length := by rw [lm]; rw [← updExec_opt lm] at h1; exact (updExec_len h1).symm
        simp only [hm, h1, bind, Except.bind]
        rw [updExec_opt l1]
        rcases ok_or (optUpd m m1 dy fun m v => { m with y := m.y + v }) with ⟨m2, h2⟩ | ⟨e, h2⟩
        · have l2 : m.length = m2.length := by rw [l1]; rw [← updExec_opt l1] at h2; exact (updExec_len h2).symm
          simp only [h2]
          rw [updExec_opt l2]
          rcases ok_or (optUpd m m2 dz fun m v => { m with z := m.z + v }) with ⟨m3, h3⟩ | ⟨e, h3⟩ <;> simp [h3]
        · simp [h2]
      · simp [hm, h1, bind, Except.bind]
    · obtain ⟨he, hl⟩ := bad hm
      subst he
      have up : ∀ (a : Option Arg) f, updExec (b.maskOr mask) b.muons a f = if a = none then .ok b.muons else .error .indexError := by
        intro a f
        cases a with
        | none => rfl
        | some x => simp [updExec, hl]
      refine ⟨fun b' h => by simp [hm, bind, Except.bind] at h, fun e h => ?_⟩
      have : e = .indexError := by simpa [hm, bind, Except.bind] using h.symm
      subst this
      rw [up]
      cases dx with
      | some x => exact ⟨b, rfl⟩
      | none =>
        simp only [if_true]
        rw [up]
        cases dy with
        | some x => exact ⟨_, rfl⟩
        | none =>
          simp only [if_true]
          rw [up]
          cases dz with
          | some x => exact ⟨_, rfl⟩
          | none => simp [Given] at hg
  | dthetaDphi dth dph mask =>
    simp only [Batch.step, exec, scatterDthetaDphi, dthetaDphiExec]
    rcases ok_or (resolveMask b.muons.length mask) with ⟨m, hm⟩ | ⟨e, hm⟩
    · obtain ⟨em, lm⟩ := resolve_eq hm
      rw [← em, updExec_opt lm]
      rcases ok_or (optUpd m b.muons dph addPhi) with ⟨m1, h1⟩ | ⟨e, h1⟩
      · have l1 : m1.length = b.muons.length := by rw [← updExec_opt lm] at h1; exact updExec_len h1
        simp only [hm, h1, bind, Except.bind]
        rw [updExec_opt (lm.trans l1.symm)]
        rcases ok_or (optUpd m m1 dth addTheta) with ⟨m2, h2⟩ | ⟨e, h2⟩
        · have l2 : m2.length = b.muons.length := by rw [← updExec_opt (lm.trans l1.symm)] at h2; exact (updExec_len h2).trans l1
          simp only [h2]
          rw [filterExec_up b _ (by simp [l2]) hw]
          simp
        · simp [h2]
      · simp [hm, h1, bind, Except.bind]
    · obtain ⟨he, hl⟩ := bad hm
      subst he
      have up : ∀ (a : Option Arg) f, updExec (b.maskOr mask) b.muons a f = if a = none then .ok b.muons else .error .indexError := by
        intro a f
        cases a with
        | none => rfl
        | some x => simp [updExec, hl]
      refine ⟨fun b' h => by simp [hm, bind, Except.bind] at h, fun e h => ?_⟩
      have : e = .indexError := by simpa [hm, bind, Except.bind] using h.symm
      subst this
      rw [up]
      cases dph with
      | some x => exact ⟨b, rfl⟩
      | none =>
        simp only [if_true]
        rw [up]
        cases dth with
        | some x => exact ⟨_, rfl⟩
        | none => simp [Given] at hg
where
  bad {mask : Option (List Bool)} {e : Err} (hm : resolveMask b.muons.length mask = .error e) : e = .indexError ∧ (b.maskOr mask).length ≠ b.muons.length := by
    cases mask with
    | none => simp [resolveMask] at hm
    | some k =>
      simp only [resolveMask] at hm
      split at hm
      · simp at hm
      · rename_i h
        exact ⟨by simpa using hm.symm, by simpa [maskOr] using h⟩

/-! ### What is left behind -/

/-- Two muons flying straight down. -/
def two : Batch α := { muons := [⟨0, 0, 0, 1, 5, 0, 0⟩, ⟨1, 2, 3, 1, 5, 0, 0⟩], removed := [], hits := [], hist := [] }

/-- **C124 is violated: displacements.** A displacement that fails, because there are three values in y for two muons, has moved the muons in x. Calling it
again with the right values moves them in x twice. -/
theorem moved_violated : ∃ b : Batch α, ∃ op op' : MuOp α, Whole b.muons.length b.hits ∧ (b.exec op).2 = some .runtimeError ∧
    b.muons.map (·.x) = [0, 2] ∧ (b.exec op).1.muons.map (·.x) = [1, 3] ∧
    (b.exec op').2 = none ∧ (b.exec op').1.muons.map (·.x) = [1, 3] ∧
    ((b.exec op).1.exec op').2 = none ∧ ((b.exec op).1.exec op').1.muons.map (·.x) = [2, 4] := by
  have e1 : (two : Batch α).exec (.dxyz (some (.scalar 1)) (some (.vec [1, 2, 3])) none none) =
      ({ muons := [⟨0, 0 + 1, 0, 1, 5, 0, 0⟩, ⟨1, 2 + 1, 3, 1, 5, 0, 0⟩], removed := [], hits := [], hist := [] }, some .runtimeError) := rfl
  have e2 : (two : Batch α).exec (.dxyz (some (.scalar 1)) (some (.vec [1, 2])) none none) =
      ({ muons := [⟨0, 0 + 1, 0 + 1, 1, 5, 0, 0⟩, ⟨1, 2 + 1, 3 + 2, 1, 5, 0, 0⟩], removed := [], hits := [], hist := [] }, none) := rfl
  have e3 : ({ muons := [⟨0, 0 + 1, 0, 1, 5, 0, 0⟩, ⟨1, 2 + 1, 3, 1, 5, 0, 0⟩], removed := [], hits := [], hist := [] } : Batch α).exec
      (.dxyz (some (.scalar 1)) (some (.vec [1, 2])) none none) =
      ({ muons := [⟨0, 0 + 1 + 1, 0 + 1, 1, 5, 0, 0⟩, ⟨1, 2 + 1 + 1, 3 + 2, 1, 5, 0, 0⟩], removed := [], hits := [], hist := [] }, none) := rfl
  refine ⟨two, _, _, ?_, by rw [e1], ?_, by rw [e1]; norm_num, by rw [e2], by rw [e2]; norm_num, by rw [e1, e3], by rw [e1, e3]; norm_num⟩
  · intro pv hpv; simp [two] at hpv
  · rfl

/-- **C124 is violated: turns.** A change of direction that fails, because there are three values for theta of two muons, has turned the muons in phi. -/
theorem turned_violated : ∃ b : Batch α, ∃ op : MuOp α, Whole b.muons.length b.hits ∧ (b.exec op).2 = some .runtimeError ∧
    b.muons.map (·.ph) = [0, 0] ∧ (b.exec op).1.muons.map (·.ph) = [1, 1] := by
  have e1 : (two : Batch α).exec (.dthetaDphi (some (.vec [1, 2, 3])) (some (.scalar 1)) none) =
      ({ muons := [addPhi ⟨0, 0, 0, 1, 5, 0, 0⟩ 1, addPhi ⟨1, 2, 3, 1, 5, 0, 0⟩ 1], removed := [], hits := [], hist := [] }, some .runtimeError) := rfl
  have hp : pmod (0 + 1) (2 * Real.pi) = 1 := by
    have := Real.two_le_pi
    have : ⌊(0 + 1) / (2 * Real.pi)⌋ = 0 := by
      rw [Int.floor_eq_zero_iff]
      exact ⟨by positivity, by rw [div_lt_one (by positivity)]; linarith⟩
    rw [pmod, this]; norm_num
  refine ⟨two, _, ?_, by rw [e1], rfl, ?_⟩
  · intro pv hpv; simp [two] at hpv
  · rw [e1]
    simp only [addPhi, List.map_cons, List.map_nil, hp]

theorem tensors_torn (keep : List Bool) (t : List α) (ht : t.length ≠ keep.length) (post : List (List α)) : ∀ pre : List (List α), (∀ u ∈ pre, u.length = keep.length) →
    keepTensors keep (pre ++ t :: post) = (pre.map (pick keep) ++ t :: post, false)
  | [], _ => by simp [keepTensors, ht]
  | u :: pre, h => by
    have ih := tensors_torn keep t ht post pre fun w hw => h w (by simp [hw])
    simp only [List.cons_append, keepTensors, h u (by simp), if_true, ih, List.map_cons]

theorem vars_torn (keep : List Bool) (v : String) (ts ts' : List (List α)) (ht : keepTensors keep ts = (ts', false)) (post : Dict String (List (List α))) : ∀ pre : Dict String (List (List α)),
    (∀ vt ∈ pre, ∀ t ∈ vt.2, t.length = keep.length) → keepVars keep (pre ++ (v, ts) :: post) = ((pre.map fun vt => (vt.1, vt.2.map (pick keep))) ++ (v, ts') :: post, false)
  | [], _ => by simp [keepVars, ht]
  | (w, us) :: pre, h => by
    have ih := vars_torn keep v ts ts' ht post pre fun u hu => h u (by simp [hu])
    simp only [List.cons_append, keepVars, keepTensors_whole keep us (h (w, us) (by simp)), if_true, ih, List.map_cons]

theorem hits_torn (keep : List Bool) (p : String) (vs vs' : Dict String (List (List α))) (ht : keepVars keep vs = (vs', false)) (post : Dict String (Dict String (List (List α)))) :
    ∀ pre : Dict String (Dict String (List (List α))), Whole keep.length pre →
      keepHits keep (pre ++ (p, vs) :: post) = ((pre.map fun pv => (pv.1, pv.2.map fun vt => (vt.1, vt.2.map (pick keep)))) ++ (p, vs') :: post, false)
  | [], _ => by simp [keepHits, ht]
  | (q, us) :: pre, h => by
    have ih := hits_torn keep p vs vs' ht post pre fun u hu => h u (by simp [hu])
    simp only [List.cons_append, keepHits, keepVars_whole keep us (h (q, us) (by simp)), if_true, ih, List.map_cons, Dict.mapVals]

/-- **C124: where a removal breaks off.** If some recorded tensor has another number of rows than there are muons, removing muons fails after they have been removed: the tensors recorded
before it have lost the rows of the removed muons, it and those after it have not. -/
theorem torn (b : Batch α) (keep : List Bool) (hk : keep.length = b.muons.length) (hc : countTrue keep < b.muons.length) (p v : String) (t : List α) (ht : t.length ≠ keep.length)
    (pre post : Dict String (Dict String (List (List α)))) (vpre vpost : Dict String (List (List α))) (tpre tpost : List (List α)) (hb : b.hits = pre ++ (p, vpre ++ (v, tpre ++ t :: tpost) :: vpost) :: post)
    (h1 : Whole keep.length pre) (h2 : ∀ vt ∈ vpre, ∀ u ∈ vt.2, u.length = keep.length) (h3 : ∀ u ∈ tpre, u.length = keep.length) :
    (b.exec (.filter keep)).2 = some .indexError ∧ (b.exec (.filter keep)).1.muons = pick keep b.muons ∧
      (b.exec (.filter keep)).1.hits = (pre.map fun pv => (pv.1, pv.2.map fun vt => (vt.1, vt.2.map (pick keep)))) ++
        (p, (vpre.map fun vt => (vt.1, vt.2.map (pick keep))) ++ (v, tpre.map (pick keep) ++ t :: tpost) :: vpost) :: post := by
  have e := hits_torn keep p _ _ (vars_torn keep v _ _ (tensors_torn keep t ht tpost tpre h3) vpost vpre h2) post pre h1
  rw [← hb] at e
  simp only [Batch.exec, filterExec, List.length_map, hk, hc, if_true, ne_eq, not_true_eq_false, if_false, e]
  refine ⟨by simp, ?_, trivial⟩
  rw [pick_map]
  exact filterMap_toRaw _

/-- Non-vacuity of `torn`: of two recorded tensors the second has one row for two muons; only the first loses a row. -/
example : ∃ b : Batch ℕ, b.hits = [] ++ ("above", [] ++ ("reco_xyz", [[10, 20]] ++ [30] :: []) :: []) :: [] ∧ countTrue [false, true] < b.muons.length ∧
    (b.exec (.filter [false, true])).1.tensors "above" "reco_xyz" = [[20], [30]] :=
  ⟨{ (two : Batch ℕ) with hits := [("above", [("reco_xyz", [[10, 20], [30]])])] }, rfl, by decide, by decide⟩

/-- **C124 is violated: hits of the wrong length.** Recording does not check the number of rows. If there is one row for two muons, removing a muon fails after it
has been removed, and the hits are left as they were: one row, for one muon, but that of the muon that has been removed. -/
theorem lost_violated : ∃ b : Batch ℕ, ∃ ops : List (MuOp ℕ), ∃ keep : List Bool, b.hits = [] ∧ keep.length = (b.execAll ops).muons.length ∧
    ((b.execAll ops).exec (.filter keep)).2 = some .indexError ∧ (b.execAll ops).ids = [0, 1] ∧ ((b.execAll ops).exec (.filter keep)).1.ids = [1] ∧
    ((b.execAll ops).exec (.filter keep)).1.tensors "above" "reco_xyz" = [[10]] := by
  refine ⟨two, [.append [("reco_xyz", [10])] "above"], [false, true], rfl, rfl, rfl, rfl, rfl, ?_⟩
  decide

/-- Non-vacuity: a program whose second call fails; the muon removed by the third takes its hit along. -/
example : ∃ b : Batch ℕ, ∃ ops : List (MuOp ℕ), b.hits = [] ∧ b.ids.Nodup ∧ AlignedAll b ops ∧ (∃ op ∈ ops, ¬Suitable b.muons.length op) ∧
    (b.execAll ops).tensors "above" "reco_xyz" = [[20]] ∧ (b.execAll ops).ids = [1] := by
  refine ⟨two, [.append [("reco_xyz", [10, 20])] "above", .propDz (.vec [1, 2, 3]) none, .filter [false, true]], rfl, by decide, ?_, ?_, by decide, rfl⟩
  · simp [AlignedAll, AlignedOp, two]
  · exact ⟨.propDz (.vec [1, 2, 3]) none, by simp, by simp [Suitable, Arg.Fits, Arg.size, two]⟩

/-- Non-vacuity of `fails`, `kept`, `kept_alike` and `half`: suitable and unsuitable arguments for two muons, one of them selected. -/
example : (Arg.vec [1, 2]).Fits 2 none ∧ ¬(Arg.vec [1, 2, 3]).Fits 2 none ∧ ¬(Arg.vec [1, 2]).Fits 2 (some [true, false]) ∧ (Arg.vec [1]).Fits 2 (some [true, false]) ∧
    ¬Several (.propD (α := ℕ) (.vec [1, 2, 3]) none) ∧ Given (.dxyz (α := ℕ) (some (.scalar 1)) none none none) := by
  simp [Arg.Fits, Arg.size, Several, Given]

end C124




end

end Tomopt
