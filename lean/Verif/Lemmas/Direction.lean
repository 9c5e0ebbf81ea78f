import Verif.Spec.Direction
import Verif.Lemmas.Angles

/- Helper lemmas: masked updates seen row by row. -/
namespace Tomopt
open Real

variable {α : Type} {β γ δ : Type}

/-- values applied to selected rows, `none` for the others -/
def spreadO : List Bool → List γ → List (Option γ)
  | true :: ms, v :: vs => some v :: spreadO ms vs
  | false :: ms, vs => none :: spreadO ms vs
  | _, _ => []

theorem spreadO_length : ∀ (m : List Bool) (vs : List γ), vs.length = countTrue m → (spreadO m vs).length = m.length
  | [], _, _ => by simp [spreadO]
  | true :: m, [], h => by simp at h
  | true :: m, v :: vs, h => by simp [spreadO, spreadO_length m vs (by simpa using h)]
  | false :: m, vs, h => by simp [spreadO, spreadO_length m vs (by simpa using h)]

def appO (f : β → γ → β) (x : β) : Option γ → β
  | none => x
  | some a => f x a

theorem maskedUpd_zip (f : β → γ → β) : ∀ (m : List Bool) (xs : List β) (vs : List γ),
    m.length = xs.length → vs.length = countTrue m →
    maskedUpd m xs vs f = xs.zipWith (appO f) (spreadO m vs)
  | [], [], _, _, _ => by simp [spreadO]
  | true :: m, x :: xs, [], _, h => by simp at h
  | true :: m, x :: xs, v :: vs, h1, h2 => by
      simp [spreadO, appO, maskedUpd_zip f m xs vs (by simpa using h1) (by simpa using h2)]
  | false :: m, x :: xs, vs, h1, h2 => by
      simp [spreadO, appO, maskedUpd_zip f m xs vs (by simpa using h1) (by simpa using h2)]

theorem changes_spreadO : ∀ (m : List Bool) (vs : List ℝ), vs.length = countTrue m →
    changes m vs = (spreadO m vs).map (fun o => o.getD 0)
  | [], _, _ => by simp [spreadO, changes]
  | true :: m, [], h => by simp at h
  | true :: m, v :: vs, h => by simp [spreadO, changes, changes_spreadO m vs (by simpa using h)]
  | false :: m, vs, h => by simp [spreadO, changes, changes_spreadO m vs (by simpa using h)]

theorem changes_replicate (v : ℝ) : ∀ (m : List Bool) (k : Nat), countTrue m ≤ k →
    changes m (List.replicate k v) = changes m (List.replicate (countTrue m) v)
  | [], k, _ => by simp [changes]
  | true :: m, 0, h => by simp at h
  | true :: m, k + 1, h => by
      simp [List.replicate_succ, changes, changes_replicate v m k (by simpa using h)]
  | false :: m, k, h => by
      simp [changes, changes_replicate v m k (by simpa using h)]

theorem changes_zero : ∀ (m : List Bool), changes m (List.replicate (countTrue m) 0) = List.replicate m.length 0
  | [] => by simp [changes]
  | true :: m => by simp [List.replicate_succ, changes, changes_zero m]
  | false :: m => by simp [List.replicate_succ, changes, changes_zero m]

theorem resolveMask_ok {n : Nat} {mask : Option (List Bool)} {ms : List Bool} (h : resolveMask n mask = .ok ms) :
    ms = theMask n mask ∧ ms.length = n := by
  unfold resolveMask at h
  cases mask with
  | none => simp at h; subst h; simp [theMask]
  | some m =>
    simp only at h
    split at h
    · simp at h; subst h; simp [theMask]; assumption
    · simp at h

theorem expand_ok {a : Arg} {n : Nat} {mask : Option (List Bool)} {ms : List Bool} {vs : List ℝ}
    (hm : ms = theMask n mask) (hl : ms.length = n) (h : a.expand (countTrue ms) = .ok vs) :
    vs.length = countTrue ms ∧ perMuon n mask (some a) = changes ms vs := by
  have hle : countTrue ms ≤ n := hl ▸ countTrue_le ms
  unfold Arg.expand at h
  cases a with
  | scalar v =>
    simp at h; subst h
    refine ⟨by simp, ?_⟩
    simp only [perMuon, ← hm]
    exact changes_replicate v ms n hle
  | vec l =>
    simp only at h
    match l with
    | [] =>
      split at h
      · simp at h; subst h; refine ⟨by assumption, ?_⟩; simp [perMuon, hm]
      · simp at h
    | [v] =>
      have hc : perMuon n mask (some (.vec [v])) = changes ms (List.replicate (countTrue ms) v) := by
        simp only [perMuon, ← hm]; exact changes_replicate v ms n hle
      split at h
      · rename_i h1
        simp at h; subst h
        refine ⟨h1, ?_⟩
        rw [hc, ← h1]; rfl
      · simp at h; subst h
        exact ⟨by simp, hc⟩
    | v :: w :: l =>
      split at h
      · simp at h; subst h; refine ⟨by assumption, ?_⟩; simp [perMuon, hm]
      · simp at h

/-- Row-by-row view of an optional masked column update. -/
theorem optUpd_rows {n : Nat} {mask : Option (List Bool)} {ms : List Bool} {rows rows' : List Muon} {a : Option Arg}
    {f : Muon → ℝ → Muon} (hm : ms = theMask n mask) (hl : ms.length = n) (hr : rows.length = n)
    (h : optUpd ms rows a f = .ok rows') :
    ∃ os : List (Option ℝ), os.length = n ∧ perMuon n mask a = os.map (fun o => o.getD 0) ∧
      rows' = rows.zipWith (appO f) os := by
  unfold optUpd at h
  cases a with
  | none =>
    simp at h; subst h
    refine ⟨List.replicate n none, by simp, by simp [perMuon], ?_⟩
    have : ∀ (xs : List Muon) , xs = xs.zipWith (appO f) (List.replicate xs.length none) := by
      intro xs
      induction xs with
      | nil => rfl
      | cons x xs ih => simp only [List.length_cons, List.replicate_succ, List.zipWith_cons_cons, appO]; rw [← ih]
    rw [← hr]; exact this rows
  | some a =>
    simp only at h
    obtain ⟨vs, hv, h⟩ := bind_ok h
    simp at h; subst h
    obtain ⟨h1, h2⟩ := expand_ok hm hl hv
    refine ⟨spreadO ms vs, ?_, ?_, ?_⟩
    · rw [spreadO_length ms vs h1, hl]
    · rw [h2, changes_spreadO ms vs h1]
    · exact maskedUpd_zip f ms rows vs (by rw [hl, hr]) h1

theorem optArg_rows {n : Nat} {mask : Option (List Bool)} {ms : List Bool} {a : Option Arg} {vs : List ℝ}
    (hm : ms = theMask n mask) (hl : ms.length = n) (h : Batch.optArg a (countTrue ms) = .ok vs) :
    vs.length = countTrue ms ∧ perMuon n mask a = changes ms vs := by
  unfold Batch.optArg at h
  cases a with
  | none =>
    simp at h; subst h
    exact ⟨by simp, by simp [perMuon, changes_zero, hl]⟩
  | some a => exact expand_ok hm hl h

theorem forall₂_filter {R : β → γ → Prop} {p : β → Bool} {q : γ → Bool} {xs : List β} {ys : List γ}
    (h : List.Forall₂ R xs ys) (hpq : ∀ x y, R x y → p x = q y) :
    List.Forall₂ R (xs.filter p) (ys.filter q) := by
  induction h with
  | nil => simp
  | @cons x y xs ys hxy _ ih =>
    have := hpq _ _ hxy
    cases hp : p x
    · simp [hp, ← this, ih]
    · simp [hp, ← this, ih, hxy]

theorem forall₂_mem_right {R : β → γ → Prop} {xs : List β} {ys : List γ} (h : List.Forall₂ R xs ys) :
    ∀ y ∈ ys, ∃ x ∈ xs, R x y := by
  induction h with
  | nil => simp
  | @cons x y xs ys hxy _ ih =>
    intro z hz
    rcases List.mem_cons.mp hz with rfl | hz
    · exact ⟨x, by simp, hxy⟩
    · obtain ⟨w, hw, hr⟩ := ih z hz
      exact ⟨w, by simp [hw], hr⟩

/-- kept and removed rows of `remove_upwards_muons` -/
theorem removeUpwards_spec {α : Type} (b : Batch α) (raws : List RawMuon) :
    (b.removeUpwards raws).muons = (raws.filter Batch.keepRow).filterMap RawMuon.toMuon? ∧
    (b.removeUpwards raws).removed = b.removed ++ raws.filter (fun r => !Batch.keepRow r) := by
  unfold Batch.removeUpwards
  simp only
  split
  · exact ⟨by simp [pick_map_filter], by simp [pick_inv_map_filter]⟩
  · rename_i h
    have hall := all_keep Batch.keepRow raws h
    have h1 : raws.filter Batch.keepRow = raws := List.filter_eq_self.mpr hall
    have h2 : raws.filter (fun r => !Batch.keepRow r) = [] := by
      apply List.filter_eq_nil_iff.mpr
      intro r hr; simp [hall r hr]
    simp [h1, h2]

end Tomopt
