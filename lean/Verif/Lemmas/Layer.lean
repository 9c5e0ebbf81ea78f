import Verif.Model.Layer
import Verif.Lemmas.Direction
import Verif.Lemmas.Muon

/- Helper lemmas: one pass through a passive layer seen row by row. -/
namespace Tomopt

noncomputable section
open Real

theorem maskedUpd_pred {β δ γ : Type} (p : δ → Bool) (g : δ → β) (f : δ → γ) (h : β → γ → β) : ∀ (ms : List δ),
    maskedUpd (ms.map p) (ms.map g) ((ms.filter p).map f) h = ms.map fun m => if p m then h (g m) (f m) else g m
  | [] => rfl
  | m :: ms => by
    have ih := maskedUpd_pred p g f h ms
    cases hp : p m <;> simp [hp, ih]

theorem countTrue_map {δ : Type} (p : δ → Bool) (ms : List δ) : countTrue (ms.map p) = (ms.filter p).length := by
  induction ms with
  | nil => rfl
  | cons m ms ih => cases hp : p m <;> simp [hp, ih]

theorem expand_vec_ok {l : List ℝ} {n : Nat} (h : l.length = n) : (Arg.vec l).expand n = .ok l := by
  simp [Arg.expand, h]

theorem resolveMask_map {δ : Type} (p : δ → Bool) (ms : List δ) {n : Nat} (h : ms.length = n) :
    resolveMask n (some (ms.map p)) = .ok (ms.map p) := by
  simp [resolveMask, h]

theorem zipWith_and_map {δ : Type} (p q : δ → Bool) (ms : List δ) :
    (ms.map p).zipWith (· && ·) (ms.map q) = ms.map fun m => p m && q m := by
  induction ms with
  | nil => rfl
  | cons m ms ih => simp [ih]

theorem mapE_ok {β γ : Type} {f : β → Except Err γ} : ∀ {xs : List β} {ys : List γ}, mapE f xs = .ok ys →
    ys.length = xs.length ∧ ∀ d : γ, ys = xs.map (fun x => match f x with | .ok y => y | .error _ => d) ∧
      ∀ x ∈ xs, ∃ y, f x = .ok y
  | [], ys, h => by simp [mapE] at h; subst h; simp
  | x :: xs, ys, h => by
    simp only [mapE] at h
    cases hx : f x with
    | error e => simp [hx] at h
    | ok y =>
      simp only [hx] at h
      cases hr : mapE f xs with
      | error e => simp [hr] at h
      | ok zs =>
        simp [hr] at h
        subst h
        obtain ⟨h1, h2⟩ := mapE_ok hr
        refine ⟨by simp [h1], fun d => ⟨?_, ?_⟩⟩
        · rw [List.map_cons, hx, ← (h2 d).1]
        · intro x' hx'
          rcases List.mem_cons.mp hx' with rfl | h'
          · exact ⟨y, hx⟩
          · exact (h2 d).2 x' h'

theorem mapE_of_ok {β γ : Type} {f : β → Except Err γ} : ∀ (xs : List β), (∀ x ∈ xs, ∃ y, f x = .ok y) → ∃ ys, mapE f xs = .ok ys
  | [], _ => ⟨[], rfl⟩
  | x :: xs, h => by
    obtain ⟨y, hy⟩ := h x (by simp)
    obtain ⟨ys, hys⟩ := mapE_of_ok xs (fun x' hx' => h x' (by simp [hx']))
    exact ⟨y :: ys, by simp [mapE, hy, hys]⟩

variable {α : Type}

theorem propagateDz_pred (b : Batch α) (p : Muon → Bool) (f : Muon → ℝ) :
    b.propagateDz (.vec ((b.muons.filter p).map f)) (some (b.muons.map p)) =
      .ok { b with muons := b.muons.map fun m => if p m then Batch.propDzRow m (f m) else m } := by
  unfold Batch.propagateDz
  rw [resolveMask_map p b.muons rfl]
  simp only [bind, Except.bind]
  rw [expand_vec_ok (by rw [countTrue_map]; simp)]
  simp only
  have := maskedUpd_pred p id f Batch.propDzRow b.muons
  simp only [List.map_id, id] at this
  rw [this]

theorem propagateDz_each (b : Batch α) (f : Muon → ℝ) :
    b.propagateDz (.vec (b.muons.map f)) none = .ok { b with muons := b.muons.map fun m => Batch.propDzRow m (f m) } := by
  have h := propagateDz_pred b (fun _ => true) f
  simp only [List.filter_true, if_true] at h
  unfold Batch.propagateDz at h ⊢
  simpa [resolveMask, List.map_const'] using h

theorem propagateD_pred (b : Batch α) (p : Muon → Bool) (d : ℝ) :
    b.propagateD (.scalar d) (some (b.muons.map p)) =
      .ok { b with muons := b.muons.map fun m => if p m then Batch.propDRow m d else m } := by
  unfold Batch.propagateD
  rw [resolveMask_map p b.muons rfl]
  simp only [bind, Except.bind, Arg.expand]
  have := maskedUpd_pred p id (fun _ => d) Batch.propDRow b.muons
  simp only [List.map_id, id, List.map_const'] at this
  rw [countTrue_map, this]

theorem pick_map_pred {δ β : Type} (p : δ → Bool) (f : δ → β) (ms : List δ) :
    pick (ms.map p) (ms.map f) = (ms.filter p).map f := by
  rw [pick_map, pick_map_filter]

/-- displacement of one muon -/
def shiftXYZ (m : Muon) (dx dy dz : ℝ) : Muon := { m with x := m.x + dx, y := m.y + dy, z := m.z + dz }

theorem scatterDxyz_pred (b : Batch α) (p : Muon → Bool) (fx fy fz : Muon → ℝ) :
    b.scatterDxyz (some (.vec ((b.muons.filter p).map fx))) (some (.vec ((b.muons.filter p).map fy)))
      (some (.vec ((b.muons.filter p).map fz))) (some (b.muons.map p)) =
      .ok { b with muons := b.muons.map (fun m => if p m then shiftXYZ m (fx m) (fy m) (fz m) else m) } := by
  unfold Batch.scatterDxyz
  rw [resolveMask_map p b.muons rfl]
  simp only [bind, Except.bind, optUpd]
  rw [expand_vec_ok (by rw [countTrue_map]; simp), expand_vec_ok (by rw [countTrue_map]; simp),
    expand_vec_ok (by rw [countTrue_map]; simp)]
  simp only
  have h1 := maskedUpd_pred p id fx (fun (m : Muon) v => { m with x := m.x + v }) b.muons
  simp only [List.map_id, id] at h1
  rw [h1, maskedUpd_pred p _ fy, maskedUpd_pred p _ fz]
  congr 2
  apply List.map_congr_left
  intro m _
  cases p m <;> simp [shiftXYZ]

namespace PassiveLayer

/-- the scattering of a muon once the look-up is known to succeed -/
def scatVal (L : PassiveLayer) (cube : List (List ℝ)) (draw : Nat → Draw) (m : Muon) : Scat :=
  match L.scatterOf cube draw m with
  | .ok s => s
  | .error _ => ⟨0, 0, 0, none, none⟩

def footprint (L : PassiveLayer) (m : Muon) : Bool := Batch.inWindow (some (0, 0)) (some L.lw) m

/-- position of a muon after a pass through material -/
def rowPos (L : PassiveLayer) (sc inM : Bool) (v : Scat) (m : Muon) : Muon :=
  let m1 := if sc then shiftXYZ m v.dx v.dy v.dz else m
  let m2 := if inM then Batch.propDRow m1 L.stepSz else m1
  if decide (m2.z - (L.z - L.size) < 0) && inM then Batch.propDzRow m2 (m2.z - (L.z - L.size)) else m2

def rowPass (L : PassiveLayer) (sc inM : Bool) (v : Scat) (m : Muon) : RawMuon :=
  if sc then scatterXYRowO (L.rowPos sc inM v m).toRaw v.dtx v.dty else (L.rowPos sc inM v m).toRaw

/-- The row view of the scattering part of a pass. -/
theorem pass_rows_ok (L : PassiveLayer) (cube : List (List ℝ)) (hc : L.radLength = some cube) (hm : L.checkModel = .ok ())
    (draw : Nat → Draw) (b : Batch α) (p : Muon → Bool)
    (hok : ∀ m ∈ b.muons, L.footprint m = true → p m = true → ∃ s, L.scatterOf cube draw m = .ok s) :
    L.pass draw b (b.muons.map p) = .ok (b.removeUpwards (b.muons.map fun m =>
      L.rowPass (L.footprint m && p m) (p m) (L.scatVal cube draw m) m)) := by
  unfold pass
  simp only [hc, hm, bind, Except.bind]
  have hsm : (b.xyMask (some (0, 0)) (some L.lw)).zipWith (· && ·) (b.muons.map p) =
      b.muons.map fun m => L.footprint m && p m := zipWith_and_map _ _ _
  rw [hsm, pick_map_filter]
  obtain ⟨ys, hys⟩ := mapE_of_ok (f := L.scatterOf cube draw) (b.muons.filter fun m => L.footprint m && p m) (by
    intro m hmem
    obtain ⟨h1, h2⟩ := List.mem_filter.mp hmem
    simp only [Bool.and_eq_true] at h2
    exact hok m h1 h2.1 h2.2)
  have hy : ys = (b.muons.filter fun m => L.footprint m && p m).map (L.scatVal cube draw) :=
    ((mapE_ok hys).2 ⟨0, 0, 0, none, none⟩).1.trans (List.map_congr_left fun m _ => by unfold scatVal; cases L.scatterOf cube draw m <;> rfl)
  rw [hys]
  simp only [hy, List.map_map]
  rw [scatterDxyz_pred b (fun m => L.footprint m && p m) ((fun s => s.dx) ∘ L.scatVal cube draw)
    ((fun s => s.dy) ∘ L.scatVal cube draw) ((fun s => s.dz) ∘ L.scatVal cube draw)]
  simp only
  have hd : ∀ (f : Muon → Muon), Batch.propagateD ({ b with muons := b.muons.map f } : Batch α) (.scalar L.stepSz)
      (some (b.muons.map p)) = .ok { b with muons := b.muons.map fun m => if p m then Batch.propDRow (f m) L.stepSz else f m } := by
    intro f
    unfold Batch.propagateD
    simp only [List.length_map]
    rw [resolveMask_map p b.muons rfl]
    simp only [bind, Except.bind, Arg.expand]
    have := maskedUpd_pred p f (fun _ => L.stepSz) Batch.propDRow b.muons
    simp only [List.map_const'] at this
    rw [countTrue_map, this]
  rw [hd]
  simp only [List.map_map]
  rw [zipWith_and_map, pick_map_pred]
  have hz : ∀ (f : Muon → Muon) (q : Muon → Bool) (g : Muon → ℝ), Batch.propagateDz ({ b with muons := b.muons.map f } : Batch α)
      (.vec ((b.muons.filter q).map g)) (some (b.muons.map q)) =
      .ok { b with muons := b.muons.map fun m => if q m then Batch.propDzRow (f m) (g m) else f m } := by
    intro f q g
    unfold Batch.propagateDz
    simp only [List.length_map]
    rw [resolveMask_map q b.muons rfl]
    simp only [bind, Except.bind]
    rw [expand_vec_ok (by rw [countTrue_map]; simp)]
    simp only
    rw [maskedUpd_pred]
  rw [hz]
  simp only [scatterAngles, List.map_map]
  rw [maskedUpd_pred]
  have ru : ∀ raws ms, Batch.removeUpwards ({ b with muons := ms } : Batch α) raws = b.removeUpwards raws := by
    intro raws ms; unfold Batch.removeUpwards; rfl
  rw [ru]
  congr 2

/-- Whenever a pass through material returns, every selected look-up succeeded. -/
theorem pass_ok_inv (L : PassiveLayer) (cube : List (List ℝ)) (hc : L.radLength = some cube)
    (draw : Nat → Draw) (b b' : Batch α) (p : Muon → Bool) (h : L.pass draw b (b.muons.map p) = .ok b') :
    L.checkModel = .ok () ∧ ∀ m ∈ b.muons, L.footprint m = true → p m = true → ∃ s, L.scatterOf cube draw m = .ok s := by
  unfold pass at h
  simp only [hc] at h
  obtain ⟨u, hu, h⟩ := bind_ok h
  obtain ⟨ys, hys, h⟩ := bind_ok h
  refine ⟨hu, ?_⟩
  intro m hm h1 h2
  have hsm : (b.xyMask (some (0, 0)) (some L.lw)).zipWith (· && ·) (b.muons.map p) =
      b.muons.map fun m => L.footprint m && p m := zipWith_and_map _ _ _
  rw [hsm, pick_map_filter] at hys
  exact ((mapE_ok hys).2 ⟨0, 0, 0, none, none⟩).2 m (List.mem_filter.mpr ⟨hm, by simp [h1, h2]⟩)

theorem pass_rows (L : PassiveLayer) (cube : List (List ℝ)) (hc : L.radLength = some cube)
    (draw : Nat → Draw) (b b' : Batch α) (p : Muon → Bool) (h : L.pass draw b (b.muons.map p) = .ok b') :
    b' = b.removeUpwards (b.muons.map fun m => L.rowPass (L.footprint m && p m) (p m) (L.scatVal cube draw m) m) := by
  obtain ⟨h1, h2⟩ := pass_ok_inv L cube hc draw b b' p h
  rw [pass_rows_ok L cube hc h1 draw b p h2] at h
  simpa using h.symm

theorem pass_empty (L : PassiveLayer) (hc : L.radLength = none) (draw : Nat → Draw) (b : Batch α) (p : Muon → Bool) :
    L.pass draw b (b.muons.map p) = .ok { b with muons := b.muons.map fun m => if p m then Batch.propDRow m L.stepSz else m } := by
  unfold pass
  simp only [hc]
  exact propagateD_pred b p L.stepSz

end PassiveLayer

end

end Tomopt
