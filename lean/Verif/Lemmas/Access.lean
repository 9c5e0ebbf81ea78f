import Verif.Spec.Access
import Verif.Lemmas.MuonExec

/- Helper lemmas about the attributes of a muon batch. -/
namespace Tomopt

noncomputable section
open Batch

variable {α : Type}

theorem toMuon?_back {r : RawMuon} {m : Muon} (h : RawMuon.toMuon? r = some m) : m.toRaw = r := by
  obtain ⟨id, x, y, z, p, th, ph⟩ := r
  cases th <;> cases ph <;> simp [RawMuon.toMuon?] at h
  subst h; rfl

theorem numbers_back : ∀ (rows : List RawMuon), Numbers rows → (rows.filterMap RawMuon.toMuon?).map MuonOf.toRaw = rows
  | [], _ => rfl
  | r :: rows, h => by
    obtain ⟨m, hm⟩ := h r (by simp)
    have ih := numbers_back rows fun u hu => h u (by simp [hu])
    simp [hm, ih, toMuon?_back hm]

theorem numbers_toRaw (ms : List Muon) : Numbers (ms.map MuonOf.toRaw) := by
  intro r hr
  obtain ⟨m, -, rfl⟩ := List.mem_map.mp hr
  exact ⟨m, toMuon?_toRaw m⟩

theorem numbers_len (rows : List RawMuon) (h : Numbers rows) : (rows.filterMap RawMuon.toMuon?).length = rows.length := by
  have := congrArg List.length (numbers_back rows h)
  simpa using this

/-- If a removal of upwards muons leaves as many as there were, all rows stay as they are. -/
theorem filterExec_rows (b : Batch α) (raws : List RawMuon) (hl : raws.length = b.muons.length)
    (hn : ¬(b.filterExec raws (raws.map keepRow)).1.muons.length < b.muons.length) : (b.filterExec raws (raws.map keepRow)).1.muons.map MuonOf.toRaw = raws := by
  unfold filterExec at hn ⊢
  simp only [List.length_map, ne_eq, not_true_eq_false, if_false] at hn ⊢
  split at hn
  · rename_i h
    exfalso
    apply hn
    have hk : Numbers (pick (raws.map keepRow) raws) := fun r hr => keepRow_toMuon (pick_keep_forall _ _ r hr)
    have := numbers_len _ hk
    rw [pick_length _ _ (by simp)] at this
    simp only at this ⊢
    omega
  · rename_i h
    rw [if_neg h]
    exact numbers_back _ fun r hr => keepRow_toMuon (all_keep _ _ h r hr)

theorem filterExec_same (b : Batch α) (keep : List Bool) (hn : ¬(b.filterExec (b.muons.map MuonOf.toRaw) keep).1.muons.length < b.muons.length) :
    (b.filterExec (b.muons.map MuonOf.toRaw) keep).1.muons = b.muons := by
  unfold filterExec at hn ⊢
  simp only [List.length_map] at hn ⊢
  split at hn
  · rename_i h
    rw [if_pos h]
    split at hn
    · rename_i h2; rw [if_pos h2]
    · rename_i h2
      exfalso
      apply hn
      rw [not_not] at h2
      simp only
      rw [pick_map, filterMap_toRaw, pick_length _ _ h2]
      exact h
  · rename_i h
    rw [if_neg h]
    exact filterMap_toRaw _

/-- If a call removes no muon, `_muons` holds the muons of the batch after it. -/
theorem written_eq (b : Batch α) (op : MuOp α) (hn : ¬(b.exec op).1.muons.length < b.muons.length) : b.written op = (b.exec op).1.muons.map MuonOf.toRaw := by
  cases op with
  | append hits pos => rfl
  | snap => rfl
  | dxyz dx dy dz mask => rfl
  | propDz d mask => rfl
  | propD d mask => rfl
  | filter keep =>
    simp only [written, exec] at hn ⊢
    rw [filterExec_same b keep hn]
  | dthetaDphi dth dph mask =>
    simp only [written, exec, dthetaDphiExec] at hn ⊢
    cases h1 : updExec (b.maskOr mask) b.muons dph addPhi with
    | error e => rfl
    | ok m1 =>
      simp only [h1] at hn ⊢
      cases h2 : updExec (b.maskOr mask) m1 dth addTheta with
      | error e => rfl
      | ok m2 =>
        simp only [h2] at hn ⊢
        exact (filterExec_rows b _ (by simp [updExec_len h2, updExec_len h1]) hn).symm
  | dthetaXY dtx dty mask =>
    simp only [written, exec, dthetaXYExec] at hn ⊢
    cases hm : resolveMask b.muons.length mask with
    | error e => rfl
    | ok m =>
      simp only [hm] at hn ⊢
      cases hx : optArg dtx (countTrue m) with
      | error e => cases hy : optArg dty (countTrue m) <;> rfl
      | ok xs =>
        cases hy : optArg dty (countTrue m) with
        | error e => rfl
        | ok ys =>
          simp only [hx, hy] at hn ⊢
          exact (filterExec_rows b _ (by simp) hn).symm

/-- No call adds muons. -/
theorem exec_le (b : Batch α) (op : MuOp α) : (b.exec op).1.muons.length ≤ b.muons.length := by
  have fil : ∀ (raws : List RawMuon) (keep : List Bool), raws.length = b.muons.length → (b.filterExec raws keep).1.muons.length ≤ b.muons.length := by
    intro raws keep hl
    unfold filterExec
    split
    · split
      · exact le_refl _
      · simp only
        refine (List.length_filterMap_le _ _).trans ?_
        rw [← hl]
        exact (pick_sublist _ _).length_le
    · simp only
      exact hl ▸ List.length_filterMap_le _ _
  have prop : ∀ (row : Muon → ℝ → Muon) (d : Arg) (mask : Option (List Bool)), (b.propExec row d mask).1.muons.length ≤ b.muons.length := by
    intro row d mask
    unfold propExec
    split
    · exact le_refl _
    · split
      · exact le_refl _
      · simp
  cases op with
  | append hits pos => exact le_refl _
  | snap => exact le_refl _
  | filter keep => exact fil _ _ (by simp)
  | propDz d mask => exact prop _ d mask
  | propD d mask => exact prop _ d mask
  | dxyz dx dy dz mask =>
    simp only [exec, dxyzExec]
    split
    · exact le_refl _
    · rename_i m1 h1
      split
      · exact (updExec_len h1).le
      · rename_i m2 h2
        split
        · exact ((updExec_len h2).trans (updExec_len h1)).le
        · rename_i m3 h3
          exact ((updExec_len h3).trans ((updExec_len h2).trans (updExec_len h1))).le
  | dthetaDphi dth dph mask =>
    simp only [exec, dthetaDphiExec]
    split
    · exact le_refl _
    · rename_i m1 h1
      split
      · exact (updExec_len h1).le
      · rename_i m2 h2
        exact fil _ _ (by simp [updExec_len h2, updExec_len h1])
  | dthetaXY dtx dty mask =>
    simp only [exec, dthetaXYExec]
    split
    · exact le_refl _
    · split
      · exact le_refl _
      · exact le_refl _
      · exact fil _ _ (by simp)

theorem change_numbers {m : RawMuon} (h : ∃ k, RawMuon.toMuon? m = some k) (f : ℝ → ℝ) (c : Cell) : ∃ k, RawMuon.toMuon? (m.change f c) = some k := by
  obtain ⟨k, hk⟩ := h
  have := toMuon?_back hk
  subst this
  cases c <;> exact ⟨_, rfl⟩

theorem changeRow_numbers (g : ℝ → ℝ → ℝ) (cs : List Cell) (m : RawMuon) (v : List ℝ) (h : ∃ k, RawMuon.toMuon? m = some k) :
    ∃ k, RawMuon.toMuon? (changeRow g cs m v) = some k := by
  unfold changeRow
  generalize cs.zip v = l
  induction l generalizing m with
  | nil => exact h
  | cons cv l ih => exact ih _ (change_numbers h _ _)

theorem zipWith_numbers (g : ℝ → ℝ → ℝ) (cs : List Cell) : ∀ (rows : List RawMuon) (v : List (List ℝ)), Numbers rows → Numbers (rows.zipWith (changeRow g cs) v)
  | [], _, _ => by intro r hr; simp at hr
  | _ :: _, [], _ => by intro r hr; simp at hr
  | m :: rows, w :: v, h => by
    intro r hr
    rw [List.zipWith_cons_cons] at hr
    rcases List.mem_cons.mp hr with rfl | hr
    · exact changeRow_numbers g cs m w (h m (by simp))
    · exact zipWith_numbers g cs rows v (fun u hu => h u (by simp [hu])) r hr

theorem getD_set_ne (s : Tensors) {a c : Nat} (h : a ≠ c) (t : List RawMuon) : (s.set a t).getD c [] = s.getD c [] := by
  simp [List.getD_eq_getElem?_getD, List.getElem?_set, h]

theorem getD_set_eq (s : Tensors) {a : Nat} (h : a < s.length) (t : List RawMuon) : (s.set a t).getD a [] = t := by
  simp [List.getD_eq_getElem?_getD, h]

/-- Effect of one statement on addresses and on the tensors that do not belong to the object. -/
theorem exec_addr (s : Tensors) (o : Owner α) (h : Owned s o) (st : Stmt α) :
    Owned (o.exec s st).1 (o.exec s st).2.1 ∧ s.length ≤ (o.exec s st).1.length ∧
    ((o.exec s st).2.1.addr = o.addr ∧ ((o.exec s st).2.1.batch (o.exec s st).1).muons.length = (o.batch s).muons.length ∨
      (o.exec s st).2.1.addr = s.length ∧ ((o.exec s st).2.1.batch (o.exec s st).1).muons.length < (o.batch s).muons.length) ∧
    (∀ a, a ≠ o.addr → a < s.length → (o.exec s st).1.getD a [] = s.getD a []) ∧
    o.hist <+: (o.exec s st).2.1.hist := by
  have inplace : ∀ (g : ℝ → ℝ → ℝ) (cs : List Cell) (v : List (List ℝ)), fitting (s.getD o.addr []).length cs v = true →
      Owned (s.set o.addr ((s.getD o.addr []).zipWith (changeRow g cs) v)) o ∧ s.length ≤ (s.set o.addr ((s.getD o.addr []).zipWith (changeRow g cs) v)).length ∧
      (o.addr = o.addr ∧ (o.batch (s.set o.addr ((s.getD o.addr []).zipWith (changeRow g cs) v))).muons.length = (o.batch s).muons.length ∨
        o.addr = s.length ∧ (o.batch (s.set o.addr ((s.getD o.addr []).zipWith (changeRow g cs) v))).muons.length < (o.batch s).muons.length) ∧
      (∀ a, a ≠ o.addr → a < s.length → (s.set o.addr ((s.getD o.addr []).zipWith (changeRow g cs) v)).getD a [] = s.getD a []) ∧ o.hist <+: o.hist := by
    intro g cs v hv
    have hn := zipWith_numbers g cs _ v h.numbers
    have hl : v.length = (s.getD o.addr []).length := by
      have := hv
      unfold fitting at this
      simp only [Bool.and_eq_true, beq_iff_eq] at this
      exact this.1
    refine ⟨⟨by simpa using h.there, by rw [getD_set_eq s h.there]; exact hn⟩, by simp, .inl ⟨rfl, ?_⟩, fun a ha _ => getD_set_ne s (Ne.symm ha) _, List.prefix_refl _⟩
    simp only [Owner.batch]
    rw [getD_set_eq s h.there, numbers_len _ hn, numbers_len _ h.numbers, List.length_zipWith, hl, Nat.min_self]
  cases st with
  | assign f v => exact ⟨h, le_refl _, .inl ⟨rfl, rfl⟩, fun _ _ _ => rfl, List.prefix_refl _⟩
  | augment f v =>
    simp only [Owner.exec]
    cases hc : f.cells with
    | none => exact ⟨h, le_refl _, .inl ⟨rfl, rfl⟩, fun _ _ _ => rfl, List.prefix_refl _⟩
    | some cs =>
      simp only
      by_cases hv : fitting (s.getD o.addr []).length cs v = true
      · rw [if_pos hv]; exact inplace _ cs v hv
      · rw [if_neg hv]; exact ⟨h, le_refl _, .inl ⟨rfl, rfl⟩, fun _ _ _ => rfl, List.prefix_refl _⟩
  | into f v =>
    simp only [Owner.exec]
    cases hc : f.cells with
    | none => exact ⟨h, le_refl _, .inl ⟨rfl, rfl⟩, fun _ _ _ => rfl, List.prefix_refl _⟩
    | some cs =>
      simp only
      by_cases hv : fitting (s.getD o.addr []).length cs v = true
      · rw [if_pos hv]; exact inplace _ cs v hv
      · rw [if_neg hv]; exact ⟨h, le_refl _, .inl ⟨rfl, rfl⟩, fun _ _ _ => rfl, List.prefix_refl _⟩
  | call op =>
    have hist : o.hist <+: ((o.batch s).exec op).1.hist := exec_hist (o.batch s) op
    simp only [Owner.exec]
    by_cases hr : ((o.batch s).exec op).1.muons.length < (o.batch s).muons.length
    · rw [if_pos hr]
      refine ⟨⟨by simp, ?_⟩, by simp, .inr ⟨by simp, ?_⟩, fun a ha hl => ?_, hist⟩
      · simp only [List.getD_eq_getElem?_getD, List.getElem?_append_right (le_refl _), Nat.sub_self]
        exact numbers_toRaw _
      · simp only [Owner.batch, List.getD_eq_getElem?_getD, List.getElem?_append_right (le_refl _), Nat.sub_self]
        simp only [List.getElem?_cons_zero, Option.getD_some, filterMap_toRaw]
        exact hr
      · rw [List.getD_eq_getElem?_getD, List.getElem?_append_left (by simpa using hl), ← List.getD_eq_getElem?_getD]
        exact getD_set_ne s (Ne.symm ha) _
    · rw [if_neg hr]
      have hw := written_eq (o.batch s) op hr
      refine ⟨⟨by simpa using h.there, ?_⟩, by simp, .inl ⟨rfl, ?_⟩, fun a ha hl => getD_set_ne s (Ne.symm ha) _, hist⟩
      · rw [getD_set_eq s h.there, hw]; exact numbers_toRaw _
      · have e : (Owner.batch (s.set o.addr ((o.batch s).written op)) (⟨o.addr, ((o.batch s).exec op).1.removed, ((o.batch s).exec op).1.hits, ((o.batch s).exec op).1.hist⟩ : Owner α)).muons =
            ((o.batch s).exec op).1.muons := by
          simp only [Owner.batch]
          rw [getD_set_eq s h.there]
          have hw' := hw
          simp only [Owner.batch] at hw'
          rw [hw', filterMap_toRaw]
        rw [e]
        exact le_antisymm (exec_le _ op) (not_lt.mp hr)
where
  exec_hist (b : Batch α) (op : MuOp α) : b.hist <+: (b.exec op).1.hist := by
    have fil : ∀ (raws : List RawMuon) (keep : List Bool), (b.filterExec raws keep).1.hist = b.hist := by
      intro raws keep
      unfold filterExec
      split
      · split <;> rfl
      · rfl
    have prop : ∀ (row : Muon → ℝ → Muon) (d : Arg) (mask : Option (List Bool)), (b.propExec row d mask).1.hist = b.hist := by
      intro row d mask
      unfold propExec
      split
      · rfl
      · split <;> rfl
    cases op with
    | append hits pos => exact List.prefix_refl _
    | snap => exact List.prefix_append _ _
    | filter keep => simp only [exec]; rw [fil]
    | propDz d mask => simp only [exec]; rw [prop]
    | propD d mask => simp only [exec]; rw [prop]
    | dxyz dx dy dz mask =>
      simp only [exec, dxyzExec]
      split
      · exact List.prefix_refl _
      · split
        · exact List.prefix_refl _
        · split <;> exact List.prefix_refl _
    | dthetaDphi dth dph mask =>
      simp only [exec, dthetaDphiExec]
      split
      · exact List.prefix_refl _
      · split
        · exact List.prefix_refl _
        · rw [fil]
    | dthetaXY dtx dty mask =>
      simp only [exec, dthetaXYExec]
      split
      · exact List.prefix_refl _
      · split
        · exact List.prefix_refl _
        · exact List.prefix_refl _
        · rw [fil]

end

end Tomopt
