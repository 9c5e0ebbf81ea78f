import Verif.Spec.Layer
import Verif.Lemmas.Layer
import Verif.Props.C03_07

/- Helper lemmas: the loop of a passive layer. -/
namespace Tomopt

noncomputable section
open Real

variable {α : Type}

theorem Conserves.refl (b : Batch α) : Conserves b b := ⟨List.Perm.refl _, List.Sublist.refl _, List.prefix_refl _⟩

theorem Conserves.trans {a b c : Batch α} (h1 : Conserves a b) (h2 : Conserves b c) : Conserves a c :=
  ⟨h2.perm.trans h1.perm, h2.order.trans h1.order, h1.gone.trans h2.gone⟩

theorem conserves_map (b : Batch α) (f : Muon → Muon) (hf : ∀ m, (f m).key = m.key) :
    Conserves b { b with muons := b.muons.map f } := by
  have : (b.muons.map f).map MuonOf.key = b.muons.map MuonOf.key := by
    rw [List.map_map]; exact List.map_congr_left fun m _ => hf m
  exact ⟨by simp only; rw [this], by simp only; rw [this], List.prefix_refl _⟩

theorem conserves_of_same {b b' : Batch α} (h : Same b b') : Conserves b b' := by
  have hk : b'.muons.map MuonOf.key = b.muons.map MuonOf.key := h.keys
  exact ⟨by rw [hk, h.removed], by rw [hk], by rw [h.removed]⟩

theorem conserves_of_filtered {b b' : Batch α} {keep : List Bool} (hf : Filtered b b' keep) : Conserves b b' := by
  obtain ⟨rs, hrs, hrk⟩ := hf.gone
  have hk : b'.muons.map MuonOf.key = pick keep (b.muons.map MuonOf.key) := hf.kept
  have hr : rs.map MuonOf.key = pick (inv keep) (b.muons.map MuonOf.key) := hrk
  refine ⟨?_, ?_, ?_⟩
  · rw [hk, hrs, List.map_append, hr]
    have hp := pick_append_inv_perm keep (b.muons.map MuonOf.key) (by simpa using hf.len)
    refine List.Perm.trans ?_ (hp.append_right _)
    rw [List.append_assoc]
    exact (List.perm_append_comm).append_left _
  · rw [hk]; exact pick_sublist _ _
  · rw [hrs]; exact List.prefix_append _ _

theorem conserves_removeUpwards (b : Batch α) (raws : List RawMuon)
    (hk : raws.map MuonOf.key = b.muons.map MuonOf.key) : Conserves b (b.removeUpwards raws) := by
  rcases removeUpwards_cases b raws hk with h | ⟨keep, h⟩
  · exact conserves_of_same h
  · exact conserves_of_filtered h

theorem removeUpwards_hist (b : Batch α) (raws : List RawMuon) : (b.removeUpwards raws).hist = b.hist := by
  unfold Batch.removeUpwards; simp only; split <;> rfl

theorem hasAny_map {δ : Type} (p : δ → Bool) (ms : List δ) : (ms.map p).any id = true ↔ ∃ m ∈ ms, p m = true := by
  simp

namespace PassiveLayer

theorem rowPos_key (L : PassiveLayer) (s i : Bool) (v : Scat) (m : Muon) : (L.rowPos s i v m).key = m.key := by
  have h1 : ∀ m : Muon, (if s = true then shiftXYZ m v.dx v.dy v.dz else m).key = m.key := by intro m; split <;> rfl
  have h2 : ∀ m : Muon, (if i = true then Batch.propDRow m L.stepSz else m).key = m.key := by intro m; split <;> rfl
  have h3 : ∀ (c : Bool) (m : Muon) (d : ℝ), (if c = true then Batch.propDzRow m d else m).key = m.key := by
    intro c m d; split <;> rfl
  unfold rowPos
  simp only
  rw [h3, h2, h1]

theorem scatterXYRowO_key (m : RawMuon) (a c : Option ℝ) : (scatterXYRowO m a c).key = m.key := by
  unfold scatterXYRowO
  cases a <;> cases c <;> first | rfl | exact scatterXYRow_key _ _ _

theorem rowPass_key (L : PassiveLayer) (s i : Bool) (v : Scat) (m : Muon) : (L.rowPass s i v m).key = m.key := by
  unfold rowPass
  split
  · rw [scatterXYRowO_key]; exact rowPos_key L s i v m
  · exact rowPos_key L s i v m

theorem pass_conserves (L : PassiveLayer) (draw : Nat → Draw) (b b' : Batch α) (p : Muon → Bool)
    (h : L.pass draw b (b.muons.map p) = .ok b') : Conserves b b' ∧ b'.hist = b.hist := by
  cases hc : L.radLength with
  | none =>
    rw [pass_empty L hc] at h
    simp at h; subst h
    refine ⟨conserves_map _ _ ?_, rfl⟩
    intro m; split <;> rfl
  | some cube =>
    have hb := pass_rows L cube hc draw b b' p h
    rw [hb]
    refine ⟨conserves_removeUpwards _ _ ?_, removeUpwards_hist _ _⟩
    rw [List.map_map]
    exact List.map_congr_left fun m _ => rowPass_key L _ _ _ m

theorem loop_conserves (L : PassiveLayer) (rng : Nat → Nat → Draw) : ∀ (fuel k : Nat) (b b' : Batch α) (p : Muon → Bool),
    L.loop rng fuel k b (b.muons.map p) = .ok (some b') → Conserves b b' ∧ b'.hist = b.hist := by
  intro fuel
  induction fuel with
  | zero =>
    intro k b b' p h
    unfold loop at h
    split at h
    · simp at h
    · simp at h; subst h; exact ⟨Conserves.refl _, rfl⟩
  | succ n ih =>
    intro k b b' p h
    unfold loop at h
    split at h
    · obtain ⟨b1, h1, h⟩ := bind_ok h
      obtain ⟨c1, e1⟩ := pass_conserves L (rng k) b b1 p h1
      obtain ⟨c2, e2⟩ := ih (k + 1) b1 b' L.inside h
      exact ⟨c1.trans c2, e2.trans e1⟩
    · simp at h; subst h; exact ⟨Conserves.refl _, rfl⟩

theorem forward_inv (L : PassiveLayer) (rng : Nat → Nat → Draw) (fuel : Nat) (b b' : Batch α)
    (h : L.forward rng fuel b = .ok (some b')) :
    ∃ b2, L.loop rng fuel 0 { b with muons := b.muons.map fun m => Batch.propDzRow m (m.z - L.z) }
        (List.replicate b.muons.length true) = .ok (some b2) ∧
      b' = { b2 with muons := b2.muons.map fun m => Batch.propDzRow m (m.z - (L.z - L.size)) } := by
  unfold forward at h
  rw [propagateDz_each] at h
  simp only [bind, Except.bind, List.length_map] at h
  cases hl : L.loop rng fuel 0 { b with muons := b.muons.map fun m => Batch.propDzRow m (m.z - L.z) }
        (List.replicate b.muons.length true) with
  | error e => rw [hl] at h; simp at h
  | ok r =>
    rw [hl] at h
    cases r with
    | none => simp at h
    | some b2 =>
      simp only at h
      rw [propagateDz_each] at h
      simp at h
      exact ⟨b2, rfl, h.symm⟩

theorem forward_returns_of (L : PassiveLayer) (rng : Nat → Nat → Draw) (fuel : Nat) (b : Batch α) {b2 : Batch α}
    (h : L.loop rng fuel 0 { b with muons := b.muons.map fun m => Batch.propDzRow m (m.z - L.z) }
        (List.replicate (b.muons.map fun m => Batch.propDzRow m (m.z - L.z)).length true) = .ok (some b2)) :
    L.forward rng fuel b =
      .ok (some { b2 with muons := b2.muons.map fun m => Batch.propDzRow m (m.z - (L.z - L.size)) }) := by
  unfold forward
  rw [propagateDz_each]
  simp only [bind, Except.bind]
  rw [h]
  simp only
  rw [propagateDz_each]

theorem forward_returns (L : PassiveLayer) (rng : Nat → Nat → Draw) (fuel : Nat) (b : Batch α)
    (h : ∃ b2, L.loop rng fuel 0 { b with muons := b.muons.map fun m => Batch.propDzRow m (m.z - L.z) }
        ((b.muons.map fun m => Batch.propDzRow m (m.z - L.z)).map fun _ => true) = .ok (some b2)) :
    ∃ b', L.forward rng fuel b = .ok (some b') := by
  obtain ⟨b2, h⟩ := h
  exact ⟨_, forward_returns_of L rng fuel b (by simpa [List.map_const'] using h)⟩

/-- straight-line extrapolation to a fixed height is unaffected by a step -/
theorem extrapolate_step (m : Muon) (d Z : ℝ) (hc : cos m.th ≠ 0) :
    Batch.propDzRow (Batch.propDRow m d) ((Batch.propDRow m d).z - Z) = Batch.propDzRow m (m.z - Z) := by
  have h : Batch.propDRow m d = Batch.propDzRow m (d * cos m.th) := by
    rw [← C06.propD_eq_propDz m _ hc]; congr 1; field_simp
  rw [h, C06.propDz_add]
  congr 1
  simp only [Batch.propDzRow]; ring

theorem loop_empty (L : PassiveLayer) (hL : L.radLength = none) (rng : Nat → Nat → Draw) :
    ∀ (fuel k : Nat) (b b' : Batch α) (p : Muon → Bool), (∀ m ∈ b.muons, cos m.th ≠ 0) →
    L.loop rng fuel k b (b.muons.map p) = .ok (some b') →
    (b'.muons.map fun m => Batch.propDzRow m (m.z - (L.z - L.size))) =
      (b.muons.map fun m => Batch.propDzRow m (m.z - (L.z - L.size))) ∧ b'.removed = b.removed ∧ b'.hits = b.hits := by
  intro fuel
  induction fuel with
  | zero =>
    intro k b b' p _ h
    unfold loop at h
    split at h
    · simp at h
    · simp at h; subst h; exact ⟨rfl, rfl, rfl⟩
  | succ n ih =>
    intro k b b' p hc h
    unfold loop at h
    split at h
    · obtain ⟨b1, h1, h⟩ := bind_ok h
      rw [pass_empty L hL] at h1
      simp at h1; subst h1
      obtain ⟨e1, e2, e3⟩ := ih (k + 1) _ b' L.inside (by
        intro m hm
        simp only [List.mem_map] at hm
        obtain ⟨m0, h0, rfl⟩ := hm
        split <;> exact hc m0 h0) h
      refine ⟨?_, e2, e3⟩
      rw [e1]
      simp only [List.map_map]
      apply List.map_congr_left
      intro m hm
      simp only [Function.comp]
      split
      · exact extrapolate_step m _ _ (hc m hm)
      · rfl
    · simp at h; subst h; exact ⟨rfl, rfl, rfl⟩

theorem footprint_iff (L : PassiveLayer) (m : Muon) : L.footprint m = true ↔ Over L m := by
  simp [footprint, Batch.inWindow, Over, and_assoc]

theorem index_bounds (L : PassiveLayer) (hs : 0 < L.size) (n : Nat) (x : ℝ) (h0 : 0 ≤ x) (h1 : x < n * L.size) :
    0 ≤ L.abs2idx x ∧ L.abs2idx x < n ∧ (L.abs2idx x : ℝ) * L.size ≤ x ∧ x < (L.abs2idx x + 1) * L.size := by
  unfold abs2idx
  refine ⟨Int.floor_nonneg.mpr (by positivity), ?_, ?_, ?_⟩
  · rw [Int.floor_lt]
    rw [div_lt_iff₀ hs]
    exact_mod_cast h1
  · rw [← le_div_iff₀ hs]; exact Int.floor_le _
  · rw [← div_lt_iff₀ hs]; exact Int.lt_floor_add_one _

theorem getIdx_ok {β : Type} (xs : List β) (i : ℤ) (h0 : 0 ≤ i) (h1 : i < xs.length) :
    ∃ x, xs[i.toNat]? = some x ∧ getIdx xs i = .ok x := by
  have : i.toNat < xs.length := by omega
  refine ⟨xs[i.toNat], List.getElem?_eq_getElem this, ?_⟩
  unfold getIdx
  rw [if_neg (by omega)]
  rw [if_neg (by omega), List.getElem?_eq_getElem this]

theorem lookup_ok (L : PassiveLayer) (nx ny : Nat) (cube : List (List ℝ)) (hL : WellShaped L nx ny cube) (m : Muon) (hm : Over L m) :
    ∃ (i j : Nat) (col : List ℝ) (v : ℝ), i < nx ∧ j < ny ∧ cube[i]? = some col ∧ col[j]? = some v ∧ L.lookupX0 cube m = .ok v ∧
      i * L.size ≤ m.x ∧ m.x < (i + 1) * L.size ∧ j * L.size ≤ m.y ∧ m.y < (j + 1) * L.size := by
  obtain ⟨hx0, hx1, hy0, hy1⟩ := hm
  rw [hL.len_x] at hx1
  rw [hL.len_y] at hy1
  obtain ⟨a1, a2, a3, a4⟩ := index_bounds L hL.size_pos nx m.x hx0 hx1
  obtain ⟨b1, b2, b3, b4⟩ := index_bounds L hL.size_pos ny m.y hy0 hy1
  obtain ⟨col, hc1, hc2⟩ := getIdx_ok cube (L.abs2idx m.x) a1 (by rw [hL.rows]; exact a2)
  have hcol : col ∈ cube := List.mem_of_getElem? hc1
  obtain ⟨v, hv1, hv2⟩ := getIdx_ok col (L.abs2idx m.y) b1 (by rw [hL.cols col hcol]; exact b2)
  have ex : ((L.abs2idx m.x).toNat : ℝ) = (L.abs2idx m.x : ℝ) := by exact_mod_cast Int.toNat_of_nonneg a1
  have ey : ((L.abs2idx m.y).toNat : ℝ) = (L.abs2idx m.y : ℝ) := by exact_mod_cast Int.toNat_of_nonneg b1
  refine ⟨(L.abs2idx m.x).toNat, (L.abs2idx m.y).toNat, col, v, by omega, by omega, hc1, hv1, ?_, ?_⟩
  · simp only [lookupX0, hc2, hv2]
  · rw [ex, ey]; exact ⟨a3, a4, b3, b4⟩

theorem pass_total (L : PassiveLayer) (nx ny : Nat) (cube : List (List ℝ)) (hL : WellShaped L nx ny cube)
    (hpdg : L.scatterModel = "pdg") (draw : Nat → Draw) (b : Batch α) (p : Muon → Bool) :
    ∃ b', L.pass draw b (b.muons.map p) = .ok b' := by
  refine ⟨_, pass_rows_ok L cube hL.loaded (by simp [checkModel, hpdg]) draw b p ?_⟩
  intro m _ hf _
  obtain ⟨i, j, col, v, _, _, _, _, hv, _⟩ := lookup_ok L nx ny cube hL m ((footprint_iff L m).mp hf)
  exact ⟨_, by simp only [scatterOf, hv]; rfl⟩

/-- What a pass does to heights: every muon in the outcome comes from one that was there; if tracked, it is at the bottom or lost
`heightChange`; otherwise its height is unchanged. -/
theorem pass_heights (L : PassiveLayer) (draw : Nat → Draw) (b b' : Batch α) (p : Muon → Bool)
    (h : L.pass draw b (b.muons.map p) = .ok b') (m' : Muon) (hm' : m' ∈ b'.muons) :
    ∃ m ∈ b.muons, (p m = true → (m'.z ≤ L.z - L.size ∨ m'.z = m.z + heightChange L draw m)) ∧ (p m = false → m'.z = m.z) := by
  cases hc : L.radLength with
  | none =>
    rw [pass_empty L hc] at h
    simp at h; subst h
    simp only [List.mem_map] at hm'
    obtain ⟨m, hm, rfl⟩ := hm'
    refine ⟨m, hm, ?_, ?_⟩
    · intro hp; right; simp [hp, heightChange, hc, Batch.propDRow]; ring
    · intro hp; simp [hp]
  | some cube =>
    have hok := pass_ok_inv L cube hc draw b b' p h
    have hb := pass_rows L cube hc draw b b' p h
    obtain ⟨hmu, -⟩ := removeUpwards_spec b (b.muons.map fun m => L.rowPass (L.footprint m && p m) (p m) (L.scatVal cube draw m) m)
    rw [hb, hmu] at hm'
    obtain ⟨r, hr, hrm⟩ := List.mem_filterMap.mp hm'
    obtain ⟨hr, -⟩ := List.mem_filter.mp hr
    obtain ⟨m, hm, rfl⟩ := List.mem_map.mp hr
    obtain ⟨-, -, -, -, hz, -, -⟩ := toMuon?_id hrm
    have hz' : m'.z = (L.rowPos (L.footprint m && p m) (p m) (L.scatVal cube draw m) m).z := by
      rw [hz]
      unfold rowPass
      split
      · unfold scatterXYRowO
        split
        · unfold Batch.scatterXYRow
          simp only [MuonOf.toRaw]
          split
          · rfl
          · rfl
        · rfl
      · rfl
    refine ⟨m, hm, ?_, ?_⟩
    · intro hp
      by_cases hf : L.footprint m = true
      · obtain ⟨s, hs⟩ := hok.2 m hm hf hp
        have hv : L.scatVal cube draw m = s := by simp [scatVal, hs]
        have hhc : heightChange L draw m = s.dz - L.stepSz * cos m.th := by
          have hf' : Batch.inWindow (some (0, 0)) (some L.lw) m = true := hf
          simp [heightChange, hc, hs, hf']
        rw [hz', hhc, hv]
        unfold rowPos
        simp only [hf, hp, Bool.and_true, if_true, Batch.propDRow, shiftXYZ, decide_eq_true_eq]
        split
        · left; simp [Batch.propDzRow]
        · right; simp only; ring
      · have hf0 : L.footprint m = false := by simpa using hf
        have hhc : heightChange L draw m = -(L.stepSz * cos m.th) := by
          have hf' : Batch.inWindow (some (0, 0)) (some L.lw) m = false := hf0
          simp [heightChange, hc, hf']
        rw [hz', hhc]
        unfold rowPos
        simp only [hf0, hp, Bool.and_true, if_true, Batch.propDRow, decide_eq_true_eq, Bool.false_eq_true, if_false]
        split
        · left; simp [Batch.propDzRow]
        · right; simp only; ring
    · intro hp
      rw [hz']
      simp [rowPos, hp]

theorem loop_returns (L : PassiveLayer) (rng : Nat → Nat → Draw) (δ : ℝ) : ∀ (n k : Nat) (b : Batch α) (p : Muon → Bool),
    (∀ k (b : Batch α) (p : Muon → Bool), ∃ b', L.pass (rng k) b (b.muons.map p) = .ok b') →
    Progresses L rng δ n k b (b.muons.map p) →
    (∀ m ∈ b.muons, p m = true → m.z ≤ L.z - L.size + n * δ) →
    (∀ m ∈ b.muons, p m = true → L.z - L.size < m.z) →
    (∀ m ∈ b.muons, p m = false → L.inside m = false) →
    ∃ b', L.loop rng n k b (b.muons.map p) = .ok (some b') := by
  intro n
  induction n with
  | zero =>
    intro k b p _ _ h1 h2 _
    unfold loop
    rw [if_neg]
    · exact ⟨b, rfl⟩
    · rw [hasAny_map]
      rintro ⟨m, hm, hp⟩
      have := h1 m hm hp
      have := h2 m hm hp
      simp at *
      linarith
  | succ n ih =>
    intro k b p htot hprog h1 h2 h3
    unfold loop
    by_cases hany : (b.muons.map p).any id = true
    · rw [if_pos hany]
      obtain ⟨b1, hb1⟩ := htot k b p
      simp only [hb1, bind, Except.bind]
      obtain ⟨hpr, hrest⟩ := hprog
      refine ih (k + 1) b1 L.inside htot (hrest b1 hb1) ?_ ?_ ?_
      · intro m' hm' hin
        obtain ⟨m, hm, ht, hf⟩ := pass_heights L (rng k) b b1 p hb1 m' hm'
        simp only [inside, Bool.and_eq_true, decide_eq_true_eq] at hin
        cases hp : p m with
        | true =>
          rcases ht hp with h4 | h4
          · linarith [hin.1]
          · have h5 := hpr m (by rw [pick_map_filter]; exact List.mem_filter.mpr ⟨hm, hp⟩)
            have h6 := h1 m hm hp
            push_cast at h6
            rw [h4]; linarith
        | false =>
          have := h3 m hm hp
          rw [hf hp] at hin
          simp only [inside, Bool.and_eq_false_iff, decide_eq_false_iff_not] at this
          rcases this with h | h
          · exact absurd hin.1 h
          · exact absurd hin.2 h
      · intro m _ hin
        simp only [inside, Bool.and_eq_true, decide_eq_true_eq] at hin
        exact hin.1
      · intro m _ h; exact h
    · rw [if_neg hany]; exact ⟨b, rfl⟩

theorem progresses_empty (L : PassiveLayer) (hL : L.radLength = none) (rng : Nat → Nat → Draw) (hst : 0 ≤ L.stepSz) {c : ℝ} :
    ∀ (n k : Nat) (b : Batch α) (p : Muon → Bool), (∀ m ∈ b.muons, c ≤ cos m.th) →
      Progresses L rng (L.stepSz * c) n k b (b.muons.map p) := by
  intro n
  induction n with
  | zero => intro k b p _; trivial
  | succ n ih =>
    intro k b p h
    refine ⟨?_, ?_⟩
    · intro m hm
      have hmem : m ∈ b.muons := (pick_sublist _ _).subset hm
      simp only [heightChange, hL]
      have := mul_le_mul_of_nonneg_left (h m hmem) hst
      linarith
    · intro b' hb'
      rw [pass_empty L hL] at hb'
      simp at hb'; subst hb'
      apply ih
      intro m hm
      simp only [List.mem_map] at hm
      obtain ⟨m0, h0, rfl⟩ := hm
      split <;> exact h m0 h0

end PassiveLayer

end

end Tomopt
