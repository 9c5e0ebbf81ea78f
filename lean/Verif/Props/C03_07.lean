import Verif.Lemmas.Direction

/- C03 - C07: directions, propagation and windows. -/
namespace Tomopt
open Real

variable {α : Type}

namespace C04

theorem addPhi_dir (m : Muon) (d : ℝ) : dir (Batch.addPhi m d).th (Batch.addPhi m d).ph = dir m.th (m.ph + d) := by
  simp [Batch.addPhi, dir, sin_pmod, cos_pmod]

theorem addTheta_dir (m : Muon) (d : ℝ) : dir (Batch.addTheta m d).th (Batch.addTheta m d).ph = dir (m.th + d) m.ph := by
  unfold Batch.addTheta
  simp only
  split
  · simp only [dir, sin_two_pi_sub, cos_two_pi_sub, sin_pmod, cos_pmod, cos_add_pi, sin_add_pi]
    simp
  · simp [dir, sin_pmod, cos_pmod]

theorem addTheta_range (m : Muon) (d : ℝ) (h : 0 ≤ m.ph ∧ m.ph < 2 * π) :
    0 ≤ (Batch.addTheta m d).th ∧ (Batch.addTheta m d).th ≤ π ∧
    0 ≤ (Batch.addTheta m d).ph ∧ (Batch.addTheta m d).ph < 2 * π := by
  unfold Batch.addTheta
  simp only
  have h1 := pmod_nonneg (m.th + d) two_pi_pos
  have h2 := pmod_lt (m.th + d) two_pi_pos
  split
  · exact ⟨by simp only; linarith, by simp only; linarith, pmod_nonneg _ two_pi_pos, pmod_lt _ two_pi_pos⟩
  · exact ⟨h1, by simp only; linarith, h⟩

theorem appO_row (m : Muon) (hm : Downward m) (o1 o2 : Option ℝ) :
    let m' := appO Batch.addTheta (appO Batch.addPhi m o1) o2
    SamePlace m m' ∧ dir m'.th m'.ph = dir (m.th + o2.getD 0) (m.ph + o1.getD 0) ∧
      0 ≤ m'.th ∧ m'.th ≤ π ∧ 0 ≤ m'.ph ∧ m'.ph < 2 * π := by
  obtain ⟨a1, a2, a3, a4⟩ := hm
  have hpi := pi_pos
  have hphi : ∀ v, 0 ≤ (Batch.addPhi m v).ph ∧ (Batch.addPhi m v).ph < 2 * π :=
    fun v => ⟨pmod_nonneg _ two_pi_pos, pmod_lt _ two_pi_pos⟩
  have sp : ∀ (m : Muon) (d : ℝ), SamePlace m (Batch.addTheta m d) := by
    intro m d; unfold Batch.addTheta SamePlace; simp only; split <;> simp
  cases o1 with
  | none =>
    cases o2 with
    | none => simp [appO, SamePlace]; exact ⟨a1, by linarith, a3, a4⟩
    | some d =>
      simp only [appO, Option.getD_none, Option.getD_some, add_zero]
      exact ⟨sp m d, addTheta_dir m d, addTheta_range m d ⟨a3, a4⟩⟩
  | some v =>
    cases o2 with
    | none =>
      simp only [appO, Option.getD_none, Option.getD_some, add_zero]
      exact ⟨by simp [SamePlace, Batch.addPhi], addPhi_dir m v, a1, by simp only [Batch.addPhi]; linarith, hphi v⟩
    | some d =>
      simp only [appO, Option.getD_some]
      refine ⟨?_, ?_, addTheta_range _ d (hphi v)⟩
      · have := sp (Batch.addPhi m v) d
        simpa [SamePlace, Batch.addPhi] using this
      · rw [addTheta_dir]
        simp [dir, Batch.addPhi, sin_pmod, cos_pmod]

end C04

/-- relation between a muon with its requested change and the muon after scattering in theta, phi -/
def TurnedTo (md : Muon × ℝ × ℝ) (m' : Muon) : Prop :=
  SamePlace md.1 m' ∧ dir m'.th m'.ph = dir (md.1.th + md.2.1) (md.1.ph + md.2.2)

theorem forall₂_rows (f : Muon → Option ℝ → Option ℝ → Muon) (R : Muon × ℝ × ℝ → Muon → Prop)
    (hf : ∀ m o1 o2, Downward m → R (m, o2.getD 0, o1.getD 0) (f m o1 o2)) :
    ∀ (ms : List Muon) (os1 os2 : List (Option ℝ)), (∀ m ∈ ms, Downward m) → os1.length = ms.length → os2.length = ms.length →
      List.Forall₂ R (ms.zip ((os2.map (fun o => o.getD 0)).zip (os1.map (fun o => o.getD 0))))
        ((ms.zip (os1.zip os2)).map fun x => f x.1 x.2.1 x.2.2)
  | [], [], [], _, _, _ => by simp
  | m :: ms, o1 :: os1, o2 :: os2, h, h1, h2 => by
      simp only [List.map_cons, List.zip_cons_cons]
      refine List.Forall₂.cons (hf m o1 o2 (h m (by simp))) ?_
      exact forall₂_rows f R hf ms os1 os2 (fun x hx => h x (by simp [hx])) (by simpa using h1) (by simpa using h2)

theorem zipWith_zipWith (f g : Muon → Option ℝ → Muon) : ∀ (ms : List Muon) (os1 os2 : List (Option ℝ)),
    (ms.zipWith f os1).zipWith g os2 = (ms.zip (os1.zip os2)).map fun x => g (f x.1 x.2.1) x.2.2
  | [], os1, os2 => by simp
  | m :: ms, [], os2 => by simp
  | m :: ms, o :: os1, [] => by simp
  | m :: ms, o1 :: os1, o2 :: os2 => by simp [zipWith_zipWith f g ms os1 os2]

namespace C04

/-- **C04 (with the survivor part of C03).** `scatter_dtheta_dphi` on a batch of downward muons: the surviving
muons are, in order, exactly those whose new direction (polar angle `theta+dtheta`, azimuth `phi+dphi`) points strictly
downwards; each keeps its place and momentum, flies in exactly that direction, and has canonical angles. -/
theorem scatter_direction (b b' : Batch α) (dth dph : Option Arg) (mask : Option (List Bool))
    (hd : ∀ m ∈ b.muons, Downward m) (h : b.scatterDthetaDphi dth dph mask = .ok b') :
    List.Forall₂ TurnedTo
      ((b.muons.zip ((perMuon b.muons.length mask dth).zip (perMuon b.muons.length mask dph))).filter
        fun md => decide (0 < cos (md.1.th + md.2.1))) b'.muons ∧
    (∀ m ∈ b'.muons, Downward m) := by
  unfold Batch.scatterDthetaDphi at h
  obtain ⟨ms, hms, h⟩ := bind_ok h
  obtain ⟨hm, hl⟩ := resolveMask_ok hms
  obtain ⟨m1, h1, h⟩ := bind_ok h
  obtain ⟨m2, h2, h⟩ := bind_ok h
  simp at h; subst h
  obtain ⟨os1, l1, e1, r1⟩ := optUpd_rows hm hl rfl h1
  have hm1 : m1.length = b.muons.length := by rw [r1]; simp [l1]
  obtain ⟨os2, l2, e2, r2⟩ := optUpd_rows hm hl hm1 h2
  rw [e1, e2, (removeUpwards_spec b _).1]
  have hpi := pi_pos
  have hfa : List.Forall₂ (fun md m' => TurnedTo md m' ∧ (0 ≤ m'.th ∧ m'.th ≤ π ∧ 0 ≤ m'.ph ∧ m'.ph < 2 * π))
      (b.muons.zip ((os2.map (fun o => o.getD 0)).zip (os1.map (fun o => o.getD 0)))) m2 := by
    rw [r2, r1, zipWith_zipWith]
    apply forall₂_rows (fun m o1 o2 => appO Batch.addTheta (appO Batch.addPhi m o1) o2)
    · intro m o1 o2 hm
      obtain ⟨a1, a2, a3⟩ := appO_row m hm o1 o2
      exact ⟨⟨a1, a2⟩, a3⟩
    · exact hd
    · exact l1
    · exact l2
  have hkeep : ∀ (l : List Muon), ((l.map MuonOf.toRaw).filter Batch.keepRow).filterMap RawMuon.toMuon? =
      l.filter fun m => decide (m.th < π / 2) := by
    intro l
    induction l with
    | nil => rfl
    | cons m l ih =>
      by_cases hlt : m.th < π / 2
      · have : Batch.keepRow m.toRaw = true := by simp [Batch.keepRow, MuonOf.toRaw, hlt]
        simp only [List.map_cons, List.filter_cons, this, if_true, List.filterMap_cons, toMuon?_toRaw, hlt, decide_true, ih]
      · have : Batch.keepRow m.toRaw = false := by simp [Batch.keepRow, MuonOf.toRaw]; linarith
        simp [this, hlt, ih]
  rw [hkeep]
  have hf := forall₂_filter (p := fun md : Muon × ℝ × ℝ => decide (0 < cos (md.1.th + md.2.1)))
    (q := fun m : Muon => decide (m.th < π / 2)) hfa (by
      rintro md m' ⟨⟨-, hdir⟩, h0, hp, -⟩
      have hc : cos (md.1.th + md.2.1) = cos m'.th := by
        have := congrArg (fun v : ℝ × ℝ × ℝ => v.2.2) hdir
        simp only [dir] at this; linarith
      rw [hc]
      congr 1
      apply propext
      constructor
      · intro hcp
        by_contra hge
        push Not at hge
        have := cos_nonpos_of_pi_div_two_le_of_le hge (by linarith)
        linarith
      · intro hlt; exact cos_pos_of_mem_Ioo ⟨by linarith, hlt⟩)
  refine ⟨hf.imp (fun _ _ h => h.1), ?_⟩
  intro m hmem
  obtain ⟨hmem2, hlt⟩ := List.mem_filter.mp hmem
  have : ∀ m ∈ m2, 0 ≤ m.th ∧ m.th ≤ π ∧ 0 ≤ m.ph ∧ m.ph < 2 * π := by
    intro m hm
    obtain ⟨md, -, hmd⟩ := forall₂_mem_right hfa m hm
    exact hmd.2
  obtain ⟨a1, a2, a3, a4⟩ := this m hmem2
  exact ⟨a1, by simpa using hlt, a3, a4⟩

/-- Non-vacuity: a muon at 45 degrees turned by a full turn plus nothing survives with the same direction. -/
example : ∃ b', (Batch.init (α := Nat) [(0, 0, 1, π / 4, 1)] 1).scatterDthetaDphi (some (.scalar (2 * π))) none none = .ok b' ∧
    (∀ m ∈ (Batch.init (α := Nat) [(0, 0, 1, π / 4, 1)] 1).muons, Downward m) := by
  refine ⟨_, rfl, ?_⟩
  intro m hm
  simp [Batch.init] at hm
  subst hm
  have := two_le_pi
  exact ⟨by simp only; positivity, by simp only; linarith, by simp only; norm_num, by simp only; linarith⟩

end C04

namespace C05

/-- **C05, forth and back.** A non-vertical downward direction survives the conversion to projected angles and back. -/
theorem theta_phi_roundtrip (th ph : ℝ) (h0 : 0 < th) (h1 : th < π / 2) (p0 : 0 ≤ ph) (p1 : ph < 2 * π) :
    ∃ tx ty, thetaXFromThetaPhi th ph = some tx ∧ thetaYFromThetaPhi th ph = some ty ∧
      thetaFromThetaXY tx ty = some th ∧ phiFromThetaXY tx ty = some ph := by
  obtain ⟨tx, ty, e1, e2, e3, ex, ey, ax, ay⟩ := theta_roundtrip (ph := ph) h0.le h1
  exact ⟨tx, ty, e1, e2, e3, phi_of_polar ax ay (tan_pos_of_pos_of_lt_pi_div_two h0 h1) p0 p1 ex ey⟩

/-- **C05, back and forth.** Every non-zero pair of projected angles below pi/2 determines canonical angles that project back to it. -/
theorem theta_xy_roundtrip (tx ty : ℝ) (hx : |tx| < π / 2) (hy : |ty| < π / 2) (hne : tx ≠ 0 ∨ ty ≠ 0) :
    ∃ th ph, thetaFromThetaXY tx ty = some th ∧ phiFromThetaXY tx ty = some ph ∧
      0 < th ∧ th < π / 2 ∧ 0 ≤ ph ∧ ph < 2 * π ∧
      thetaXFromThetaPhi th ph = some tx ∧ thetaYFromThetaPhi th ph = some ty := by
  have ht : tan tx ≠ 0 ∨ tan ty ≠ 0 := by
    rcases hne with h | h
    · left; intro h'; exact h ((neg_of_tan_neg hx).2.1.mpr h')
    · right; intro h'; exact h ((neg_of_tan_neg hy).2.1.mpr h')
  obtain ⟨ph, p0, p1, ex, ey⟩ := polar_exists (tan tx) (tan ty) ht
  have hpos : 0 < sqrt (tan tx ^ 2 + tan ty ^ 2) := by
    apply sqrt_pos.mpr
    rcases ht with h | h
    · have := sq_pos_of_ne_zero (a := tan tx) h; have := sq_nonneg (tan ty); linarith
    · have := sq_pos_of_ne_zero (a := tan ty) h; have := sq_nonneg (tan tx); linarith
  have hlt := arctan_lt_pi_div_two (sqrt (tan tx ^ 2 + tan ty ^ 2))
  refine ⟨arctan (sqrt (tan tx ^ 2 + tan ty ^ 2)), ph, ?_, phi_of_polar hx hy hpos p0 p1 ex ey, ?_, hlt, p0, p1, ?_, ?_⟩
  · unfold thetaFromThetaXY; rw [if_neg (by push Not; exact ⟨hx, hy⟩)]
  · exact arctan_pos.mpr hpos
  · unfold thetaXFromThetaPhi
    rw [if_neg (not_le.mpr hlt), tan_arctan, ← ex, arctan_tan (abs_lt.mp hx).1 (abs_lt.mp hx).2]
  · unfold thetaYFromThetaPhi
    rw [if_neg (not_le.mpr hlt), tan_arctan, ← ey, arctan_tan (abs_lt.mp hy).1 (abs_lt.mp hy).2]

/-- **C05, directions that are not downward** have no angles: the conversions give NaN exactly for them. -/
theorem nan_iff (a b : ℝ) :
    (thetaFromThetaXY a b = none ↔ π / 2 ≤ |a| ∨ π / 2 ≤ |b|) ∧
    (phiFromThetaXY a b = none ↔ π / 2 ≤ |a| ∨ π / 2 ≤ |b| ∨ (a = 0 ∧ b = 0)) ∧
    (thetaXFromThetaPhi a b = none ↔ π / 2 ≤ a) ∧ (thetaYFromThetaPhi a b = none ↔ π / 2 ≤ a) := by
  refine ⟨?_, ?_, ?_, ?_⟩
  · unfold thetaFromThetaXY
    by_cases h : |a| ≥ π / 2 ∨ |b| ≥ π / 2
    · rw [if_pos h]; simp [ge_iff_le] at h ⊢; exact h
    · rw [if_neg h]; simp [ge_iff_le] at h ⊢; exact h
  · by_cases h : |a| ≥ π / 2 ∨ |b| ≥ π / 2
    · constructor
      · intro _
        rcases h with h | h
        · exact .inl h
        · exact .inr (.inl h)
      · intro _; unfold phiFromThetaXY; rw [if_pos h]
    · have h' := h
      push Not at h'
      by_cases hz : a = 0 ∧ b = 0
      · rw [hz.1, hz.2] at *
        simp [phiFromThetaXY, arctanDiv]
      · have hne : a ≠ 0 ∨ b ≠ 0 := by
          by_contra hc
          push Not at hc
          exact hz hc
        obtain ⟨th, ph, -, e2, -⟩ := theta_xy_roundtrip a b h'.1 h'.2 hne
        rw [e2]
        simp only [reduceCtorEq, false_iff, not_or, not_le]
        exact ⟨h'.1, h'.2, hz⟩
  · unfold thetaXFromThetaPhi
    split <;> simp_all
  · unfold thetaYFromThetaPhi
    split <;> simp_all

/-- **C05, the vertical direction.** For `theta = 0` the library cannot recover phi: it is NaN whatever phi was. -/
theorem vertical_phi_lost (ph : ℝ) :
    ∃ tx ty, thetaXFromThetaPhi 0 ph = some tx ∧ thetaYFromThetaPhi 0 ph = some ty ∧
      thetaFromThetaXY tx ty = some 0 ∧ phiFromThetaXY tx ty = none := by
  have hpi := pi_pos
  have hn : ¬ (0 : ℝ) ≥ π / 2 := by push Not; linarith
  refine ⟨0, 0, by simp [thetaXFromThetaPhi, hpi], by simp [thetaYFromThetaPhi, hpi], ?_, ?_⟩
  · simp [thetaFromThetaXY, hpi]
  · simp [phiFromThetaXY, arctanDiv]

end C05

/-- projected angles asked for by a scattering in projected angles -/
def XYTarget (md : Muon × ℝ × ℝ) (tx ty : ℝ) : Prop :=
  tx = arctan (tan md.1.th * cos md.1.ph) + md.2.1 ∧ ty = arctan (tan md.1.th * sin md.1.ph) + md.2.2

namespace C05

/-- one selected row of `scatter_dtheta_xy` -/
theorem row_spec (m : Muon) (hm : Downward m) (dx dy : ℝ) :
    let tx := arctan (tan m.th * cos m.ph) + dx
    let ty := arctan (tan m.th * sin m.ph) + dy
    Batch.scatterXYRow m.toRaw dx dy = { m.toRaw with th := thetaFromThetaXY tx ty, ph := phiFromThetaXY tx ty } := by
  have h : ¬ m.th ≥ π / 2 := not_le.mpr hm.2.1
  simp [Batch.scatterXYRow, MuonOf.toRaw, thetaXFromThetaPhi, thetaYFromThetaPhi, h]

/-- **C05/C03.** A selected downward muon scattered by `(dtheta_x, dtheta_y)` is kept iff both new projected angles are below pi/2 in size
and they are not both zero; the kept muon has exactly these projected angles, its old place, and canonical angles. -/
theorem scatter_xy_row (m : Muon) (hm : Downward m) (dx dy : ℝ) :
    let tx := arctan (tan m.th * cos m.ph) + dx
    let ty := arctan (tan m.th * sin m.ph) + dy
    (Batch.keepRow (Batch.scatterXYRow m.toRaw dx dy) = true ↔ (|tx| < π / 2 ∧ |ty| < π / 2 ∧ (tx ≠ 0 ∨ ty ≠ 0))) ∧
    (∀ m', RawMuon.toMuon? (Batch.scatterXYRow m.toRaw dx dy) = some m' →
      SamePlace m m' ∧ Downward m' ∧ thetaXFromThetaPhi m'.th m'.ph = some tx ∧ thetaYFromThetaPhi m'.th m'.ph = some ty) := by
  intro tx ty
  rw [row_spec m hm dx dy]
  have hpi := pi_pos
  by_cases hx : |tx| < π / 2
  · by_cases hy : |ty| < π / 2
    · by_cases hne : tx ≠ 0 ∨ ty ≠ 0
      · obtain ⟨th, ph, e1, e2, t0, t1, p0, p1, ex, ey⟩ := theta_xy_roundtrip tx ty hx hy hne
        refine ⟨⟨fun _ => ⟨hx, hy, hne⟩, fun _ => ?_⟩, ?_⟩
        · simp only [Batch.keepRow]; rw [e1, e2]; simp [t1]
        · intro m' hm'
          simp only [RawMuon.toMuon?] at hm'
          rw [e1, e2] at hm'
          simp at hm'; subst hm'
          exact ⟨by simp [SamePlace, MuonOf.toRaw], ⟨t0.le, t1, p0, p1⟩, ex, ey⟩
      · have hne' := hne
        push Not at hne
        have e2 : phiFromThetaXY tx ty = none := by
          rw [hne.1, hne.2]; simp [phiFromThetaXY, arctanDiv]
        refine ⟨⟨fun hk => ?_, fun hc => absurd hc.2.2 hne'⟩, ?_⟩
        · simp only [Batch.keepRow] at hk; rw [e2] at hk; simp at hk
        · intro m' hm'; simp only [RawMuon.toMuon?] at hm'; rw [e2] at hm'; simp at hm'
    · have e2 : phiFromThetaXY tx ty = none := by
        unfold phiFromThetaXY; rw [if_pos (Or.inr (not_lt.mp hy))]
      refine ⟨⟨fun hk => ?_, fun hc => absurd hc.2.1 hy⟩, ?_⟩
      · simp only [Batch.keepRow] at hk; rw [e2] at hk; simp at hk
      · intro m' hm'; simp only [RawMuon.toMuon?] at hm'; rw [e2] at hm'; simp at hm'
  · have e2 : phiFromThetaXY tx ty = none := by
      unfold phiFromThetaXY; rw [if_pos (Or.inl (not_lt.mp hx))]
    refine ⟨⟨fun hk => ?_, fun hc => absurd hc.1 hx⟩, ?_⟩
    · simp only [Batch.keepRow] at hk; rw [e2] at hk; simp at hk
    · intro m' hm'; simp only [RawMuon.toMuon?] at hm'; rw [e2] at hm'; simp at hm'

/-- **C05.** Scattering a downward, non-vertical muon by zero leaves it exactly as it was. -/
theorem zero_scatter_identity (m : Muon) (hm : Downward m) (hv : 0 < m.th) :
    Batch.scatterXYRow m.toRaw 0 0 = m.toRaw := by
  obtain ⟨h0, h1, p0, p1⟩ := hm
  obtain ⟨tx, ty, e1, e2, e3, e4⟩ := theta_phi_roundtrip m.th m.ph hv h1 p0 p1
  simp [Batch.scatterXYRow, MuonOf.toRaw, e1, e2, e3, e4]

/-- **C05, finding.** "Scattering by zero changes nothing" is false for vertical muons: the muon is thrown away. -/
theorem zero_scatter_violated :
    ∃ b b' : Batch Nat, (∀ m ∈ b.muons, Downward m) ∧ b.muons.length = 1 ∧
      b.scatterDthetaXY (some (.scalar 0)) (some (.scalar 0)) none = .ok b' ∧ b'.muons = [] := by
  refine ⟨Batch.init [(0, 0, 1, 0, 0)] 1, _, ?_, rfl, rfl, ?_⟩
  · intro m hm
    simp [Batch.init] at hm; subst hm
    have := pi_pos
    exact ⟨le_refl _, by simp only; linarith, le_refl _, by simp only; linarith⟩
  · rw [(removeUpwards_spec _ _).1]
    have hpi := pi_pos
    have hr : Batch.scatterXYRow (⟨0, 0, 0, 1, 1, some 0, some 0⟩ : RawMuon) 0 0 = ⟨0, 0, 0, 1, 1, some 0, none⟩ := by
      have hn : ¬ π / 2 ≤ 0 := by linarith
      simp [Batch.scatterXYRow, thetaXFromThetaPhi, thetaYFromThetaPhi, thetaFromThetaXY, phiFromThetaXY, arctanDiv, hn]
    simp [Batch.init, MuonOf.toRaw, List.replicate_succ, hr, Batch.keepRow]

end C05

namespace C03

/-- **C03 for scattering in theta, phi**: whatever the change and mask, every muon left has canonical downward angles. -/
theorem dthetaDphi_downward (b b' : Batch α) (dth dph : Option Arg) (mask : Option (List Bool))
    (hd : ∀ m ∈ b.muons, Downward m) (h : b.scatterDthetaDphi dth dph mask = .ok b') : ∀ m ∈ b'.muons, Downward m :=
  (C04.scatter_direction b b' dth dph mask hd h).2

theorem keepRow_iff (r : RawMuon) : Batch.keepRow r = true ↔ GoesDown r := by
  unfold Batch.keepRow GoesDown
  cases r.th <;> cases r.ph <;> simp

open Classical in
/-- **C03 for scattering in projected angles**: every muon left has canonical downward angles, and the removed rows are exactly the
rows that do not qualify. -/
theorem dthetaXY_downward (b b' : Batch α) (dtx dty : Option Arg) (mask : Option (List Bool))
    (hd : ∀ m ∈ b.muons, Downward m) (h : b.scatterDthetaXY dtx dty mask = .ok b') :
    (∀ m ∈ b'.muons, Downward m) ∧
    ∃ raws : List RawMuon,
      List.Forall₂ (fun (md : Muon × ℝ × ℝ) r => r.id = md.1.id ∧ r.x = md.1.x ∧ r.y = md.1.y ∧ r.z = md.1.z ∧ r.p = md.1.p ∧
          ((r = md.1.toRaw ∧ md.2 = (0, 0)) ∨ r = Batch.scatterXYRow md.1.toRaw md.2.1 md.2.2))
        (b.muons.zip ((perMuon b.muons.length mask dtx).zip (perMuon b.muons.length mask dty))) raws ∧
      b'.muons.map MuonOf.toRaw = raws.filter (fun r => decide (GoesDown r)) ∧
      b'.removed = b.removed ++ raws.filter (fun r => decide (¬ GoesDown r)) := by
  have hk : (fun r => decide (GoesDown r)) = Batch.keepRow := by
    funext r
    rw [Bool.eq_iff_iff, decide_eq_true_iff, keepRow_iff]
  have hk' : (fun r => decide (¬ GoesDown r)) = fun r => !Batch.keepRow r := by
    funext r
    rw [← hk]; simp
  rw [hk, hk']
  unfold Batch.scatterDthetaXY at h
  obtain ⟨ms, hms, h⟩ := bind_ok h
  obtain ⟨hm, hl⟩ := resolveMask_ok hms
  obtain ⟨xs, hx, h⟩ := bind_ok h
  obtain ⟨ys, hy, h⟩ := bind_ok h
  simp only [Except.ok.injEq] at h
  obtain ⟨lx, ex⟩ := optArg_rows hm hl hx
  obtain ⟨ly, ey⟩ := optArg_rows hm hl hy
  have hrows : ∀ (ms : List Bool) (mu : List Muon) (xs ys : List ℝ), (∀ m ∈ mu, Downward m) → ms.length = mu.length →
      xs.length = countTrue ms → ys.length = countTrue ms →
      List.Forall₂ (fun (md : Muon × ℝ × ℝ) r => r.id = md.1.id ∧ r.x = md.1.x ∧ r.y = md.1.y ∧ r.z = md.1.z ∧ r.p = md.1.p ∧
          ((r = md.1.toRaw ∧ md.2 = (0, 0)) ∨ r = Batch.scatterXYRow md.1.toRaw md.2.1 md.2.2))
        (mu.zip ((changes ms xs).zip (changes ms ys)))
        (maskedUpd ms (mu.map MuonOf.toRaw) (xs.zip ys) fun m d => Batch.scatterXYRow m d.1 d.2) ∧
      ∀ r ∈ (maskedUpd ms (mu.map MuonOf.toRaw) (xs.zip ys) fun m d => Batch.scatterXYRow m d.1 d.2),
        ∀ m', RawMuon.toMuon? r = some m' → Downward m' := by
    intro ms
    induction ms with
    | nil => intro mu xs ys _ h _ _; cases mu <;> simp_all [changes]
    | cons s ms ih =>
      intro mu xs ys hd h hx hy
      cases mu with
      | nil => simp at h
      | cons m mu =>
        have hd' : ∀ m ∈ mu, Downward m := fun m' hm' => hd m' (by simp [hm'])
        have hdm := hd m (by simp)
        cases s with
        | true =>
          cases xs with
          | nil => simp at hx
          | cons x xs =>
            cases ys with
            | nil => simp at hy
            | cons y ys =>
              obtain ⟨i1, i2⟩ := ih mu xs ys hd' (by simpa using h) (by simpa using hx) (by simpa using hy)
              simp only [changes, List.zip_cons_cons, List.map_cons, maskedUpd_true]
              refine ⟨List.Forall₂.cons ?_ i1, ?_⟩
              · have := row_eq m hdm x y
                exact ⟨this.1, this.2.1, this.2.2.1, this.2.2.2.1, this.2.2.2.2, Or.inr rfl⟩
              · intro r hr
                rcases List.mem_cons.mp hr with rfl | hr
                · intro m' hm'; exact ((C05.scatter_xy_row m hdm x y).2 m' hm').2.1
                · exact i2 r hr
        | false =>
          obtain ⟨i1, i2⟩ := ih mu xs ys hd' (by simpa using h) (by simpa using hx) (by simpa using hy)
          simp only [changes, List.zip_cons_cons, List.map_cons, maskedUpd_false]
          refine ⟨List.Forall₂.cons ⟨rfl, rfl, rfl, rfl, rfl, Or.inl ⟨rfl, rfl⟩⟩ i1, ?_⟩
          intro r hr
          rcases List.mem_cons.mp hr with rfl | hr
          · intro m' hm'; rw [toMuon?_toRaw] at hm'; simp at hm'; subst hm'; exact hdm
          · exact i2 r hr
  obtain ⟨f1, f2⟩ := hrows ms b.muons xs ys hd hl lx ly
  rw [← ex, ← ey] at f1
  subst h
  obtain ⟨s1, s2⟩ := removeUpwards_spec b (maskedUpd ms (b.muons.map MuonOf.toRaw) (xs.zip ys) fun m d => Batch.scatterXYRow m d.1 d.2)
  refine ⟨?_, _, f1, ?_, s2⟩
  · intro m hm'
    rw [s1] at hm'
    obtain ⟨r, hr, hrm⟩ := List.mem_filterMap.mp hm'
    exact f2 r (List.mem_of_mem_filter hr) m hrm
  · rw [s1]
    have : ∀ (l : List RawMuon), (∀ r ∈ l, Batch.keepRow r = true) → (l.filterMap RawMuon.toMuon?).map MuonOf.toRaw = l := by
      intro l hl
      rw [kept_rows MuonOf.toRaw id ?_ l hl]
      · simp
      · intro r m' h'
        obtain ⟨a1, a2, a3, a4, a5, a6, a7⟩ := toMuon?_id h'
        obtain ⟨id, x, y, z, p, th, ph⟩ := r
        simp_all [MuonOf.toRaw]
    exact this _ (fun r hr => (List.mem_filter.mp hr).2)
where
  row_eq (m : Muon) (hm : Downward m) (x y : ℝ) :
      (Batch.scatterXYRow m.toRaw x y).id = m.id ∧ (Batch.scatterXYRow m.toRaw x y).x = m.x ∧
      (Batch.scatterXYRow m.toRaw x y).y = m.y ∧ (Batch.scatterXYRow m.toRaw x y).z = m.z ∧
      (Batch.scatterXYRow m.toRaw x y).p = m.p := by
    rw [C05.row_spec m hm x y]; exact ⟨rfl, rfl, rfl, rfl, rfl⟩

/-- Non-vacuity: a batch with a slanted muon satisfies the hypotheses and is scattered successfully. -/
example : ∃ b', (Batch.init (α := Nat) [(0, 0, 1, π / 4, 1)] 1).scatterDthetaXY (some (.scalar 7)) (some (.vec [1])) (some [true]) = .ok b' ∧
    (∀ m ∈ (Batch.init (α := Nat) [(0, 0, 1, π / 4, 1)] 1).muons, Downward m) := by
  refine ⟨_, rfl, ?_⟩
  intro m hm
  simp [Batch.init] at hm
  subst hm
  have := two_le_pi
  exact ⟨by simp only; positivity, by simp only; linarith, by simp only; norm_num, by simp only; linarith⟩

end C03

namespace C06

theorem propDz_zero (m : Muon) : Batch.propDzRow m 0 = m := by simp [Batch.propDzRow]
theorem propD_zero (m : Muon) : Batch.propDRow m 0 = m := by simp [Batch.propDRow]

/-- **C06, propagate_dz on one muon**: it sinks by exactly `dz`, along its own direction, and keeps angles, momentum and identity. -/
theorem propDz_moves (m : Muon) (dz : ℝ) (hc : cos m.th ≠ 0) :
    let m' := Batch.propDzRow m dz
    m'.z = m.z - dz ∧
    (∃ t : ℝ, t * cos m.th = dz ∧ m'.x = m.x + t * (dir m.th m.ph).1 ∧ m'.y = m.y + t * (dir m.th m.ph).2.1 ∧
      m'.z = m.z + t * (dir m.th m.ph).2.2) ∧
    m'.th = m.th ∧ m'.ph = m.ph ∧ m'.p = m.p ∧ m'.id = m.id := by
  refine ⟨rfl, ⟨dz / cos m.th, by field_simp, ?_, ?_, ?_⟩, rfl, rfl, rfl, rfl⟩
  · simp only [Batch.propDzRow, dir]; ring
  · simp only [Batch.propDzRow, dir]; ring
  · simp only [Batch.propDzRow, dir]; field_simp; ring

/-- **C06, propagate_d on one muon**: it moves by `d` along its own unit direction, hence by distance `|d|`. -/
theorem propD_moves (m : Muon) (d : ℝ) :
    let m' := Batch.propDRow m d
    m'.x = m.x + d * (dir m.th m.ph).1 ∧ m'.y = m.y + d * (dir m.th m.ph).2.1 ∧ m'.z = m.z + d * (dir m.th m.ph).2.2 ∧
    sqrt ((m'.x - m.x) ^ 2 + (m'.y - m.y) ^ 2 + (m'.z - m.z) ^ 2) = |d| ∧
    m'.th = m.th ∧ m'.ph = m.ph ∧ m'.p = m.p ∧ m'.id = m.id := by
  refine ⟨?_, ?_, ?_, ?_, rfl, rfl, rfl, rfl⟩
  · simp only [Batch.propDRow, dir]; ring
  · simp only [Batch.propDRow, dir]; ring
  · simp only [Batch.propDRow, dir]; ring
  · have : ((Batch.propDRow m d).x - m.x) ^ 2 + ((Batch.propDRow m d).y - m.y) ^ 2 + ((Batch.propDRow m d).z - m.z) ^ 2 = d ^ 2 := by
      simp only [Batch.propDRow]
      have h1 := sin_sq_add_cos_sq m.th
      have h2 := sin_sq_add_cos_sq m.ph
      calc _ = d ^ 2 * (sin m.th ^ 2 * (sin m.ph ^ 2 + cos m.ph ^ 2) + cos m.th ^ 2) := by ring
        _ = d ^ 2 := by rw [h2, mul_one, h1, mul_one]
    rw [this, sqrt_sq_eq_abs]

theorem propDz_add (m : Muon) (a c : ℝ) : Batch.propDzRow (Batch.propDzRow m a) c = Batch.propDzRow m (a + c) := by
  simp only [Batch.propDzRow, MuonOf.mk.injEq, true_and, and_true]
  refine ⟨by ring, by ring, by ring⟩

theorem propD_add (m : Muon) (a c : ℝ) : Batch.propDRow (Batch.propDRow m a) c = Batch.propDRow m (a + c) := by
  simp only [Batch.propDRow, MuonOf.mk.injEq, true_and, and_true]
  refine ⟨by ring, by ring, by ring⟩

/-- the two propagations agree for `d = dz / cos theta` -/
theorem propD_eq_propDz (m : Muon) (dz : ℝ) (hc : cos m.th ≠ 0) :
    Batch.propDRow m (dz / cos m.th) = Batch.propDzRow m dz := by
  simp only [Batch.propDRow, Batch.propDzRow, MuonOf.mk.injEq, true_and, and_true]
  field_simp

theorem appO_zip (f : Muon → ℝ → Muon) (hz : ∀ m, f m 0 = m) : ∀ (ms : List Muon) (os : List (Option ℝ)),
    ms.zipWith (appO f) os = ms.zipWith f (os.map fun o => o.getD 0)
  | [], os => by simp
  | m :: ms, [] => by simp
  | m :: ms, o :: os => by
      simp only [List.zipWith_cons_cons, List.map_cons, appO_zip f hz ms os]
      cases o <;> simp [appO, hz]

/-- **C06, batches.** `propagate_dz` moves every muon by its own amount (zero for unselected muons) and changes nothing else in the batch. -/
theorem propagateDz_batch (b b' : Batch α) (dz : Arg) (mask : Option (List Bool)) (h : b.propagateDz dz mask = .ok b') :
    b'.muons = b.muons.zipWith Batch.propDzRow (perMuon b.muons.length mask (some dz)) ∧
    b'.removed = b.removed ∧ b'.hits = b.hits ∧ b'.hist = b.hist := by
  unfold Batch.propagateDz at h
  obtain ⟨ms, hms, h⟩ := bind_ok h
  obtain ⟨hm, hl⟩ := resolveMask_ok hms
  obtain ⟨vs, hv, h⟩ := bind_ok h
  simp at h; subst h
  obtain ⟨h1, h2⟩ := expand_ok hm hl hv
  refine ⟨?_, rfl, rfl, rfl⟩
  rw [maskedUpd_zip _ ms b.muons vs hl h1, h2, changes_spreadO ms vs h1, appO_zip _ propDz_zero]

/-- **C06, batches.** Same for `propagate_d`. -/
theorem propagateD_batch (b b' : Batch α) (d : Arg) (mask : Option (List Bool)) (h : b.propagateD d mask = .ok b') :
    b'.muons = b.muons.zipWith Batch.propDRow (perMuon b.muons.length mask (some d)) ∧
    b'.removed = b.removed ∧ b'.hits = b.hits ∧ b'.hist = b.hist := by
  unfold Batch.propagateD at h
  obtain ⟨ms, hms, h⟩ := bind_ok h
  obtain ⟨hm, hl⟩ := resolveMask_ok hms
  obtain ⟨vs, hv, h⟩ := bind_ok h
  simp at h; subst h
  obtain ⟨h1, h2⟩ := expand_ok hm hl hv
  refine ⟨?_, rfl, rfl, rfl⟩
  rw [maskedUpd_zip _ ms b.muons vs hl h1, h2, changes_spreadO ms vs h1, appO_zip _ propD_zero]

theorem changes_add (v w : ℝ) : ∀ (ms : List Muon) (bs : List Bool) (k : Nat), bs.length = ms.length → countTrue bs ≤ k →
    (ms.zipWith Batch.propDzRow (changes bs (List.replicate k v))).zipWith Batch.propDzRow (changes bs (List.replicate k w)) =
      ms.zipWith Batch.propDzRow (changes bs (List.replicate k (v + w)))
  | [], _, _, _, _ => by simp
  | m :: ms, [], _, h, _ => by simp at h
  | m :: ms, true :: bs, 0, _, h => by simp at h
  | m :: ms, true :: bs, k + 1, h1, h2 => by
      simp only [List.replicate_succ, changes, List.zipWith_cons_cons, propDz_add]
      rw [changes_add v w ms bs k (by simpa using h1) (by simpa using h2)]
  | m :: ms, false :: bs, k, h1, h2 => by
      simp only [changes, List.zipWith_cons_cons, propDz_zero]
      rw [changes_add v w ms bs k (by simpa using h1) (by simpa using h2)]

/-- **C06, batches.** Propagating by `a` and then by `c` (same muons selected) is propagating by `a + c`; with `c = -a` nothing changed. -/
theorem propagateDz_twice (b b1 b2 : Batch α) (a c : ℝ) (mask : Option (List Bool))
    (h1 : b.propagateDz (.scalar a) mask = .ok b1) (h2 : b1.propagateDz (.scalar c) mask = .ok b2) :
    b.propagateDz (.scalar (a + c)) mask = .ok b2 ∧ (c = -a → b2 = b) := by
  obtain ⟨m1, r1, hh1, hs1⟩ := propagateDz_batch b b1 _ _ h1
  obtain ⟨m2, r2, hh2, hs2⟩ := propagateDz_batch b1 b2 _ _ h2
  have hmask : (theMask b.muons.length mask).length = b.muons.length := by
    unfold Batch.propagateDz at h1
    obtain ⟨ms, hms, -⟩ := bind_ok h1
    obtain ⟨e, l⟩ := resolveMask_ok hms
    rw [← e, l]
  have hcl : ∀ (bs : List Bool) (k : Nat) (v : ℝ), countTrue bs ≤ k → (changes bs (List.replicate k v)).length = bs.length := by
    intro bs
    induction bs with
    | nil => intro k v _; simp [changes]
    | cons s bs ih =>
      intro k v hk
      cases s
      · simp only [changes, List.length_cons]; rw [ih k v (by simpa using hk)]
      · cases k with
        | zero => simp at hk
        | succ k => simp only [List.replicate_succ, changes, List.length_cons]; rw [ih k v (by simpa using hk)]
  have hct : countTrue (theMask b.muons.length mask) ≤ b.muons.length := by
    have := countTrue_le (theMask b.muons.length mask)
    rwa [hmask] at this
  have hlen : b1.muons.length = b.muons.length := by
    rw [m1]; simp only [perMuon, List.length_zipWith, hcl _ _ _ hct, hmask, min_self]
  have e2 : b2.muons = b.muons.zipWith Batch.propDzRow (perMuon b.muons.length mask (some (.scalar (a + c)))) := by
    rw [m2, hlen, m1]
    simp only [perMuon]
    exact changes_add a c b.muons _ _ hmask hct
  have hres : ∃ b3, b.propagateDz (.scalar (a + c)) mask = .ok b3 := by
    unfold Batch.propagateDz at h1 ⊢
    obtain ⟨ms, hms, -⟩ := bind_ok h1
    rw [hms]
    exact ⟨_, rfl⟩
  obtain ⟨b3, h3⟩ := hres
  obtain ⟨m3, r3, hh3, hs3⟩ := propagateDz_batch b b3 _ _ h3
  have : b3 = b2 := by
    cases b3; cases b2; simp_all
  subst this
  refine ⟨h3, ?_⟩
  intro hca
  subst hca
  have hz : ∀ (ms : List Muon) (bs : List Bool) (k : Nat), bs.length = ms.length → countTrue bs ≤ k →
      ms.zipWith Batch.propDzRow (changes bs (List.replicate k 0)) = ms := by
    intro ms
    induction ms with
    | nil => simp
    | cons m ms ih =>
      intro bs k hl hk
      cases bs with
      | nil => simp at hl
      | cons s bs =>
        cases s
        · simp only [changes, List.zipWith_cons_cons, propDz_zero]; rw [ih bs k (by simpa using hl) (by simpa using hk)]
        · cases k with
          | zero => simp at hk
          | succ k =>
            simp only [List.replicate_succ, changes, List.zipWith_cons_cons, propDz_zero]
            rw [ih bs k (by simpa using hl) (by simpa using hk)]
  have e3 : b3.muons = b.muons := by
    rw [e2]; simp only [perMuon, add_neg_cancel]; exact hz _ _ _ hmask hct
  cases b3; cases b; simp_all

theorem zip_rows (b b' : Batch α) (f : Muon → ℝ → Muon) (ls : List ℝ) (hl : ls.length = b.muons.length) (h : b'.muons = b.muons.zipWith f ls)
    (i : Nat) (m : Muon) (hm : b.muons[i]? = some m) : ∃ v, ls[i]? = some v ∧ b'.muons[i]? = some (f m v) := by
  have hi : i < ls.length := by rw [hl]; exact (List.getElem?_eq_some_iff.1 hm).1
  refine ⟨ls[i], List.getElem?_eq_getElem hi, ?_⟩
  rw [h, List.getElem?_zipWith, hm, List.getElem?_eq_getElem hi]

theorem arg_length (n : Nat) (a : Arg) (mask : Option (List Bool)) (ms : List Bool) (vs : List ℝ) (hm : ms = theMask n mask) (hl : ms.length = n)
    (h : a.expand (countTrue ms) = .ok vs) : (perMuon n mask (some a)).length = n := by
  obtain ⟨h1, h2⟩ := expand_ok hm hl h
  rw [h2, changes_spreadO ms vs h1, List.length_map, spreadO_length ms vs h1, hl]

/-- **C06, `propagate_dz`.** Every muon keeps its place in the batch and is moved on its own straight line, by its own amount `v` of height
(zero if the mask leaves it out); nothing else of the batch changes. -/
theorem dz_line (b b' : Batch α) (dz : Arg) (mask : Option (List Bool)) (hc : ∀ m ∈ b.muons, cos m.th ≠ 0) (h : b.propagateDz dz mask = .ok b') :
    b'.muons.length = b.muons.length ∧ b'.removed = b.removed ∧ b'.hits = b.hits ∧ b'.hist = b.hist ∧
    ∀ (i : Nat) m, b.muons[i]? = some m → ∃ v m', (perMuon b.muons.length mask (some dz))[i]? = some v ∧ b'.muons[i]? = some m' ∧
      m'.z = m.z - v ∧ ∃ t, t * cos m.th = v ∧ Along t m m' := by
  have hlen : (perMuon b.muons.length mask (some dz)).length = b.muons.length := by
    unfold Batch.propagateDz at h
    obtain ⟨ms, hms, h⟩ := bind_ok h
    obtain ⟨hm, hl⟩ := resolveMask_ok hms
    obtain ⟨vs, hv, h⟩ := bind_ok h
    exact arg_length _ _ _ ms vs hm hl hv
  obtain ⟨h1, h2, h3, h4⟩ := propagateDz_batch b b' dz mask h
  refine ⟨by rw [h1, List.length_zipWith, hlen, min_self], h2, h3, h4, fun i m hm => ?_⟩
  obtain ⟨v, hv, hb⟩ := zip_rows b b' _ _ hlen h1 i m hm
  obtain ⟨g1, ⟨t, g2, g3, g4, g5⟩, g6, g7, g8, g9⟩ := propDz_moves m v (hc m (List.mem_of_getElem? hm))
  exact ⟨v, _, hv, hb, g1, t, g2, g3, g4, g5, g6, g7, g8, g9⟩

/-- **C06, `propagate_d`.** The same with a distance along the flight direction in place of a height. -/
theorem d_line (b b' : Batch α) (d : Arg) (mask : Option (List Bool)) (h : b.propagateD d mask = .ok b') :
    b'.muons.length = b.muons.length ∧ b'.removed = b.removed ∧ b'.hits = b.hits ∧ b'.hist = b.hist ∧
    ∀ (i : Nat) m, b.muons[i]? = some m → ∃ v m', (perMuon b.muons.length mask (some d))[i]? = some v ∧ b'.muons[i]? = some m' ∧
      Along v m m' ∧ sqrt ((m'.x - m.x) ^ 2 + (m'.y - m.y) ^ 2 + (m'.z - m.z) ^ 2) = |v| := by
  have hlen : (perMuon b.muons.length mask (some d)).length = b.muons.length := by
    unfold Batch.propagateD at h
    obtain ⟨ms, hms, h⟩ := bind_ok h
    obtain ⟨hm, hl⟩ := resolveMask_ok hms
    obtain ⟨vs, hv, h⟩ := bind_ok h
    exact arg_length _ _ _ ms vs hm hl hv
  obtain ⟨h1, h2, h3, h4⟩ := propagateD_batch b b' d mask h
  refine ⟨by rw [h1, List.length_zipWith, hlen, min_self], h2, h3, h4, fun i m hm => ?_⟩
  obtain ⟨v, hv, hb⟩ := zip_rows b b' _ _ hlen h1 i m hm
  obtain ⟨g3, g4, g5, g1, g6, g7, g8, g9⟩ := propD_moves m v
  exact ⟨v, _, hv, hb, ⟨g3, g4, g5, g6, g7, g8, g9⟩, g1⟩

/-- **C06, the two agree.** A muon that is not horizontal is moved to the same place by height `dz` and by distance `dz / cos theta`. -/
theorem d_eq_dz (b b1 b2 : Batch α) (v : ℝ) (c : ℝ) (hcz : c ≠ 0) (hc : ∀ m ∈ b.muons, cos m.th = c) (mask : Option (List Bool))
    (h1 : b.propagateDz (.scalar v) mask = .ok b1) (h2 : b.propagateD (.scalar (v / c)) mask = .ok b2) : b1 = b2 := by
  obtain ⟨a1, a2, a3, a4⟩ := propagateDz_batch b b1 _ mask h1
  obtain ⟨c1, c2, c3, c4⟩ := propagateD_batch b b2 _ mask h2
  have hm : b1.muons = b2.muons := by
    rw [a1, c1]
    simp only [perMuon]
    generalize theMask b.muons.length mask = ms
    have : ∀ (l : List Muon) (ms : List Bool) (k : Nat), (∀ m ∈ l, cos m.th = c) →
        List.zipWith Batch.propDzRow l (changes ms (List.replicate k v)) = List.zipWith Batch.propDRow l (changes ms (List.replicate k (v / c))) := by
      intro l
      induction l with
      | nil => intros; simp
      | cons m l ih =>
        intro ms k hl
        cases ms with
        | nil => simp [changes]
        | cons s ms =>
          cases s
          · simp only [changes, List.zipWith_cons_cons, propDz_zero, propD_zero]
            rw [ih ms k fun m hm => hl m (List.mem_cons_of_mem _ hm)]
          · cases k with
            | zero => simp [changes]
            | succ k =>
              have hmc := hl m (List.mem_cons_self ..)
              simp only [List.replicate_succ, changes, List.zipWith_cons_cons]
              rw [ih ms k fun m hm => hl m (List.mem_cons_of_mem _ hm), ← hmc, propD_eq_propDz m v (by rw [hmc]; exact hcz)]
    exact this b.muons ms _ hc
  cases b1; cases b2; simp_all

/-- Non-vacuity: two muons, only the second selected. -/
example : ∃ b1 b2, (Batch.init (α := Nat) [(0, 0, 1, 0, 0), (1, 1, 1, 0, 0)] 1).propagateDz (.scalar 3) (some [false, true]) = .ok b1 ∧
    b1.propagateDz (.scalar (-3)) (some [false, true]) = .ok b2 := ⟨_, _, rfl, rfl⟩

end C06

namespace C07

/-- **C07.** The mask has one entry per muon and selects exactly the muons with `low ≤ xy < high`; a missing bound is no bound. -/
theorem window_spec (b : Batch α) (low high : Option (ℝ × ℝ)) (i : Nat) (m : Muon) (hm : b.muons[i]? = some m) :
    (b.xyMask low high).length = b.muons.length ∧
    ((b.xyMask low high)[i]? = some true ↔
      (∀ l, low = some l → l.1 ≤ m.x ∧ l.2 ≤ m.y) ∧ (∀ h, high = some h → m.x < h.1 ∧ m.y < h.2)) := by
  refine ⟨by simp [Batch.xyMask], ?_⟩
  simp only [Batch.xyMask, List.getElem?_map, hm, Option.map_some, Option.some.injEq]
  cases low <;> cases high <;> (simp [Batch.inWindow]; try tauto)

/-- **C07, tiling.** Cutting a window in two in x (or in y) splits its muons without overlap. -/
theorem window_split_x (m : Muon) (l h : ℝ × ℝ) (c : ℝ) (hc : l.1 ≤ c ∧ c ≤ h.1) :
    (Batch.inWindow (some l) (some h) m = true ↔
      Batch.inWindow (some l) (some (c, h.2)) m = true ∨ Batch.inWindow (some (c, l.2)) (some h) m = true) ∧
    ¬ (Batch.inWindow (some l) (some (c, h.2)) m = true ∧ Batch.inWindow (some (c, l.2)) (some h) m = true) := by
  simp only [Batch.inWindow, Bool.and_eq_true, decide_eq_true_eq]
  constructor
  · constructor
    · rintro ⟨⟨⟨h1, h2⟩, h3⟩, h4⟩
      rcases lt_or_ge m.x c with hx | hx
      · exact Or.inl ⟨⟨⟨h1, hx⟩, h3⟩, h4⟩
      · exact Or.inr ⟨⟨⟨hx, h2⟩, h3⟩, h4⟩
    · rintro (⟨⟨⟨h1, h2⟩, h3⟩, h4⟩ | ⟨⟨⟨h1, h2⟩, h3⟩, h4⟩)
      · exact ⟨⟨⟨h1, by linarith [hc.2]⟩, h3⟩, h4⟩
      · exact ⟨⟨⟨by linarith [hc.1], h2⟩, h3⟩, h4⟩
  · rintro ⟨⟨⟨⟨_, h2⟩, _⟩, _⟩, ⟨⟨⟨h1, _⟩, _⟩, _⟩⟩
    linarith

/-- **C07, tiling.** Every muon is in exactly one cell of any regular grid. -/
theorem exactly_one_cell (m : Muon) (s : ℝ) (hs : 0 < s) :
    ∃! ij : ℤ × ℤ, Batch.inWindow (some (ij.1 * s, ij.2 * s)) (some ((ij.1 + 1) * s, (ij.2 + 1) * s)) m = true := by
  have key : ∀ (v : ℝ) (i : ℤ), ((i : ℝ) * s ≤ v ∧ v < ((i : ℝ) + 1) * s) ↔ ⌊v / s⌋ = i := by
    intro v i
    rw [Int.floor_eq_iff, le_div_iff₀ hs, div_lt_iff₀ hs]
  refine ⟨(⌊m.x / s⌋, ⌊m.y / s⌋), ?_, ?_⟩
  · simp only [Batch.inWindow, Bool.and_eq_true, decide_eq_true_eq, ge_iff_le]
    have hx := (key m.x ⌊m.x / s⌋).mpr rfl
    have hy := (key m.y ⌊m.y / s⌋).mpr rfl
    exact ⟨⟨⟨hx.1, hx.2⟩, hy.1⟩, hy.2⟩
  · rintro ⟨i, j⟩ h
    simp only [Batch.inWindow, Bool.and_eq_true, decide_eq_true_eq, ge_iff_le] at h
    obtain ⟨⟨⟨h1, h2⟩, h3⟩, h4⟩ := h
    rw [← (key m.x i).mp ⟨h1, h2⟩, ← (key m.y j).mp ⟨h3, h4⟩]

end C07

end Tomopt
