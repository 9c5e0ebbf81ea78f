import Verif.Model.SignedZero
import Verif.Props.C03_07

/- C86: scattering in projected angles, with the negative zero of floating point. -/
namespace Tomopt

open Real SZ

noncomputable section

namespace C86

/-- the size of a change: absent is zero -/
def size (d : Option SF) : ℝ := (d.map SF.val).getD 0

theorem add_val (a b : SF) : (a.add b).val = a.val + b.val := by
  cases a <;> cases b <;> simp [SF.add, SF.val]

theorem addOpt_val (a : SF) (d : Option SF) : (addOpt a d).val = a.val + size d := by
  cases d with
  | none => simp [addOpt, size]
  | some d => simp [addOpt, size, add_val]

/-- a sum is negative zero only if both terms are, or one is and the other absent -/
theorem addOpt_neg (a : SF) (d : Option SF) (h : addOpt a d = .negZero) : a = .negZero ∧ (d = none ∨ d = some .negZero) := by
  cases d with
  | none => exact ⟨h, .inl rfl⟩
  | some d => cases a <;> cases d <;> simp [addOpt, SF.add] at h ⊢

theorem phi_num (x : ℝ) (ty : SF) : phi (.num x) ty = phiFromThetaXY x ty.val := rfl

/-- the muon goes towards positive (negative) y, and not towards x -/
def TowardsY (sign : ℝ) (r : RawMuon) : Prop := ∃ t f, r.th = some t ∧ r.ph = some f ∧ sin t * cos f = 0 ∧ 0 < sign * (sin t * sin f)

/-- **C86, what holds.** Unless the muon is exactly vertical with an azimuth pointing to negative x, and the change of its angle in x is absent or a negative zero,
negative zeros make no difference: the muon gets the angles of the model without them (for which C03 and C05 hold). Missing: that case, see `reversed_violated`. -/
theorem agrees_partial (m : Muon) (hm : Downward m) (dx dy : Option SF) (h : 0 < m.th ∨ 0 ≤ cos m.ph ∨ ∃ x, dx = some (.num x)) :
    scatterRow m.toRaw dx dy = Batch.scatterXYRow m.toRaw (size dx) (size dy) := by
  have h1 : ¬ m.th ≥ π / 2 := not_le.mpr hm.2.1
  have hx : ∃ tx, thetaX m.th m.ph = some tx ∧ tx.val = arctan (tan m.th * cos m.ph) ∧ (tx = .negZero → m.th = 0 ∧ cos m.ph < 0) := by
    unfold thetaX
    rw [if_neg h1]
    by_cases hz : m.th = 0 ∧ cos m.ph < 0
    · rw [if_pos hz]; exact ⟨_, rfl, by simp [hz.1, SF.val], fun _ => hz⟩
    · rw [if_neg hz]; exact ⟨_, rfl, rfl, by simp⟩
  have hy : ∃ ty, thetaY m.th m.ph = some ty ∧ ty.val = arctan (tan m.th * sin m.ph) := by
    unfold thetaY
    rw [if_neg h1]
    by_cases hz : m.th = 0 ∧ sin m.ph < 0
    · rw [if_pos hz]; exact ⟨_, rfl, by simp [hz.1, SF.val]⟩
    · rw [if_neg hz]; exact ⟨_, rfl, rfl⟩
  obtain ⟨tx, e1, v1, z1⟩ := hx
  obtain ⟨ty, e2, v2⟩ := hy
  rw [C05.row_spec m hm]
  have hn : ∃ x, addOpt tx dx = .num x := by
    cases hc : addOpt tx dx with
    | num x => exact ⟨x, rfl⟩
    | negZero =>
      obtain ⟨ha, hb⟩ := addOpt_neg _ _ hc
      obtain ⟨c1, c2⟩ := z1 ha
      rcases h with h | h | ⟨x, rfl⟩
      · exact absurd c1 h.ne'
      · exact absurd c2 (not_lt.mpr h)
      · rcases hb with hb | hb <;> simp at hb
  obtain ⟨x, hx⟩ := hn
  have vx := addOpt_val tx dx
  rw [hx] at vx
  have vy := addOpt_val ty dy
  simp only [scatterRow, MuonOf.toRaw, e1, e2, hx, phi_num]
  change x = _ at vx
  rw [vy, show (SF.num x).val = x from rfl, vx, v1, v2]

/-- **C86 (violated).** An exactly vertical muon whose azimuth points to negative x, scattered only in the angle towards y: it leaves in the opposite direction,
with an azimuth outside of [0, 2π), and it is not removed. -/
theorem reversed_violated (m : Muon) (h0 : m.th = 0) (hc : cos m.ph < 0) (d : ℝ) (hd : 0 < |d|) (hd' : |d| < π / 2) (dx : Option SF)
    (hdx : dx = none ∨ dx = some .negZero) :
    TowardsY (-d) (scatterRow m.toRaw dx (some (.num d))) ∧ Batch.keepRow (scatterRow m.toRaw dx (some (.num d))) = true ∧
    ∃ f, (scatterRow m.toRaw dx (some (.num d))).ph = some f ∧ (f < 0 ∨ 2 * π ≤ f) := by
  have hpi := pi_pos
  have h1 : ¬ m.th ≥ π / 2 := by rw [h0]; push Not; linarith
  have e1 : thetaX m.th m.ph = some .negZero := by
    unfold thetaX
    rw [if_neg h1, if_pos ⟨h0, hc⟩]
  have e2 : ∃ ty, thetaY m.th m.ph = some ty ∧ ty.val = 0 := by
    unfold thetaY
    rw [if_neg h1]
    by_cases hz : m.th = 0 ∧ sin m.ph < 0
    · rw [if_pos hz]; exact ⟨_, rfl, rfl⟩
    · rw [if_neg hz]; exact ⟨_, rfl, by simp [SF.val, h0]⟩
  obtain ⟨ty, e2, v2⟩ := e2
  have a1 : addOpt .negZero dx = .negZero := by rcases hdx with rfl | rfl <;> rfl
  have a2 : addOpt ty (some (.num d)) = .num d := by
    show ty.add (.num d) = _
    cases ty with
    | num x => simp only [SF.val] at v2; simp [SF.add, SF.val, v2]
    | negZero => simp [SF.add, SF.val]
  have hrow : scatterRow m.toRaw dx (some (.num d)) =
      { m.toRaw with th := some (arctan (sqrt (tan d ^ 2))), ph := some (if 0 < d then -(π / 2) else π / 2 + 2 * π) } := by
    simp only [scatterRow, MuonOf.toRaw, e1, e2, a1, a2, phi, SF.val, arctanQuot]
    have hn : ¬ (|(0 : ℝ)| ≥ π / 2 ∨ |d| ≥ π / 2) := by
      push Not
      exact ⟨by rw [abs_zero]; linarith, hd'⟩
    have hth : thetaFromThetaXY 0 d = some (arctan (sqrt (tan d ^ 2))) := by
      unfold thetaFromThetaXY
      rw [if_neg hn]
      simp
    rw [hth, if_neg hn]
    have hlt := abs_lt.mp hd'
    rcases lt_or_gt_of_ne (abs_pos.mp hd) with hneg | hpos
    · have ht : tan d < 0 := tan_neg_of_neg_of_pi_div_two_lt hneg hlt.1
      simp [arctanDiv, not_lt.mpr ht.le, ht, hneg, not_lt.mpr hneg.le]
    · have ht : 0 < tan d := tan_pos_of_pos_of_lt_pi_div_two hpos hlt.2
      simp [arctanDiv, ht, hpos, not_lt.mpr hpos.le]
  rw [hrow]
  have hlt := abs_lt.mp hd'
  have ht0 : 0 < sqrt (tan d ^ 2) := by
    apply sqrt_pos.mpr
    rcases lt_or_gt_of_ne (abs_pos.mp hd) with hneg | hpos
    · exact sq_pos_of_ne_zero (tan_neg_of_neg_of_pi_div_two_lt hneg hlt.1).ne
    · exact sq_pos_of_ne_zero (tan_pos_of_pos_of_lt_pi_div_two hpos hlt.2).ne'
  have hth : 0 < sin (arctan (sqrt (tan d ^ 2))) :=
    sin_pos_of_pos_of_lt_pi (arctan_pos.mpr ht0) (by linarith [arctan_lt_pi_div_two (sqrt (tan d ^ 2))])
  refine ⟨⟨_, _, rfl, rfl, ?_, ?_⟩, ?_, _, rfl, ?_⟩
  · split
    · rw [cos_neg, cos_pi_div_two, mul_zero]
    · rw [cos_add_two_pi, cos_pi_div_two, mul_zero]
  · split
    · next h => rw [sin_neg, sin_pi_div_two]; nlinarith
    · next h =>
      have : d < 0 := lt_of_le_of_ne (not_lt.mp h) (abs_pos.mp hd)
      rw [sin_add_two_pi, sin_pi_div_two]; nlinarith
  · simp [Batch.keepRow, arctan_lt_pi_div_two]
  · split
    · left; linarith
    · right; linarith

/-- a vertical muon of azimuth π scattered by 0.1 towards positive y -/
example : TowardsY (-0.1) (scatterRow (⟨0, 0, 0, 1, 1, 0, π⟩ : Muon).toRaw none (some (.num 0.1))) := by
  have h := (reversed_violated (⟨0, 0, 0, 1, 1, 0, π⟩ : Muon) rfl (by simp) 0.1 (by norm_num) (by norm_num [abs_of_pos]; linarith [two_le_pi]) none (.inl rfl)).1
  exact h

/-- the hypotheses of `agrees_partial` -/
example : Downward (⟨0, 0, 0, 1, 1, 0.3, 3.5⟩ : Muon) ∧ (0 : ℝ) < (⟨0, 0, 0, 1, 1, 0.3, 3.5⟩ : Muon).th := by
  have := two_le_pi
  exact ⟨⟨by norm_num, by norm_num; linarith, by norm_num, by norm_num; linarith⟩, by norm_num⟩

end C86

end

end Tomopt
