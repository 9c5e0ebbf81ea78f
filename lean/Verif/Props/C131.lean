import Verif.Lemmas.AngleFl
import Verif.Props.C98
import Verif.Model.Materials

/- C131: scattering angles in floating point. -/
namespace Tomopt

noncomputable section

open Real Scatter Floats Infer

namespace C131

/-- the machine's `arccos` is right up to a relative error -/
def Accurate (ρ : ℝ) (ac : ℝ → ℝ) : Prop := ∀ c, -1 ≤ c → c ≤ 1 → |ac c - arccos c| ≤ ρ * arccos c

theorem step_le (p : Nat) (hp : 1 ≤ p) (c : ℝ) (hc : IsFloat p c) (h1 : c < 1) : 2 / 2 ^ p ≤ arccos c ^ 2 ∨ c < -1 := by
  rcases lt_or_ge c (-1) with h | h
  · exact .inr h
  · left
    have g : (1 : ℝ) ≤ 2 ^ p * (1 - c) := by
      rcases le_or_gt 0 c with h0 | h0
      · exact gap p hp c 1 hc (by simpa using isFloat_int p 1 (by simpa using one_le_pow₀ (by norm_num))) h1 h0
      · have : (1 : ℝ) ≤ 2 ^ p := one_le_pow₀ (by norm_num)
        nlinarith
    have b := one_sub_sq_div_two_le_cos (x := arccos c)
    rw [cos_arccos h h1.le] at b
    rw [div_le_iff₀ (by positivity)]
    have P : (0 : ℝ) < 2 ^ p := by positivity
    nlinarith [mul_le_mul_of_nonneg_left (by linarith : 2 * (1 - c) ≤ arccos c ^ 2) P.le]

/-- **C131.** Whatever the tracks, an angle that is neither zero nor NaN is at least about the square root of two units of rounding: small angles come in steps. -/
theorem steps (p : Nat) (hp : 1 ≤ p) (fl ac : ℝ → ℝ) (hf : Nearest p fl) (ρ : ℝ) (hρ : ρ ≤ 1) (ha : Accurate ρ ac) (v w : V3) (a : ℝ) (h : thetaMscFl fl ac v w = some a) :
    a = 0 ∨ (1 - ρ) * sqrt (2 / 2 ^ p) ≤ a := by
  simp only [thetaMscFl, arccosFl] at h
  split at h
  · simp at h
  · split at h
    · rename_i hc
      obtain rfl := Option.some.inj h
      have hA := ha _ hc.1 hc.2
      have nn := arccos_nonneg (cosFl fl v w)
      rcases eq_or_lt_of_le hc.2 with h1 | h1
      · left
        rw [h1] at hA ⊢
        simpa using hA
      · right
        rcases step_le p hp _ (hf _).1 h1 with h2 | h2
        · have h3 : sqrt (2 / 2 ^ p) ≤ arccos (cosFl fl v w) := sqrt_le_iff.mpr ⟨nn, h2⟩
          have := mul_le_mul_of_nonneg_left h3 (by linarith : 0 ≤ 1 - ρ)
          have := (abs_le.mp hA).1
          linarith
        · exact absurd hc.1 (not_le.mpr h2)
    · simp at h

/-- what the true and the computed angle are made of -/
theorem unpack (p : Nat) (hp : 10 ≤ p) (fl : ℝ → ℝ) (hf : Nearest p fl) (v w : V3) (θ : ℝ) (ht : thetaMsc v w = some θ) :
    0 < fl (normFl fl v * normFl fl w) ∧ |cosFl fl v w - cos θ| ≤ 12 / 2 ^ p ∧ 0 ≤ θ ∧ 12 / 2 ^ p ≤ (12 / 1024 : ℝ) := by
  simp only [thetaMsc] at ht
  split at ht
  · simp at ht
  · rename_i hN
    obtain rfl := Option.some.inj ht
    have hN' : 0 < vnorm v * vnorm w := lt_of_le_of_ne (mul_nonneg (sqrt_nonneg _) (sqrt_nonneg _)) (Ne.symm hN)
    have P : (1024 : ℝ) ≤ 2 ^ p := by have := pow_le_pow_right₀ (by norm_num : (1 : ℝ) ≤ 2) hp; linarith
    have hs : (1 : ℝ) / 2 ^ p ≤ 1 / 1024 := one_div_le_one_div_of_le (by norm_num) P
    obtain ⟨h1, h2⟩ := cos_err (1 / 2 ^ p) (by positivity) hs fl (fun x => nearest_rel p p (by omega) le_rfl fl hf x) v w hN'
    have c1 : |vdot v w / (vnorm v * vnorm w)| ≤ 1 := by
      rw [abs_div, abs_of_pos hN', div_le_one hN']
      refine le_trans ?_ (cauchy v w)
      simp only [vdot]
      exact le_trans (abs_add_le _ _) (add_le_add (abs_add_le _ _) le_rfl)
    rw [cos_arccos (abs_le.mp c1).1 (abs_le.mp c1).2]
    rw [mul_one_div] at h2
    refine ⟨h1, h2, arccos_nonneg _, ?_⟩
    rw [show (12 : ℝ) / 2 ^ p = 12 * (1 / 2 ^ p) by ring]
    linarith

/-- **C131.** The square of the angle, which is what X0 is computed from, is right up to sixty units of rounding, and up to what is wrong with `arccos`. -/
theorem accuracy (p : Nat) (hp : 10 ≤ p) (fl ac : ℝ → ℝ) (hf : Nearest p fl) (ρ : ℝ) (h0 : 0 ≤ ρ) (h1 : ρ ≤ 1) (ha : Accurate ρ ac) (v w : V3) (θ a : ℝ)
    (ht : thetaMsc v w = some θ) (hθ : θ ≤ 1) (h : thetaMscFl fl ac v w = some a) : |a ^ 2 - θ ^ 2| ≤ 60 / 2 ^ p + 3 * ρ * (θ ^ 2 + 60 / 2 ^ p) := by
  obtain ⟨hM, hc, hθ0, hu⟩ := unpack p hp fl hf v w θ ht
  rw [thetaMscFl, if_neg hM.ne', arccosFl] at h
  split at h
  · rename_i hr
    obtain rfl := Option.some.inj h
    have hA := ha _ hr.1 hr.2
    have b0 := arccos_nonneg (cosFl fl v w)
    have cb := cos_arccos hr.1 hr.2
    have half : 1 / 2 ≤ cos θ := by have := one_sub_sq_div_two_le_cos (x := θ); nlinarith
    have hc' := abs_le.mp hc
    have bπ : arccos (cosFl fl v w) ≤ π / 2 := by
      rw [arccos_le_pi_div_two]; linarith
    have tπ : θ ≤ π / 2 := by have := two_le_pi; linarith
    generalize arccos (cosFl fl v w) = b at *
    rw [← cb] at hc'
    have hb : |b ^ 2 - θ ^ 2| ≤ 60 / 2 ^ p := by
      have e : (60 : ℝ) / 2 ^ p = 5 * (12 / 2 ^ p) := by ring
      rw [e, abs_le]
      rcases le_total b θ with h | h
      · have := sq_of_cos b θ b0 h (by linarith)
        have : b ^ 2 ≤ θ ^ 2 := pow_le_pow_left₀ b0 h 2
        constructor <;> linarith
      · have := sq_of_cos θ b hθ0 h (by linarith)
        have : θ ^ 2 ≤ b ^ 2 := pow_le_pow_left₀ hθ0 h 2
        constructor <;> linarith
    have hab : |ac (cosFl fl v w) ^ 2 - b ^ 2| ≤ 3 * ρ * b ^ 2 := by
      rw [sq_sub_sq, abs_mul]
      have s : |ac (cosFl fl v w) + b| ≤ 3 * b := by
        have := abs_le.mp hA
        have : ρ * b ≤ b := by nlinarith
        rw [abs_le]; constructor <;> linarith
      have := mul_le_mul s hA (abs_nonneg _) (by linarith)
      linarith
    have t := abs_add_le (ac (cosFl fl v w) ^ 2 - b ^ 2) (b ^ 2 - θ ^ 2)
    rw [sub_add_sub_cancel] at t
    have := mul_le_mul_of_nonneg_left (by have := (abs_le.mp hb).2; linarith : b ^ 2 ≤ θ ^ 2 + 60 / 2 ^ p) (by positivity : 0 ≤ 3 * ρ)
    linarith
  · simp at h

/-- **C131.** Muons whose squared angle exceeds sixty units of rounding are never taken for unscattered: the filter keeps them. -/
theorem kept (p : Nat) (hp : 10 ≤ p) (fl ac : ℝ → ℝ) (hf : Nearest p fl) (ρ : ℝ) (h1 : ρ < 1) (ha : Accurate ρ ac) (v w : V3) (θ : ℝ)
    (ht : thetaMsc v w = some θ) (hθ : θ ≤ π / 2) (hb : 60 / 2 ^ p < θ ^ 2) : scattersFl (thetaMscFl fl ac v w) := by
  obtain ⟨hM, hc, hθ0, hu⟩ := unpack p hp fl hf v w θ ht
  have hc' := abs_le.mp hc
  have s := sq_of_cos 0 θ le_rfl hθ0 (by linarith [pi_pos])
  rw [cos_zero] at s
  have e : (60 : ℝ) / 2 ^ p = 5 * (12 / 2 ^ p) := by ring
  have c0 := cos_nonneg_of_neg_pi_div_two_le_of_le (by linarith [pi_pos] : -(π / 2) ≤ θ) hθ
  have r1 : -1 ≤ cosFl fl v w := by linarith
  have r2 : cosFl fl v w < 1 := by linarith
  refine ⟨ac (cosFl fl v w), by rw [thetaMscFl, if_neg hM.ne', arccosFl, if_pos ⟨r1, r2.le⟩], ?_⟩
  have hA := (abs_le.mp (ha _ r1 r2.le)).1
  have : 0 < arccos (cosFl fl v w) := arccos_pos.mpr r2
  have : 0 < (1 - ρ) * arccos (cosFl fl v w) := mul_pos (by linarith) this
  exact ne_of_gt (by linarith)

theorem vnorm_pos (v : V3) (hv : v ≠ 0) : 0 < vnorm v := by
  refine sqrt_pos.mpr (lt_of_le_of_ne (vdot_self_nonneg v) fun h => hv ?_)
  obtain ⟨x, y, z⟩ := v
  simp only [vdot] at h
  have hx : x = 0 := by nlinarith [mul_self_nonneg x, mul_self_nonneg y, mul_self_nonneg z]
  have hy : y = 0 := by nlinarith [mul_self_nonneg x, mul_self_nonneg y, mul_self_nonneg z]
  have hz : z = 0 := by nlinarith [mul_self_nonneg x, mul_self_nonneg y, mul_self_nonneg z]
  simp [hx, hy, hz]

/-- **C131.** The angle of a track to the vertical is never NaN, whatever is rounded: its cosine is not rounded out of the range of `arccos`. -/
theorem vertical (p : Nat) (hp : 10 ≤ p) (fl ac : ℝ → ℝ) (hf : Nearest p fl) (v : V3) (hz : IsFloat p v.2.2) (hv : v ≠ 0) : ∃ a, thetaFl fl ac v = some a := by
  have f0 : ∀ x, 0 ≤ x → 0 ≤ fl x := fun x hx => nearest_ge p fl hf x 0 (isFloat_zero p) hx
  have n0 : 0 < normFl fl v := by
    have P : (1024 : ℝ) ≤ 2 ^ p := by have := pow_le_pow_right₀ (by norm_num : (1 : ℝ) ≤ 2) hp; linarith
    have hs : (1 : ℝ) / 2 ^ p ≤ 1 / 1024 := one_div_le_one_div_of_le (by norm_num) P
    have := (norm_err (1 / 2 ^ p) (by positivity) hs fl (fun x => nearest_rel p p (by omega) le_rfl fl hf x) v).1
    exact lt_of_lt_of_le (mul_pos (by linarith) (vnorm_pos v hv)) this
  have k2 : |v.2.2| ≤ normFl fl v := by
    rcases eq_or_ne v.2.2 0 with h0 | h0
    · rw [h0, abs_zero]; exact n0.le
    · have hz' : IsFloat p |v.2.2| := by
        rcases abs_choice v.2.2 with h | h <;> rw [h]
        · exact hz
        · exact isFloat_neg p _ hz
      refine le_trans (sqrt_sq p (by omega) fl hf _ hz' (abs_pos.mpr h0)) (mono p fl hf (sqrt_le_sqrt ?_))
      rw [abs_mul_abs_self, dotFl]
      exact nearest_ge p fl hf _ _ (hf _).1 (le_add_of_nonneg_left (f0 _ (add_nonneg (f0 _ (mul_self_nonneg _)) (f0 _ (mul_self_nonneg _)))))
  have q : |-v.2.2 / normFl fl v| ≤ 1 := by rw [abs_div, abs_neg, abs_of_pos n0, div_le_one n0]; exact k2
  have one : IsFloat p 1 := by simpa using isFloat_int p 1 (by simpa using one_le_pow₀ (by norm_num))
  have r1 := nearest_le p fl hf _ 1 one (abs_le.mp q).2
  have r2 := nearest_ge p fl hf _ (-1) (isFloat_neg p 1 one) (abs_le.mp q).1
  simp only [thetaFl, if_neg n0.ne', arccosFl, if_pos (And.intro r2 r1)]
  split
  · exact ⟨_, rfl⟩
  · exact ⟨_, rfl⟩

theorem one24 : IsFloat 24 (1 : ℝ) := ⟨1, 0, by norm_num, by norm_num⟩

/-- **C131, violated.** A muon that leaves as it came, at 45 degrees to the vertical, has no scattering angle in single precision, where exact arithmetic gives zero: the cosine is rounded to more than one. -/
theorem unscattered_violated (fl ac : ℝ → ℝ) (hf : Nearest 24 fl) :
    thetaMsc (1, 0, -1) (1, 0, -1) = some 0 ∧ thetaMscFl fl ac (1, 0, -1) (1, 0, -1) = none := by
  have s1 : fl 1 = 1 := nearest_self 24 fl hf 1 one24
  have s0 : fl 0 = 0 := nearest_self 24 fl hf 0 (isFloat_zero 24)
  have s2 : fl 2 = 2 := nearest_self 24 fl hf 2 ⟨2, 0, by norm_num, by norm_num⟩
  have r2 : sqrt 2 * sqrt 2 = 2 := mul_self_sqrt (by norm_num)
  refine ⟨?_, ?_⟩
  · have d : vdot (1, 0, -1) (1, 0, -1) = 2 := by norm_num [vdot]
    rw [thetaMsc, vnorm, d, r2, if_neg (by norm_num)]
    norm_num
  · have d : dotFl fl (1, 0, -1) (1, 0, -1) = 2 := by
      norm_num [dotFl, s1, s0, s2]
    have n : normFl fl (1, 0, -1) = 11863283 / 8388608 := by
      rw [normFl, d]
      have lo : 1.4142135 < sqrt 2 := by rw [lt_sqrt (by norm_num)]; norm_num
      have hi : sqrt 2 < 1.41421357 := by rw [sqrt_lt' (by norm_num)]; norm_num
      have := nearest_eq 24 (by norm_num) fl hf 0 11863283 (sqrt 2) (by rw [zpow_zero]; linarith) (by norm_num) (by norm_num [abs_lt]; constructor <;> linarith)
      rw [this]; norm_num
    have m : fl (11863283 / 8388608 * (11863283 / 8388608)) = 16777215 / 8388608 := by
      have := nearest_eq 24 (by norm_num) fl hf 0 16777215 (11863283 / 8388608 * (11863283 / 8388608)) (by norm_num) (by norm_num) (by norm_num [abs_lt])
      rw [this]; norm_num
    have q : fl (2 / (16777215 / 8388608)) = 8388609 / 8388608 := by
      have := nearest_eq 24 (by norm_num) fl hf 0 8388609 (2 / (16777215 / 8388608)) (by norm_num) (by norm_num) (by norm_num [abs_lt])
      rw [this]; norm_num
    rw [thetaMscFl, cosFl, d, n, m, q, if_neg (by norm_num), arccosFl, if_neg (by norm_num)]

/-- **C131, violated.** A muon that comes vertically and is scattered, by less than 61 millionths of a radian, has scattering angle zero in single precision, and so is left out as one that was not scattered. -/
theorem lost_violated (fl ac : ℝ → ℝ) (hf : Nearest 24 fl) (ρ : ℝ) (ha : Accurate ρ ac) :
    (∃ θ, thetaMsc (0, 0, -1) (1 / 16384, 0, -1) = some θ ∧ 0 < θ) ∧ ¬ scattersFl (thetaMscFl fl ac (0, 0, -1) (1 / 16384, 0, -1)) := by
  have s1 : fl 1 = 1 := nearest_self 24 fl hf 1 one24
  have s0 : fl 0 = 0 := nearest_self 24 fl hf 0 (isFloat_zero 24)
  refine ⟨?_, ?_⟩
  · have d1 : vdot (0, 0, -1) (0, 0, -1) = 1 := by norm_num [vdot]
    have d2 : vdot (1 / 16384, 0, -1) (1 / 16384, 0, -1) = 268435457 / 268435456 := by norm_num [vdot]
    have d : vdot (0, 0, -1) (1 / 16384, 0, -1) = 1 := by norm_num [vdot]
    have g : 1 < sqrt (268435457 / 268435456) := by rw [lt_sqrt (by norm_num)]; norm_num
    refine ⟨arccos (1 / (1 * sqrt (268435457 / 268435456))), by rw [thetaMsc, vnorm, vnorm, d1, d2, d, sqrt_one, if_neg (by linarith)], ?_⟩
    rw [arccos_pos, one_mul, div_lt_one (by linarith)]
    exact g
  · have d1 : dotFl fl (0, 0, -1) (0, 0, -1) = 1 := by norm_num [dotFl, s1, s0]
    have d : dotFl fl (0, 0, -1) (1 / 16384, 0, -1) = 1 := by norm_num [dotFl, s1, s0]
    have t : fl (1 / 268435456) = 1 / 268435456 := nearest_self 24 fl hf _ ⟨1, -28, by norm_num, by norm_num⟩
    have r : fl (268435457 / 268435456) = 1 := by
      have := nearest_eq 24 (by norm_num) fl hf 0 8388608 (268435457 / 268435456) (by norm_num) (by norm_num) (by norm_num [abs_lt])
      rw [this]; norm_num
    have d2 : dotFl fl (1 / 16384, 0, -1) (1 / 16384, 0, -1) = 1 := by
      norm_num [dotFl, s1, s0] at t r ⊢
      rw [t, t]; norm_num [r]
    have : thetaMscFl fl ac (0, 0, -1) (1 / 16384, 0, -1) = some (ac 1) := by
      have n1 : normFl fl (0, 0, -1) = 1 := by rw [normFl, d1, sqrt_one, s1]
      have n2 : normFl fl (1 / 16384, 0, -1) = 1 := by rw [normFl, d2, sqrt_one, s1]
      rw [thetaMscFl, cosFl, n1, n2, d, mul_one, s1, div_one, s1, if_neg (by norm_num), arccosFl, if_pos (by norm_num)]
    have a1 : ac 1 = 0 := by simpa using ha 1 (by norm_num) le_rfl
    rw [this, a1]
    rintro ⟨a, h, hne⟩
    exact hne (Option.some.inj h).symm

/-- **C131, violated.** No angle below an eighth of a thousandth of a radian is reported, in single precision, to within a factor of two: it becomes zero, or NaN, or more than twice what it is. -/
theorem small_violated (fl ac : ℝ → ℝ) (hf : Nearest 24 fl) (ha : Accurate (1 / 100) ac) (v w : V3) (θ : ℝ) (_ : thetaMsc v w = some θ) (hθ : θ < 1 / 8000) :
    ¬ scattersFl (thetaMscFl fl ac v w) ∨ ∃ a, thetaMscFl fl ac v w = some a ∧ 2 * θ < a := by
  by_cases h : scattersFl (thetaMscFl fl ac v w)
  · right
    obtain ⟨a, h1, h2⟩ := h
    refine ⟨a, h1, ?_⟩
    have := (steps 24 (by norm_num) fl ac hf (1 / 100) (by norm_num) ha v w a h1).resolve_left h2
    have g : 0.000345 < sqrt (2 / 2 ^ 24) := by rw [lt_sqrt (by norm_num)]; norm_num
    linarith
  · exact .inl h

theorem wmean_ge {β : Type} (w f : β → ℝ) (c : ℝ) (l : List β) (hne : l ≠ []) (h : ∀ m ∈ l, 0 < w m) (hf : ∀ m ∈ l, c ≤ f m) : c ≤ C98.wmean w f l := by
  rw [C98.wmean, le_div_iff₀ (C98.sum_pos_of w l hne h), ← C71.sum_mul_left]
  exact List.sum_le_sum fun m hm => by nlinarith [h m hm, hf m hm]

theorem wmean_le {β : Type} (w f : β → ℝ) (c : ℝ) (l : List β) (hne : l ≠ []) (h : ∀ m ∈ l, 0 < w m) (hf : ∀ m ∈ l, f m ≤ c) : C98.wmean w f l ≤ c := by
  rw [C98.wmean, div_le_iff₀ (C98.sum_pos_of w l hne h), ← C71.sum_mul_left]
  exact List.sum_le_sum fun m hm => by nlinarith [h m hm, hf m hm]

/-- the muon's scattering angle was computed in floating point, from some tracks -/
def Reported (fl ac : ℝ → ℝ) (m : C98.Seen) : Prop := ∃ v w, thetaMscFl fl ac v w = some m.row.scat

/-- **C131.** Since angles come in steps, there is a largest X0 that can be predicted: whatever the material and the tracks, the estimate of a voxel does not exceed a bound that depends only on the precision, the voxel's size, the
least momentum and the largest angle to the vertical. -/
theorem ceiling (p : Nat) (hp : 1 ≤ p) (fl ac : ℝ → ℝ) (hf : Nearest p fl) (ρ : ℝ) (hρ : ρ < 1) (ha : Accurate ρ ac) (big size P T : ℝ) (hs : 0 < size) (hP : 0 < P) (hT : T < π / 2)
    (ms : List C98.Seen) (hne : ms ≠ []) (hg : ∀ m ∈ ms, C98.Good m) (hr : ∀ m ∈ ms, Reported fl ac m) (hm : ∀ m ∈ ms, P ≤ m.row.mom) (hin : ∀ m ∈ ms, m.row.thIn ≤ T) (hout : ∀ m ∈ ms, m.row.thOut ≤ T) :
    ∃ x, C98.predicted big size ms = .num x ∧ x ≤ scatterCoefA ^ 2 * size * 2 ^ p / (P ^ 2 * (1 - ρ) ^ 2 * cos T) := by
  refine ⟨_, C98.estimate big size ms hne hg, ?_⟩
  obtain ⟨m0, hm0⟩ := List.exists_mem_of_ne_nil ms hne
  have T0 : 0 < T := lt_of_lt_of_le (hg m0 hm0).thIn.1 (hin m0 hm0)
  have w1 : ∀ m ∈ ms, 0 < C98.weight (·.scat) (·.scatUnc) m := fun m hm => C98.weight_pos (hg m hm).eff (hg m hm).prob (hg m hm).scat (hg m hm).scatUnc
  have w2 : ∀ m ∈ ms, 0 < C98.weight (·.thIn) (·.thInUnc) m := fun m hm => C98.weight_pos (hg m hm).eff (hg m hm).prob (hg m hm).thIn.1 (hg m hm).thInUnc
  have w3 : ∀ m ∈ ms, 0 < C98.weight (·.thOut) (·.thOutUnc) m := fun m hm => C98.weight_pos (hg m hm).eff (hg m hm).prob (hg m hm).thOut.1 (hg m hm).thOutUnc
  have w4 : ∀ m ∈ ms, 0 < m.eff * m.prob := fun m hm => mul_pos (hg m hm).eff (hg m hm).prob
  have hS : (1 - ρ) ^ 2 * (2 / 2 ^ p) ≤ C98.wmean (C98.weight (·.scat) (·.scatUnc)) (fun m => m.row.scat ^ 2) ms :=
    wmean_ge _ _ _ ms hne w1 fun m hm => by
      obtain ⟨v, w, h⟩ := hr m hm
      have := (steps p hp fl ac hf ρ hρ.le ha v w _ h).resolve_left (hg m hm).scat.ne'
      have h2 := pow_le_pow_left₀ (mul_nonneg (by linarith) (sqrt_nonneg _)) this 2
      rwa [mul_pow, sq_sqrt (by positivity)] at h2
  have hM : P ^ 2 ≤ C98.wmean (fun m : C98.Seen => m.eff * m.prob) (fun m => m.row.mom ^ 2) ms :=
    wmean_ge _ _ _ ms hne w4 fun m h => pow_le_pow_left₀ hP.le (hm m h) 2
  have cosle : ∀ s, 0 ≤ s → s ≤ T ^ 2 → cos T ≤ cos (sqrt s) := fun s h0 h => by
    apply cos_le_cos_of_nonneg_of_le_pi (sqrt_nonneg _) (by linarith [pi_pos])
    rw [sqrt_le_left T0.le]; exact h
  have c1 := cosle (C98.wmean (C98.weight (·.thIn) (·.thInUnc)) (fun m => m.row.thIn ^ 2) ms) (wmean_ge _ _ _ ms hne w2 fun m _ => sq_nonneg _)
    (wmean_le _ _ _ ms hne w2 fun m h => pow_le_pow_left₀ (hg m h).thIn.1.le (hin m h) 2)
  have c2 := cosle (C98.wmean (C98.weight (·.thOut) (·.thOutUnc)) (fun m => m.row.thOut ^ 2) ms) (wmean_ge _ _ _ ms hne w3 fun m _ => sq_nonneg _)
    (wmean_le _ _ _ ms hne w3 fun m h => pow_le_pow_left₀ (hg m h).thOut.1.le (hout m h) 2)
  have cT : 0 < cos T := cos_pos_of_mem_Ioo ⟨by linarith [pi_pos], hT⟩
  rw [C98.fromSquares]
  generalize C98.wmean (C98.weight (·.scat) (·.scatUnc)) (fun m => m.row.scat ^ 2) ms = S at *
  generalize C98.wmean (fun m : C98.Seen => m.eff * m.prob) (fun m => m.row.mom ^ 2) ms = M at *
  generalize cos (sqrt (C98.wmean (C98.weight (·.thIn) (·.thInUnc)) (fun m => m.row.thIn ^ 2) ms)) = C1 at *
  generalize cos (sqrt (C98.wmean (C98.weight (·.thOut) (·.thOutUnc)) (fun m => m.row.thOut ^ 2) ms)) = C2 at *
  have r0 : 0 < (1 - ρ) ^ 2 := pow_pos (by linarith) 2
  have den : P ^ 2 * ((1 - ρ) ^ 2 * (2 / 2 ^ p) / 2) * cos T ≤ M * (S / 2) * ((C1 + C2) / 2) := by
    have M0 : 0 ≤ M := le_trans (by positivity) hM
    have S0 : 0 ≤ S := le_trans (by positivity) hS
    have := mul_le_mul hM (by linarith : (1 - ρ) ^ 2 * (2 / 2 ^ p) / 2 ≤ S / 2) (by positivity) M0
    exact mul_le_mul this (by linarith) cT.le (by positivity)
  have lhs0 : 0 < P ^ 2 * ((1 - ρ) ^ 2 * (2 / 2 ^ p) / 2) * cos T := by positivity
  have hA : 0 ≤ scatterCoefA ^ 2 * size := by positivity
  calc scatterCoefA ^ 2 * size / (M * (S / 2) * ((C1 + C2) / 2)) ≤ scatterCoefA ^ 2 * size / (P ^ 2 * ((1 - ρ) ^ 2 * (2 / 2 ^ p) / 2) * cos T) :=
        div_le_div_of_nonneg_left hA lhs0 den
    _ = scatterCoefA ^ 2 * size * 2 ^ p / (P ^ 2 * (1 - ρ) ^ 2 * cos T) := by
      have := cT.ne'
      have := r0.ne'
      have := hP.ne'
      field_simp

/-- **C131, violated.** In single precision, with muons of at least 5 GeV that are less than a radian from the vertical, a voxel of 10 cm is never predicted to have a tenth of the X0 of air. -/
theorem air_violated (fl ac : ℝ → ℝ) (hf : Nearest 24 fl) (ha : Accurate (1 / 100) ac) (big : ℝ) (ms : List C98.Seen) (hne : ms ≠ []) (hg : ∀ m ∈ ms, C98.Good m) (hr : ∀ m ∈ ms, Reported fl ac m)
    (hm : ∀ m ∈ ms, 5 ≤ m.row.mom) (hin : ∀ m ∈ ms, m.row.thIn ≤ 1) (hout : ∀ m ∈ ms, m.row.thOut ≤ 1) : 
    ∃ x, ∃ a : ℚ, C98.predicted big 0.1 ms = .num x ∧ x0Table.lookup "air" = some a ∧ x < a / 10 := by
  have h1 : (1 : ℝ) < π / 2 := by linarith [pi_gt_three]
  obtain ⟨x, h, hx⟩ := ceiling 24 (by norm_num) fl ac hf (1 / 100) (by norm_num) ha big 0.1 5 1 (by norm_num) (by norm_num) h1 ms hne hg hr hm hin hout
  refine ⟨x, 303.9, h, rfl, lt_of_le_of_lt hx ?_⟩
  have c : 1 / 2 ≤ cos 1 := by have := one_sub_sq_div_two_le_cos (x := (1 : ℝ)); linarith
  rw [div_lt_iff₀ (by positivity), scatterCoefA]
  norm_num at *
  nlinarith

theorem exact_arccos (ρ : ℝ) (h : 0 ≤ ρ) : Accurate ρ arccos := fun c _ _ => by
  rw [sub_self, abs_zero]; exact mul_nonneg h (arccos_nonneg c)

/-- a muon scattered from the vertical by 45 degrees -/
theorem wide : thetaMsc (0, 0, -1) (1, 0, -1) = some (π / 4) := by
  have d1 : vdot (0, 0, -1) (0, 0, -1) = 1 := by norm_num [vdot]
  have d2 : vdot (1, 0, -1) (1, 0, -1) = 2 := by norm_num [vdot]
  have d : vdot (0, 0, -1) (1, 0, -1) = 1 := by norm_num [vdot]
  have s : sqrt 2 ≠ 0 := (sqrt_pos.mpr two_pos).ne'
  rw [thetaMsc, vnorm, vnorm, d1, d2, d, sqrt_one, one_mul, if_neg s]
  have : 1 / sqrt 2 = cos (π / 4) := by
    rw [cos_pi_div_four, div_eq_div_iff s two_ne_zero, mul_self_sqrt (by norm_num)]; norm_num
  rw [this, arccos_cos (by positivity) (by linarith [pi_pos])]

/-- its angle is kept in single precision, and right to five digits -/
example : ∃ fl, Nearest 24 fl ∧ ∃ a, thetaMscFl fl arccos (0, 0, -1) (1, 0, -1) = some a ∧ a ≠ 0 ∧ |a ^ 2 - (π / 4) ^ 2| < 1e-5 := by
  obtain ⟨fl, hf⟩ := rounding_exists 24 (by norm_num)
  have lo : 3 / 4 ≤ π / 4 := by linarith [pi_gt_three]
  have hi : π / 4 ≤ 1 := by linarith [pi_le_four]
  obtain ⟨a, h, hne⟩ := kept 24 (by norm_num) fl arccos hf 0 one_pos (exact_arccos 0 le_rfl) _ _ _ wide (by linarith [pi_pos]) (by norm_num; nlinarith)
  have := accuracy 24 (by norm_num) fl arccos hf 0 le_rfl zero_le_one (exact_arccos 0 le_rfl) _ _ _ a wide hi h
  exact ⟨fl, hf, a, h, hne, lt_of_le_of_lt this (by norm_num)⟩

/-- and it satisfies what `ceiling` asks for -/
example : ∃ fl, Nearest 24 fl ∧ ∃ m : C98.Seen, C98.Good m ∧ Reported fl arccos m ∧ 5 ≤ m.row.mom ∧ m.row.thIn ≤ 1 ∧ m.row.thOut ≤ 1 := by
  obtain ⟨fl, hf⟩ := rounding_exists 24 (by norm_num)
  have lo : 3 / 4 ≤ π / 4 := by linarith [pi_gt_three]
  obtain ⟨a, h, hne⟩ := kept 24 (by norm_num) fl arccos hf 0 one_pos (exact_arccos 0 le_rfl) _ _ _ wide (by linarith [pi_pos]) (by norm_num; nlinarith)
  have pos : 0 < a := by
    have := (steps 24 (by norm_num) fl arccos hf 0 zero_le_one (exact_arccos 0 le_rfl) _ _ a h).resolve_left hne
    exact lt_of_lt_of_le (by simp) this
  have h2 := pi_gt_three
  exact ⟨fl, hf, ⟨⟨(0, 0, 0), (1, 1, 1), a, 1, 1 / 2, 1, 1, 1, 5, 0⟩, 1, 1⟩, ⟨one_pos, one_pos, pos, one_pos, ⟨by norm_num, by dsimp only; linarith⟩, one_pos, ⟨one_pos, by dsimp only; linarith⟩, one_pos, by norm_num, rfl⟩,
    ⟨_, _, h⟩, le_rfl, by norm_num, le_rfl⟩

end C131

end

end Tomopt
