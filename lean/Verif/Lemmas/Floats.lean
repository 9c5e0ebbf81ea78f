import Verif.Spec.Floats
import Mathlib.Tactic.Linarith
import Mathlib.Tactic.Positivity
import Mathlib.Tactic.FieldSimp
import Mathlib.Tactic.NormNum
import Mathlib.Algebra.Order.Round
import Mathlib.Algebra.Order.Archimedean.Basic
import Mathlib.Data.Nat.Log

/- Helper lemmas about floating-point numbers. -/
namespace Tomopt

namespace Floats

theorem isFloat_int (p : Nat) (n : ℤ) (h : |n| ≤ 2 ^ p) : IsFloat p n := ⟨n, 0, h, by simp⟩

theorem isFloat_zero (p : Nat) : IsFloat p 0 := by
  have := isFloat_int p 0 (by simp)
  simpa using this

theorem int_gap (p d : Nat) (hp : 1 ≤ p) (M m : ℤ) (hm : m ≤ 2 ^ p) (hM : M ≤ 2 ^ p) (h : m < M * 2 ^ d) : M * 2 ^ d ≤ 2 ^ p * (M * 2 ^ d - m) := by
  by_cases hA : M * 2 ^ d ≤ 2 ^ p
  · have h1 : (1 : ℤ) ≤ M * 2 ^ d - m := by omega
    have h2 : (0 : ℤ) < 2 ^ p := by positivity
    nlinarith
  · push Not at hA
    have hp0 : (0 : ℤ) < 2 ^ p := by positivity
    have hd0 : (0 : ℤ) < 2 ^ d := by positivity
    by_cases hd : d ≤ p
    · obtain ⟨k, rfl⟩ := Nat.exists_eq_add_of_le hd
      have h1 : (2 : ℤ) ^ k < M := by
        have : (2 : ℤ) ^ k * 2 ^ d < M * 2 ^ d := by rw [← pow_add, Nat.add_comm k d]; exact hA
        exact lt_of_mul_lt_mul_right this hd0.le
      have h2 : (2 : ℤ) ^ d ≤ M * 2 ^ d - 2 ^ (d + k) := by
        have : (2 : ℤ) ^ k + 1 ≤ M := h1
        have := mul_le_mul_of_nonneg_right this hd0.le
        rw [pow_add]
        linarith
      calc M * 2 ^ d ≤ 2 ^ (d + k) * 2 ^ d := mul_le_mul_of_nonneg_right hM hd0.le
        _ ≤ 2 ^ (d + k) * (M * 2 ^ d - m) := mul_le_mul_of_nonneg_left (by linarith) hp0.le
    · push Not at hd
      have hM1 : 1 ≤ M := by
        by_contra h0
        push Not at h0
        have : M * 2 ^ d ≤ 0 := mul_nonpos_of_nonpos_of_nonneg (by omega) hd0.le
        linarith
      have h1 : (2 : ℤ) ^ p * 2 ≤ M * 2 ^ d := by
        calc (2 : ℤ) ^ p * 2 = 2 ^ (p + 1) := (pow_succ _ _).symm
          _ ≤ 2 ^ d := pow_le_pow_right₀ (by norm_num) hd
          _ ≤ M * 2 ^ d := by nlinarith
      have h2 : (2 : ℤ) ≤ 2 ^ p := by
        calc (2 : ℤ) = 2 ^ 1 := (pow_one _).symm
          _ ≤ 2 ^ p := pow_le_pow_right₀ (by norm_num) hp
      nlinarith

/-- Two different numbers are apart by a minimal relative distance. -/
theorem gap (p : Nat) (hp : 1 ≤ p) (x w : ℝ) (hx : IsFloat p x) (hw : IsFloat p w) (h : x < w) (h0 : 0 ≤ x) : w ≤ 2 ^ p * (w - x) := by
  obtain ⟨m, e, hm, rfl⟩ := hx
  obtain ⟨M, E, hM, rfl⟩ := hw
  have hm' := le_trans (le_abs_self m) hm
  have hM' := le_trans (le_abs_self M) hM
  rcases le_total E e with hE | hE
  · obtain ⟨d, hd⟩ := Int.le.dest hE
    have pE : (0 : ℝ) < 2 ^ E := by positivity
    have ee : (2 : ℝ) ^ e = 2 ^ d * 2 ^ E := by rw [← hd, zpow_add₀ (by norm_num), zpow_natCast, mul_comm]
    rw [ee] at h ⊢
    have h1 : (m * 2 ^ d : ℤ) < M := by
      have : ((m * 2 ^ d : ℤ) : ℝ) * 2 ^ E < M * 2 ^ E := by push_cast; rw [mul_assoc]; exact h
      exact_mod_cast lt_of_mul_lt_mul_right this pE.le
    have h2 : (M : ℝ) - m * 2 ^ d ≥ 1 := by
      have : (m * 2 ^ d : ℤ) + 1 ≤ M := h1
      have : ((m * 2 ^ d : ℤ) : ℝ) + 1 ≤ M := by exact_mod_cast this
      push_cast at this
      linarith
    have h3 : (M : ℝ) ≤ 2 ^ p := by exact_mod_cast hM'
    have h4 : (0 : ℝ) < 2 ^ p := by positivity
    calc (M : ℝ) * 2 ^ E ≤ (2 ^ p * (M - m * 2 ^ d)) * 2 ^ E := mul_le_mul_of_nonneg_right (by nlinarith) pE.le
      _ = 2 ^ p * (M * 2 ^ E - m * (2 ^ d * 2 ^ E)) := by ring
  · obtain ⟨d, hd⟩ := Int.le.dest hE
    have pe : (0 : ℝ) < 2 ^ e := by positivity
    have ee : (2 : ℝ) ^ E = 2 ^ d * 2 ^ e := by rw [← hd, zpow_add₀ (by norm_num), zpow_natCast, mul_comm]
    rw [ee] at h ⊢
    have h1 : m < M * 2 ^ d := by
      have : (m : ℝ) * 2 ^ e < ((M * 2 ^ d : ℤ) : ℝ) * 2 ^ e := by push_cast; rw [mul_assoc]; exact h
      exact_mod_cast lt_of_mul_lt_mul_right this pe.le
    have h2 := int_gap p d hp M m hm' hM' h1
    have h3 : (M : ℝ) * 2 ^ d ≤ 2 ^ p * (M * 2 ^ d - m) := by exact_mod_cast h2
    calc (M : ℝ) * (2 ^ d * 2 ^ e) = (M * 2 ^ d) * 2 ^ e := by ring
      _ ≤ (2 ^ p * (M * 2 ^ d - m)) * 2 ^ e := mul_le_mul_of_nonneg_right h3 pe.le
      _ = 2 ^ p * (M * (2 ^ d * 2 ^ e) - m * 2 ^ e) := by ring

/-- A quotient far enough below a whole number is not rounded up to it. -/
theorem nearest_below (p : Nat) (hp : 1 ≤ p) (fl : ℝ → ℝ) (hf : Nearest p fl) (n : Nat) (h1 : 1 ≤ n) (hn : n < 2 ^ p) (q : ℝ) (hq : (n : ℝ) ≤ 2 ^ p * (n - q)) : fl q < n := by
  by_contra hge
  push Not at hge
  have hpp : (0 : ℝ) < 2 ^ p := by positivity
  have hn0 : (1 : ℝ) ≤ n := by exact_mod_cast h1
  have hlt : q < n := by
    by_contra h
    push Not at h
    have : (2 : ℝ) ^ p * (n - q) ≤ 0 := mul_nonpos_of_nonneg_of_nonpos hpp.le (by linarith)
    linarith
  -- the binary digits of `n`
  obtain ⟨k, k1, k2⟩ : ∃ k, 2 ^ k ≤ n ∧ n < 2 ^ (k + 1) := ⟨Nat.log 2 n, Nat.pow_log_le_self 2 (by omega), Nat.lt_pow_succ_log_self (by norm_num) n⟩
  have hkp : k + 1 ≤ p := by
    by_contra h
    push Not at h
    have : 2 ^ p ≤ 2 ^ k := Nat.pow_le_pow_right (by norm_num) (by omega)
    omega
  obtain ⟨r, rfl⟩ := Nat.exists_eq_add_of_le hkp
  have key : ∀ y, IsFloat (k + 1 + r) y → y < n → |q - y| < n - q → False := by
    intro y hy _ hd
    have := (hf q).2 y hy
    have h2 : n - q ≤ |q - fl q| := by
      rw [abs_sub_comm]
      exact le_trans (by linarith) (le_abs_self _)
    linarith
  have hr : (0 : ℝ) < 2 ^ r := by positivity
  have hk : (0 : ℝ) < 2 ^ k := by positivity
  have hpow : (2 : ℝ) ^ (k + 1 + r) = 2 * 2 ^ k * 2 ^ r := by rw [pow_add, pow_succ]; ring
  rw [hpow] at hq
  rcases eq_or_lt_of_le k1 with hk1 | hk1
  · -- a power of two
    have hnk : (n : ℝ) = 2 ^ k := by exact_mod_cast hk1.symm
    refine key (n - 1 / (2 * 2 ^ r)) ⟨2 ^ (k + 1 + r) - 1, -(r + 1 : ℕ), ?_, ?_⟩ (by have : (0 : ℝ) < 1 / (2 * 2 ^ r) := by positivity
                                                                                     linarith) ?_
    · rw [abs_of_nonneg]
      · omega
      · have : (0 : ℤ) < 2 ^ (k + 1 + r) := by positivity
        omega
    · rw [zpow_neg, zpow_natCast, hnk]
      push_cast
      rw [hpow, pow_succ]
      field_simp
    · have hq' : 1 ≤ 2 * 2 ^ r * ((n : ℝ) - q) := by
        rw [hnk] at hq ⊢
        have : (2 : ℝ) ^ k * 1 ≤ 2 ^ k * (2 * 2 ^ r * (2 ^ k - q)) := by linarith
        exact le_of_mul_le_mul_left this hk
      have h3 : 1 / (2 * 2 ^ r) ≤ (n : ℝ) - q := by
        rw [div_le_iff₀ (by positivity)]
        linarith
      have h4 : (0 : ℝ) < 1 / (2 * 2 ^ r) := by positivity
      rw [abs_lt]
      constructor <;> linarith
  · have hnk : (2 : ℝ) ^ k < n := by exact_mod_cast hk1
    refine key (n - 1 / 2 ^ r) ⟨n * 2 ^ r - 1, -(r : ℕ), ?_, ?_⟩ (by have : (0 : ℝ) < 1 / 2 ^ r := by positivity
                                                                     linarith) ?_
    · have h3 : (n : ℤ) * 2 ^ r < 2 ^ (k + 1 + r) := by
        rw [pow_add]
        have : (n : ℤ) < 2 ^ (k + 1) := by exact_mod_cast k2
        exact mul_lt_mul_of_pos_right this (by positivity)
      have h4 : (1 : ℤ) ≤ n * 2 ^ r := by
        have a : (1 : ℤ) ≤ n := by exact_mod_cast h1
        have b : (1 : ℤ) ≤ 2 ^ r := one_le_pow₀ (by norm_num)
        nlinarith
      rw [abs_of_nonneg (by omega)]
      omega
    · rw [zpow_neg, zpow_natCast]
      push_cast
      field_simp
    · have h3 : 1 / (2 * 2 ^ r) < (n : ℝ) - q := by
        rw [div_lt_iff₀ (by positivity)]
        have : (2 : ℝ) ^ k * 1 < 2 ^ k * (((n : ℝ) - q) * (2 * 2 ^ r)) := by linarith
        exact lt_of_mul_lt_mul_left this hk.le
      have h5 : (0 : ℝ) < 1 / (2 * 2 ^ r) := by positivity
      have h4 : (1 : ℝ) / 2 ^ r = 2 * (1 / (2 * 2 ^ r)) := by field_simp
      rw [h4, abs_lt]
      constructor <;> linarith

/-- The relative error of rounding. -/
theorem nearest_error (p : Nat) (hp : 1 ≤ p) (fl : ℝ → ℝ) (hf : Nearest p fl) (q : ℝ) (hq : 0 < q) : 2 ^ p * |q - fl q| ≤ q := by
  obtain ⟨k, hk⟩ := exists_mem_Ico_zpow hq (show (1 : ℝ) < 2 by norm_num)
  obtain ⟨k1, k2⟩ := hk
  obtain ⟨r, rfl⟩ := Nat.exists_eq_add_of_le hp
  have hu : (0 : ℝ) < 2 ^ (k - r) := by positivity
  have e1 : (2 : ℝ) ^ k = 2 ^ r * 2 ^ (k - r) := by rw [← zpow_natCast, ← zpow_add₀ (by norm_num)]; congr 1; ring
  have e2 : (2 : ℝ) ^ (k + 1) = 2 ^ (1 + r) * 2 ^ (k - r) := by rw [← zpow_natCast, ← zpow_add₀ (by norm_num)]; congr 1; push_cast; ring
  have hfloat : IsFloat (1 + r) (round (q / 2 ^ (k - r)) * 2 ^ (k - r)) := by
    refine ⟨_, _, ?_, rfl⟩
    have h0 : 0 ≤ q / 2 ^ (k - r) := by positivity
    have h1 : q / 2 ^ (k - r) < 2 ^ (1 + r) := by rw [div_lt_iff₀ hu, ← e2]; exact k2
    have h2 := abs_sub_round (q / 2 ^ (k - r))
    rw [abs_le] at h2
    have a : (-1 : ℝ) < round (q / 2 ^ (k - r)) := by linarith [h2.2]
    have b : (round (q / 2 ^ (k - r)) : ℝ) < 2 ^ (1 + r) + 1 := by linarith [h2.1]
    have a' : (-1 : ℤ) < round (q / 2 ^ (k - r)) := by exact_mod_cast a
    have b' : round (q / 2 ^ (k - r)) < 2 ^ (1 + r) + 1 := by exact_mod_cast b
    rw [abs_of_nonneg (by omega)]
    omega
  have h3 := (hf q).2 _ hfloat
  have h4 : |q - round (q / 2 ^ (k - r)) * 2 ^ (k - r)| ≤ 1 / 2 * 2 ^ (k - r) := by
    have : q - round (q / 2 ^ (k - r)) * 2 ^ (k - r) = (q / 2 ^ (k - r) - round (q / 2 ^ (k - r))) * 2 ^ (k - r) := by field_simp
    rw [this, abs_mul, abs_of_pos hu]
    exact mul_le_mul_of_nonneg_right (abs_sub_round _) hu.le
  calc 2 ^ (1 + r) * |q - fl q| ≤ 2 ^ (1 + r) * (1 / 2 * 2 ^ (k - r)) := mul_le_mul_of_nonneg_left (le_trans h3 h4) (by positivity)
    _ = 2 ^ r * 2 ^ (k - r) := by rw [pow_add]; ring
    _ ≤ q := by rw [← e1]; exact k1

/-- Rounding does not pass a number that needs no rounding. -/
theorem nearest_ge (p : Nat) (fl : ℝ → ℝ) (hf : Nearest p fl) (q y : ℝ) (hy : IsFloat p y) (h : y ≤ q) : y ≤ fl q := by
  by_contra hlt
  push Not at hlt
  have h1 := (hf q).2 y hy
  rw [abs_of_nonneg (by linarith), abs_of_nonneg (by linarith)] at h1
  linarith

theorem nearest_le (p : Nat) (fl : ℝ → ℝ) (hf : Nearest p fl) (q y : ℝ) (hy : IsFloat p y) (h : q ≤ y) : fl q ≤ y := by
  by_contra hlt
  push Not at hlt
  have h1 := (hf q).2 y hy
  rw [abs_sub_comm, abs_of_nonneg (by linarith), abs_sub_comm, abs_of_nonneg (by linarith)] at h1
  linarith

/-- From `2^k` on, numbers with `p` digits are multiples of `2^(k+1-p)`. -/
theorem multiple (p : Nat) (k : ℤ) (y : ℝ) (hy : IsFloat p y) (h : (2 : ℝ) ^ k ≤ y) (hp : 1 ≤ p) : ∃ j : ℤ, y = j * (2 : ℝ) ^ (k + 1 - p) := by
  obtain ⟨m, e, hm, rfl⟩ := hy
  rcases le_or_gt (k + 1 - p) e with he | he
  · obtain ⟨d, hd⟩ := Int.le.dest he
    refine ⟨m * 2 ^ d, ?_⟩
    rw [← hd, zpow_add₀ (by norm_num), zpow_natCast]
    push_cast
    ring
  · have h1 : (m : ℝ) * 2 ^ e ≤ 2 ^ k := by
      have a : (m : ℝ) ≤ 2 ^ p := by exact_mod_cast le_trans (le_abs_self m) hm
      calc (m : ℝ) * 2 ^ e ≤ 2 ^ p * 2 ^ e := mul_le_mul_of_nonneg_right a (by positivity)
        _ = 2 ^ ((p : ℤ) + e) := by rw [zpow_add₀ (by norm_num), zpow_natCast]
        _ ≤ 2 ^ k := zpow_le_zpow_right₀ (by norm_num) (by omega)
    refine ⟨2 ^ (p - 1), ?_⟩
    rw [le_antisymm h1 h]
    push_cast
    rw [← zpow_natCast, ← zpow_add₀ (by norm_num)]
    congr 1
    omega

/-- what a number is rounded to -/
theorem nearest_eq (p : Nat) (hp : 1 ≤ p) (fl : ℝ → ℝ) (hf : Nearest p fl) (k m : ℤ) (q : ℝ) (hk : (2 : ℝ) ^ k ≤ q) (hm : |m| ≤ 2 ^ p) (h : |q - m * (2 : ℝ) ^ (k + 1 - p)| < 1 / 2 * (2 : ℝ) ^ (k + 1 - p)) :
    fl q = m * (2 : ℝ) ^ (k + 1 - p) := by
  have hu : (0 : ℝ) < 2 ^ (k + 1 - p) := by positivity
  have h1 : IsFloat p ((2 : ℝ) ^ k) := ⟨1, k, by simpa using one_le_pow₀ (by norm_num), by simp⟩
  obtain ⟨j, hj⟩ := multiple p k (fl q) (hf q).1 (nearest_ge p fl hf q _ h1 hk) hp
  have h2 := (hf q).2 _ ⟨m, k + 1 - p, hm, rfl⟩
  rw [hj] at h2 ⊢
  have h3 : |((j : ℝ) - m) * 2 ^ (k + 1 - p)| < 1 * 2 ^ (k + 1 - p) := by
    have e : ((j : ℝ) - m) * 2 ^ (k + 1 - p) = (q - m * 2 ^ (k + 1 - p)) - (q - j * 2 ^ (k + 1 - p)) := by ring
    rw [e]
    calc _ ≤ |q - m * (2 : ℝ) ^ (k + 1 - p)| + |q - j * (2 : ℝ) ^ (k + 1 - p)| := abs_sub _ _
      _ < 1 * 2 ^ (k + 1 - p) := by linarith
  rw [abs_mul, abs_of_pos hu] at h3
  have h4 : |((j - m : ℤ) : ℝ)| < 1 := by push_cast; exact lt_of_mul_lt_mul_right h3 hu.le
  have h5 : |j - m| < 1 := by exact_mod_cast h4
  have : j = m := by rw [Int.abs_lt_one_iff] at h5; omega
  rw [this]

theorem isFloat_neg (p : Nat) (x : ℝ) (h : IsFloat p x) : IsFloat p (-x) := by
  obtain ⟨m, e, hm, rfl⟩ := h
  exact ⟨-m, e, by rwa [abs_neg], by push_cast; ring⟩

theorem nearest_pos (p : Nat) (hp : 1 ≤ p) (q : ℝ) (hq : 0 < q) : ∃ y, IsFloat p y ∧ ∀ z, IsFloat p z → |q - y| ≤ |q - z| := by
  obtain ⟨k, k1, k2⟩ := exists_mem_Ico_zpow hq (show (1 : ℝ) < 2 by norm_num)
  have hu : (0 : ℝ) < 2 ^ (k + 1 - p) := by positivity
  have e2 : (2 : ℝ) ^ (k + 1) = 2 ^ p * 2 ^ (k + 1 - p) := by rw [← zpow_natCast, ← zpow_add₀ (by norm_num)]; congr 1; ring
  have near : ∀ j : ℤ, |q - round (q / 2 ^ (k + 1 - p)) * 2 ^ (k + 1 - p)| ≤ |q - j * 2 ^ (k + 1 - p)| := by
    intro j
    have e : ∀ i : ℤ, |q - i * 2 ^ (k + 1 - p)| = |q / 2 ^ (k + 1 - p) - i| * 2 ^ (k + 1 - p) := fun i => by
      have : q - i * 2 ^ (k + 1 - p) = (q / 2 ^ (k + 1 - p) - i) * 2 ^ (k + 1 - p) := by field_simp
      rw [this, abs_mul, abs_of_pos hu]
    rw [e, e]
    exact mul_le_mul_of_nonneg_right (round_le _ j) hu.le
  refine ⟨round (q / 2 ^ (k + 1 - p)) * 2 ^ (k + 1 - p), ⟨_, _, ?_, rfl⟩, fun z hz => ?_⟩
  · have h0 : 0 ≤ q / 2 ^ (k + 1 - p) := by positivity
    have h1 : q / 2 ^ (k + 1 - p) < 2 ^ p := by rw [div_lt_iff₀ hu, ← e2]; exact k2
    have h2 := abs_sub_round (q / 2 ^ (k + 1 - p))
    rw [abs_le] at h2
    have a : (-1 : ℝ) < round (q / 2 ^ (k + 1 - p)) := by linarith [h2.2]
    have b : (round (q / 2 ^ (k + 1 - p)) : ℝ) < 2 ^ p + 1 := by linarith [h2.1]
    have a' : (-1 : ℤ) < round (q / 2 ^ (k + 1 - p)) := by exact_mod_cast a
    have b' : round (q / 2 ^ (k + 1 - p)) < 2 ^ p + 1 := by exact_mod_cast b
    rw [abs_of_nonneg (by omega)]
    omega
  · rcases le_or_gt ((2 : ℝ) ^ k) z with h | h
    · obtain ⟨j, rfl⟩ := multiple p k z hz h hp
      exact near j
    · obtain ⟨j, hj⟩ := multiple p k ((2 : ℝ) ^ k) ⟨1, k, by simpa using one_le_pow₀ (by norm_num), by simp⟩ (le_refl _) hp
      have := near j
      rw [← hj] at this
      refine le_trans this ?_
      rw [abs_of_nonneg (by linarith), abs_of_nonneg (by linarith)]
      linarith

/-- Rounding to nearest exists. -/
theorem rounding_exists (p : Nat) (hp : 1 ≤ p) : ∃ fl, Nearest p fl := by
  have h : ∀ q : ℝ, ∃ y, IsFloat p y ∧ ∀ z, IsFloat p z → |q - y| ≤ |q - z| := by
    intro q
    rcases lt_trichotomy q 0 with h | h | h
    · obtain ⟨y, a, b⟩ := nearest_pos p hp (-q) (by linarith)
      refine ⟨-y, isFloat_neg p y a, fun z hz => ?_⟩
      have := b (-z) (isFloat_neg p z hz)
      rw [show q - -y = -(-q - y) by ring, abs_neg, show q - z = -(-q - -z) by ring, abs_neg]
      exact this
    · exact ⟨0, isFloat_zero p, fun z _ => by rw [h]; simp⟩
    · exact nearest_pos p hp q h
  choose fl hfl using h
  exact ⟨fl, hfl⟩

theorem nearest_self (p : Nat) (fl : ℝ → ℝ) (hf : Nearest p fl) (x : ℝ) (hx : IsFloat p x) : fl x = x :=
  le_antisymm (nearest_le p fl hf x x hx (le_refl _)) (nearest_ge p fl hf x x hx (le_refl _))

/-- Sterbenz: the difference of two numbers that are within a factor of two of each other is exact. -/
theorem sterbenz (p : Nat) (x y : ℝ) (hx : IsFloat p x) (hy : IsFloat p y) (h1 : x ≤ 2 * y) (h2 : y ≤ 2 * x) : IsFloat p (x - y) := by
  have hle : |x - y| ≤ x ∧ |x - y| ≤ y := by
    constructor <;> rw [abs_le] <;> constructor <;> linarith
  obtain ⟨m, e, hm, rfl⟩ := hx
  obtain ⟨M, E, hM, rfl⟩ := hy
  have hm' : (m : ℝ) ≤ 2 ^ p := by exact_mod_cast le_trans (le_abs_self m) hm
  have hM' : (M : ℝ) ≤ 2 ^ p := by exact_mod_cast le_trans (le_abs_self M) hM
  rcases le_total E e with hE | hE
  · obtain ⟨d, hd⟩ := Int.le.dest hE
    have pE : (0 : ℝ) < 2 ^ E := by positivity
    have ee : (2 : ℝ) ^ e = 2 ^ d * 2 ^ E := by rw [← hd, zpow_add₀ (by norm_num), zpow_natCast, mul_comm]
    have eq : (m : ℝ) * 2 ^ e - M * 2 ^ E = ((m * 2 ^ d - M : ℤ) : ℝ) * 2 ^ E := by rw [ee]; push_cast; ring
    refine ⟨m * 2 ^ d - M, E, ?_, eq⟩
    have h := hle.2
    rw [eq, abs_mul, abs_of_pos pE] at h
    have h3 := le_trans (le_of_mul_le_mul_right h pE) hM'
    exact_mod_cast h3
  · obtain ⟨d, hd⟩ := Int.le.dest hE
    have pe : (0 : ℝ) < 2 ^ e := by positivity
    have ee : (2 : ℝ) ^ E = 2 ^ d * 2 ^ e := by rw [← hd, zpow_add₀ (by norm_num), zpow_natCast, mul_comm]
    have eq : (m : ℝ) * 2 ^ e - M * 2 ^ E = ((m - M * 2 ^ d : ℤ) : ℝ) * 2 ^ e := by rw [ee]; push_cast; ring
    refine ⟨m - M * 2 ^ d, e, ?_, eq⟩
    have h := hle.1
    rw [eq, abs_mul, abs_of_pos pe] at h
    have h3 := le_trans (le_of_mul_le_mul_right h pe) hm'
    exact_mod_cast h3

/-- the error of rounding relative to any number, for at least `p` digits -/
theorem nearest_rel (p p' : Nat) (hp : 1 ≤ p) (h : p ≤ p') (fl : ℝ → ℝ) (hf : Nearest p' fl) (x : ℝ) : |fl x - x| ≤ 1 / 2 ^ p * |x| := by
  have pos : ∀ (g : ℝ → ℝ), Nearest p' g → ∀ x, 0 < x → |g x - x| ≤ 1 / 2 ^ p * |x| := by
    intro g hg x hx
    have h1 := nearest_error p' (le_trans hp h) g hg x hx
    have h2 : (2 : ℝ) ^ p ≤ 2 ^ p' := pow_le_pow_right₀ (by norm_num) h
    rw [abs_of_pos hx, one_div, inv_mul_eq_div, le_div_iff₀ (by positivity), abs_sub_comm]
    have := mul_le_mul_of_nonneg_right h2 (abs_nonneg (x - g x))
    linarith
  rcases lt_trichotomy x 0 with h0 | rfl | h0
  · have hg : Nearest p' (fun y => -fl (-y)) := fun y => by
      refine ⟨isFloat_neg p' _ (hf (-y)).1, fun w hw => ?_⟩
      have := (hf (-y)).2 (-w) (isFloat_neg p' w hw)
      have e1 : y - -fl (-y) = -(-y - fl (-y)) := by ring
      have e2 : y - w = -(-y - -w) := by ring
      rw [e1, e2, abs_neg, abs_neg]
      exact this
    have := pos _ hg (-x) (by linarith)
    simp only [neg_neg, abs_neg] at this
    have e : -fl x - -x = -(fl x - x) := by ring
    rwa [e, abs_neg] at this
  · rw [nearest_self p' fl hf 0 (isFloat_zero p')]
    simp
  · exact pos fl hf x h0

end Floats

end Tomopt
