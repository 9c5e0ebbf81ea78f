import Verif.Model.RoundedInfer
import Mathlib.Algebra.Order.BigOperators.Group.List
import Mathlib.Analysis.SpecialFunctions.Trigonometric.Bounds
import Mathlib.Analysis.Real.Pi.Bounds
import Mathlib.Algebra.Order.Ring.Pow

/- Relative errors of `k` roundings, for values that are not negative. -/
namespace Tomopt

noncomputable section

open Real Infer

/-- rounding with a relative error of at most `ε` -/
structure Rounds (ε : ℝ) (fl : ℝ → ℝ) : Prop where
  nonneg : 0 ≤ ε
  small : ε < 1
  rel : ∀ x, |fl x - x| ≤ ε * |x|

/-- `x` is `y` up to `k` relative errors of `ε`, in either direction -/
def Within (ε : ℝ) (k : Nat) (x y : ℝ) : Prop := (1 - ε) ^ k * y ≤ x ∧ (1 - ε) ^ k * x ≤ y

namespace Within

variable {ε : ℝ} {fl : ℝ → ℝ} {j k : Nat} {a b c d x y z : ℝ}

theorem refl (hr : Rounds ε fl) (k : Nat) (hx : 0 ≤ x) : Within ε k x x := by
  have : (1 - ε) ^ k ≤ 1 := pow_le_one₀ (by linarith [hr.small]) (by linarith [hr.nonneg])
  exact ⟨by nlinarith, by nlinarith⟩

theorem symm (h : Within ε k x y) : Within ε k y x := ⟨h.2, h.1⟩

theorem pow_pos' (hr : Rounds ε fl) (k : Nat) : 0 < (1 - ε) ^ k := pow_pos (by linarith [hr.small]) k

theorem trans (hr : Rounds ε fl) (h : Within ε j x y) (h' : Within ε k y z) : Within ε (j + k) x z := by
  have p1 := pow_pos' hr j
  have p2 := pow_pos' hr k
  constructor
  · rw [pow_add, mul_assoc]; exact (mul_le_mul_of_nonneg_left h'.1 p1.le).trans h.1
  · rw [pow_add, mul_comm ((1 - ε) ^ j), mul_assoc]; exact (mul_le_mul_of_nonneg_left h.2 p2.le).trans h'.2

theorem mono (hr : Rounds ε fl) (hjk : j ≤ k) (hx : 0 ≤ x) (hy : 0 ≤ y) (h : Within ε j x y) : Within ε k x y := by
  have : (1 - ε) ^ k ≤ (1 - ε) ^ j := pow_le_pow_of_le_one (by linarith [hr.small]) (by linarith [hr.nonneg]) hjk
  exact ⟨(mul_le_mul_of_nonneg_right this hy).trans h.1, (mul_le_mul_of_nonneg_right this hx).trans h.2⟩

theorem round_one (hr : Rounds ε fl) (hx : 0 ≤ x) : Within ε 1 (fl x) x := by
  have h := hr.rel x
  rw [abs_of_nonneg hx, abs_le] at h
  have := hr.nonneg
  have := hr.small
  rw [Within, pow_one]
  constructor
  · linarith [h.1]
  · nlinarith [h.2, mul_nonneg (mul_nonneg hr.nonneg hr.nonneg) hx]

theorem fl_nonneg (hr : Rounds ε fl) (hx : 0 ≤ x) : 0 ≤ fl x := by
  have := (round_one hr hx).1
  have := hr.small
  nlinarith

theorem fl_pos (hr : Rounds ε fl) (hx : 0 < x) : 0 < fl x := by
  have := (round_one hr hx.le).1
  have := mul_pos (pow_pos' hr 1) hx
  linarith

theorem round (hr : Rounds ε fl) (hx : 0 ≤ x) (h : Within ε k x y) : Within ε (k + 1) (fl x) y := by
  rw [Nat.add_comm]; exact trans hr (round_one hr hx) h

theorem mul (hr : Rounds ε fl) (ha : 0 ≤ a) (hb : 0 ≤ b) (hc : 0 ≤ c) (hd : 0 ≤ d) (h : Within ε j a b) (h' : Within ε k c d) : Within ε (j + k) (a * c) (b * d) := by
  have p1 := pow_pos' hr j
  have p2 := pow_pos' hr k
  constructor
  · calc (1 - ε) ^ (j + k) * (b * d) = ((1 - ε) ^ j * b) * ((1 - ε) ^ k * d) := by rw [pow_add]; ring
      _ ≤ a * c := mul_le_mul h.1 h'.1 (mul_nonneg p2.le hd) ha
  · calc (1 - ε) ^ (j + k) * (a * c) = ((1 - ε) ^ j * a) * ((1 - ε) ^ k * c) := by rw [pow_add]; ring
      _ ≤ b * d := mul_le_mul h.2 h'.2 (mul_nonneg p2.le hc) hb

theorem inv (hr : Rounds ε fl) (hc : 0 < c) (hd : 0 < d) (h : Within ε k c d) : Within ε k c⁻¹ d⁻¹ := by
  have p := pow_pos' hr k
  constructor
  · rw [← div_eq_mul_inv, inv_eq_one_div, div_le_div_iff₀ hd hc]; linarith [h.2]
  · rw [← div_eq_mul_inv, inv_eq_one_div, div_le_div_iff₀ hc hd]; linarith [h.1]

theorem div (hr : Rounds ε fl) (ha : 0 ≤ a) (hb : 0 ≤ b) (hc : 0 < c) (hd : 0 < d) (h : Within ε j a b) (h' : Within ε k c d) : Within ε (j + k) (a / c) (b / d) := by
  rw [div_eq_mul_inv, div_eq_mul_inv]
  exact mul hr ha hb (inv_pos.mpr hc).le (inv_pos.mpr hd).le h (inv hr hc hd h')

theorem sqrt (hr : Rounds ε fl) (h : Within ε (2 * k) x y) : Within ε k (√x) (√y) := by
  have p := pow_pos' hr k
  have e : ∀ t : ℝ, (1 - ε) ^ k * √t = √((1 - ε) ^ (2 * k) * t) := fun t => by
    rw [Real.sqrt_mul (pow_pos' hr _).le, Nat.mul_comm, pow_mul, Real.sqrt_sq p.le]
  exact ⟨by rw [e]; exact Real.sqrt_le_sqrt h.1, by rw [e]; exact Real.sqrt_le_sqrt h.2⟩

theorem add (h : Within ε k a b) (h' : Within ε k c d) : Within ε k (a + c) (b + d) := ⟨by linarith [h.1, h'.1], by linarith [h.2, h'.2]⟩

/-- sums of lists entry by entry -/
theorem sum {β : Type} (f g : β → ℝ) : ∀ l : List β, (∀ m ∈ l, Within ε k (f m) (g m)) → Within ε k (l.map f).sum (l.map g).sum
  | [], _ => by simp [Within]
  | m :: l, h => by
    simp only [List.map_cons, List.sum_cons]
    exact add (h m (by simp)) (sum f g l fun m hm => h m (by simp [hm]))

/-- additions in any order -/
theorem tree (hr : Rounds ε fl) : ∀ t : Tree, (∀ x ∈ t.leaves, 0 ≤ x) → 0 ≤ t.eval fl ∧ 0 ≤ t.leaves.sum ∧ Within ε t.depth (t.eval fl) t.leaves.sum
  | .nil, _ => by simp [Tree.eval, Tree.leaves, Tree.depth, Within]
  | .leaf x, h => by
    have := h x (by simp [Tree.leaves])
    simp [Tree.eval, Tree.leaves, Tree.depth, Within, this]
  | .node l r, h => by
    obtain ⟨a1, a2, a3⟩ := tree hr l fun x hx => h x (by simp [Tree.leaves, hx])
    obtain ⟨b1, b2, b3⟩ := tree hr r fun x hx => h x (by simp [Tree.leaves, hx])
    simp only [Tree.eval, Tree.leaves, Tree.depth, List.sum_append]
    exact ⟨fl_nonneg hr (by linarith), by linarith, round hr (by linarith) (add (mono hr (le_max_left _ _) a1 a2 a3) (mono hr (le_max_right _ _) b1 b2 b3))⟩

theorem summed (hr : Rounds ε fl) {D : Nat → Nat} {sm : List ℝ → ℝ} (hs : Summation fl D sm) (xs : List ℝ) (h : ∀ x ∈ xs, 0 ≤ x) : Within ε (D xs.length) (sm xs) xs.sum := by
  obtain ⟨t, hp, hd, e⟩ := hs xs
  obtain ⟨t1, t2, t3⟩ := tree hr t fun x hx => h x (hp.mem_iff.mp hx)
  rw [e, ← hp.sum_eq]
  exact mono hr hd t1 t2 t3

/-- of values with some roundings each -/
theorem summed' (hr : Rounds ε fl) {D : Nat → Nat} {sm : List ℝ → ℝ} (hs : Summation fl D sm) {β : Type} (f g : β → ℝ) (l : List β) (hf : ∀ m ∈ l, 0 ≤ f m) (h : ∀ m ∈ l, Within ε k (f m) (g m)) :
    Within ε (D l.length + k) (sm (l.map f)) (l.map g).sum := by
  have h1 := summed hr hs (l.map f) (by intro x hx; obtain ⟨m, hm, rfl⟩ := List.mem_map.mp hx; exact hf m hm)
  rw [List.length_map] at h1
  exact trans hr h1 (sum f g l h)

theorem pos (hr : Rounds ε fl) (h : Within ε k x y) (hy : 0 < y) : 0 < x := lt_of_lt_of_le (mul_pos (pow_pos' hr k) hy) h.1

/-- cosines of angles with some roundings, away from the horizontal -/
theorem cosine (hr : Rounds ε fl) (hq : 19 / 20 ≤ (1 - ε) ^ k) (hc : 1 / 3 ≤ Real.cos y) (hy : y ≤ π / 2) (h : Within ε k x y) : Within ε (6 * k) (Real.cos x) (Real.cos y) := by
  have q1 : (1 - ε) ^ k ≤ 1 := pow_le_one₀ (by linarith [hr.small]) (by linarith [hr.nonneg])
  rw [Within, Nat.mul_comm, pow_mul]
  obtain ⟨h1, h2⟩ := h
  generalize (1 - ε) ^ k = q at *
  have y85 : y ≤ 8 / 5 := by linarith [pi_lt_d2]
  have q0 : 0 < q := by linarith
  have d := abs_cos_sub_cos_le x y
  have xy : q * |x - y| ≤ (1 - q) * (8 / 5) := by
    rcases le_total x y with g | g
    · rw [abs_of_nonpos (by linarith)]
      nlinarith
    · rw [abs_of_nonneg (by linarith)]
      nlinarith
  have qd : q * |Real.cos x - Real.cos y| ≤ (1 - q) * (24 / 5) * Real.cos y := by nlinarith [mul_le_mul_of_nonneg_left d q0.le]
  have p2 : (361 / 400 : ℝ) ≤ q ^ 2 := by nlinarith
  have p3 : (6859 / 8000 : ℝ) ≤ q ^ 3 := by nlinarith
  have p4 : (130321 / 160000 : ℝ) ≤ q ^ 4 := by nlinarith
  have p5 : (77 / 100 : ℝ) ≤ q ^ 5 := by nlinarith
  have p6 : (73 / 100 : ℝ) ≤ q ^ 6 := by nlinarith
  have cp : 0 < Real.cos y := by linarith
  have lo : q * (q ^ 6) ≤ q - (1 - q) * (24 / 5) := by
    have : 0 ≤ (1 - q) * (q ^ 6 + q ^ 5 + q ^ 4 + q ^ 3 + q ^ 2 + q - 24 / 5) := mul_nonneg (by linarith) (by linarith)
    nlinarith
  have hi : q ^ 6 * (q + (1 - q) * (24 / 5)) ≤ q := by
    have b2 : q ^ 2 ≤ 1 := pow_le_one₀ q0.le q1
    have : q ^ 5 * (q + (1 - q) * (24 / 5)) ≤ 1 := by
      have b : q ^ 5 ≤ 1 - (1 - q) * (q ^ 4 + q ^ 3 + q ^ 2 + q + 1) := by nlinarith
      have l : 4 ≤ q ^ 4 + q ^ 3 + q ^ 2 + q + 1 := by nlinarith
      have b' : q ^ 5 ≤ 1 - 4 * (1 - q) := by nlinarith
      have w : 0 ≤ q + (1 - q) * (24 / 5) := by nlinarith
      nlinarith [mul_le_mul_of_nonneg_right b' w, mul_nonneg (sub_nonneg.mpr q1) (sub_nonneg.mpr q1)]
    nlinarith
  have a1 := (abs_le.mp (le_refl |Real.cos x - Real.cos y|)).1
  have a2 := (abs_le.mp (le_refl |Real.cos x - Real.cos y|)).2
  constructor
  · have : q * (q ^ 6 * Real.cos y) ≤ q * Real.cos x := by
      nlinarith [mul_le_mul_of_nonneg_right lo cp.le, mul_le_mul_of_nonneg_left a1 q0.le]
    exact le_of_mul_le_mul_left this q0
  · have : q * (q ^ 6 * Real.cos x) ≤ q * Real.cos y := by
      have t : q * Real.cos x ≤ (q + (1 - q) * (24 / 5)) * Real.cos y := by nlinarith [mul_le_mul_of_nonneg_left a2 q0.le]
      calc q * (q ^ 6 * Real.cos x) = q ^ 6 * (q * Real.cos x) := by ring
        _ ≤ q ^ 6 * ((q + (1 - q) * (24 / 5)) * Real.cos y) := mul_le_mul_of_nonneg_left t (by positivity)
        _ = (q ^ 6 * (q + (1 - q) * (24 / 5))) * Real.cos y := by ring
        _ ≤ q * Real.cos y := mul_le_mul_of_nonneg_right hi cp.le
    exact le_of_mul_le_mul_left this q0

/-- in terms of an absolute error -/
theorem error (hr : Rounds ε fl) (hk : k * ε ≤ 1 / 20) (hy : 0 ≤ y) (h : Within ε k x y) : |x - y| ≤ 11 / 10 * (k * ε) * y := by
  have b : 1 - k * ε ≤ (1 - ε) ^ k := by
    have := one_add_mul_le_pow (a := -ε) (by linarith [hr.small]) k
    calc _ = 1 + (k : ℝ) * -ε := by ring
      _ ≤ _ := this
      _ = _ := by ring
  have k0 : 0 ≤ k * ε := mul_nonneg (Nat.cast_nonneg k) hr.nonneg
  obtain ⟨h1, h2⟩ := h
  generalize (1 - ε) ^ k = q at *
  have x0 : 0 ≤ x := by nlinarith
  rw [abs_le]
  constructor
  · nlinarith
  · have : (1 - k * ε) * x ≤ y := by nlinarith
    have : (1 - k * ε) * (x - y) ≤ (k * ε) * y := by nlinarith
    have : (19 / 20) * (x - y) ≤ (k * ε) * y := by
      rcases le_total x y with g | g
      · nlinarith [mul_nonneg k0 hy]
      · nlinarith
    nlinarith [mul_nonneg k0 hy]

end Within

end

end Tomopt
