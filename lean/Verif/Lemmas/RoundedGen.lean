import Verif.Model.RoundedGen
import Verif.Lemmas.Floats
import Mathlib.Algebra.Order.BigOperators.Group.List
import Mathlib.Data.List.Count
import Mathlib.Algebra.Order.Floor.Ring

/- Sums and draws in floating point. -/
namespace Tomopt

noncomputable section

namespace C135

open Gen Floats

theorem nearest_mono {p : Nat} {fl : ℝ → ℝ} (hf : Nearest p fl) {x y : ℝ} (h : x ≤ y) : fl x ≤ fl y := by
  by_contra hlt
  push Not at hlt
  have h1 := (hf x).2 _ (hf y).1
  have h2 := (hf y).2 _ (hf x).1
  rcases h.eq_or_lt with e | hxy
  · rw [e] at hlt; exact lt_irrefl _ hlt
  · rw [← sq_le_sq] at h1 h2
    nlinarith

theorem nearest_nonneg {p : Nat} {fl : ℝ → ℝ} (hf : Nearest p fl) {x : ℝ} (h : 0 ≤ x) : 0 ≤ fl x := nearest_ge p fl hf x 0 (isFloat_zero p) h

theorem nearest_bounds {p : Nat} (hp : 1 ≤ p) {fl : ℝ → ℝ} (hf : Nearest p fl) {x : ℝ} (h : 0 ≤ x) : (1 - 1 / 2 ^ p) * x ≤ fl x ∧ fl x ≤ (1 + 1 / 2 ^ p) * x := by
  have := nearest_rel p p hp le_rfl fl hf x
  rw [abs_of_nonneg h, abs_le] at this
  constructor <;> linarith [this.1, this.2]

theorem cumsum_length (fl : ℝ → ℝ) : ∀ (xs : List ℝ) (s : ℝ), (cumsumFlFrom fl s xs).length = xs.length
  | [], _ => rfl
  | _ :: xs, s => by simp [cumsumFlFrom, cumsum_length fl xs]

/-- entries are floats, at least `s`, and sorted -/
theorem cumsum_sorted {p : Nat} {fl : ℝ → ℝ} (hf : Nearest p fl) : ∀ (xs : List ℝ) (s : ℝ), IsFloat p s → (∀ x ∈ xs, 0 ≤ x) →
    (∀ c ∈ cumsumFlFrom fl s xs, s ≤ c ∧ IsFloat p c) ∧ (cumsumFlFrom fl s xs).Pairwise (· ≤ ·)
  | [], _, _, _ => by simp [cumsumFlFrom]
  | x :: xs, s, hs, h => by
    have h0 : s ≤ fl (s + x) := nearest_ge p fl hf _ s hs (by have := h x (by simp); linarith)
    obtain ⟨a, b⟩ := cumsum_sorted hf xs (fl (s + x)) (hf _).1 fun y hy => h y (by simp [hy])
    refine ⟨fun c hc => ?_, ?_⟩
    · rw [cumsumFlFrom, List.mem_cons] at hc
      rcases hc with rfl | hc
      · exact ⟨h0, (hf _).1⟩
      · exact ⟨h0.trans (a c hc).1, (a c hc).2⟩
    · rw [cumsumFlFrom, List.pairwise_cons]
      exact ⟨fun c hc => (a c hc).1, b⟩

/-- entry `i` is the sum of the first entries up to the rounding of `i + 1` additions -/
theorem cumsum_bounds {p : Nat} (hp : 1 ≤ p) {fl : ℝ → ℝ} (hf : Nearest p fl) : ∀ (xs : List ℝ) (s S : ℝ) (k : Nat), 0 ≤ S → (1 - 1 / 2 ^ p) ^ k * S ≤ s → s ≤ (1 + 1 / 2 ^ p) ^ k * S → (∀ x ∈ xs, 0 ≤ x) →
    ∀ i c, (cumsumFlFrom fl s xs)[i]? = some c →
      (1 - 1 / 2 ^ p) ^ (k + i + 1) * (S + (xs.take (i + 1)).sum) ≤ c ∧ c ≤ (1 + 1 / 2 ^ p) ^ (k + i + 1) * (S + (xs.take (i + 1)).sum)
  | [], _, _, _, _, _, _, _, i, c, h => by simp [cumsumFlFrom] at h
  | x :: xs, s, S, k, hS, h1, h2, hx, i, c, h => by
    have x0 := hx x (by simp)
    have hε : (1 : ℝ) / 2 ^ p ≤ 1 := by
      rw [div_le_one (by positivity)]; exact one_le_pow₀ (by norm_num)
    have hε0 : (0 : ℝ) ≤ 1 / 2 ^ p := by positivity
    have lo1 : (1 - 1 / (2 : ℝ) ^ p) ^ k ≤ 1 := pow_le_one₀ (by linarith) (by linarith)
    have lo0 : 0 ≤ (1 - 1 / (2 : ℝ) ^ p) ^ k := pow_nonneg (by linarith) k
    have hi1 : 1 ≤ (1 + 1 / (2 : ℝ) ^ p) ^ k := one_le_pow₀ (by linarith)
    have s0 : 0 ≤ s := le_trans (mul_nonneg lo0 hS) h1
    obtain ⟨n1, n2⟩ := nearest_bounds hp hf (add_nonneg s0 x0)
    have g1 : (1 - 1 / (2 : ℝ) ^ p) ^ (k + 1) * (S + x) ≤ fl (s + x) := by
      refine le_trans ?_ n1
      rw [pow_succ', mul_assoc]
      refine mul_le_mul_of_nonneg_left ?_ (by linarith)
      nlinarith [mul_le_mul_of_nonneg_right lo1 x0]
    have g2 : fl (s + x) ≤ (1 + 1 / (2 : ℝ) ^ p) ^ (k + 1) * (S + x) := by
      refine le_trans n2 ?_
      rw [pow_succ', mul_assoc]
      refine mul_le_mul_of_nonneg_left ?_ (by linarith)
      nlinarith [mul_le_mul_of_nonneg_right hi1 x0]
    cases i with
    | zero =>
      simp only [cumsumFlFrom, List.getElem?_cons_zero, Option.some.injEq] at h
      subst h
      simp only [zero_add, List.take_succ_cons, List.take_zero, List.sum_cons, List.sum_nil, add_zero]
      exact ⟨g1, g2⟩
    | succ i =>
      simp only [cumsumFlFrom, List.getElem?_cons_succ] at h
      have := cumsum_bounds hp hf xs (fl (s + x)) (S + x) (k + 1) (by linarith) g1 g2 (fun y hy => hx y (by simp [hy])) i c h
      rw [show k + (i + 1) + 1 = k + 1 + i + 1 by omega, List.take_succ_cons, List.sum_cons, ← add_assoc]
      exact this

/-- the number of smaller entries of a sorted array -/
theorem search_le : ∀ (a : List ℝ) (v : ℝ), a.Pairwise (· ≤ ·) → ∀ (i : Nat) (c : ℝ), a[i]? = some c → (searchsorted a v ≤ i ↔ v ≤ c)
  | [], _, _, i, c, h => by simp at h
  | b :: a, v, hs, i, c, h => by
    rw [List.pairwise_cons] at hs
    by_cases hb : b < v
    · have e : searchsorted (b :: a) v = searchsorted a v + 1 := by simp [searchsorted, hb]
      rw [e]
      cases i with
      | zero =>
        simp only [List.getElem?_cons_zero, Option.some.injEq] at h
        subst h
        constructor
        · intro h; omega
        · intro h; linarith
      | succ i =>
        simp only [List.getElem?_cons_succ] at h
        rw [Nat.add_le_add_iff_right]
        exact search_le a v hs.2 i c h
    · have e : searchsorted (b :: a) v = 0 := by
        simp only [searchsorted, List.length_eq_zero_iff, List.filter_eq_nil_iff, decide_eq_true_eq, not_lt]
        intro x hx
        rcases List.mem_cons.mp hx with rfl | hx
        · exact not_lt.mp hb
        · exact (not_lt.mp hb).trans (hs.1 x hx)
      rw [e]
      have : b ≤ c := by
        cases i with
        | zero => simp only [List.getElem?_cons_zero, Option.some.injEq] at h; exact h.le
        | succ i => simp only [List.getElem?_cons_succ] at h; exact hs.1 c (List.mem_of_getElem? h)
      simp [(not_lt.mp hb).trans this]

/-- the draw of the flux is one rounding of the product -/
theorem uniform_zero {p : Nat} {fl : ℝ → ℝ} (hf : Nearest p fl) {b : ℝ} (hb : IsFloat p b) (u : ℝ) : uniformFl fl 0 b u = fl (b * u) := by
  rw [uniformFl, sub_zero, nearest_self p fl hf b hb, zero_add, nearest_self p fl hf _ (hf _).1]

/-- the table of a generator: fluxes that are not negative, of which there are some -/
structure Table (p : Nat) (fl : ℝ → ℝ) (fs : List ℝ) : Prop where
  prec : 1 ≤ p
  near : Nearest p fl
  nonneg : ∀ x ∈ fs, 0 ≤ x
  some : fs ≠ []

variable {p : Nat} {fl : ℝ → ℝ} {fs : List ℝ}

theorem Table.sorted (h : Table p fl fs) : (∀ c ∈ cumsumFl fl fs, 0 ≤ c ∧ IsFloat p c) ∧ (cumsumFl fl fs).Pairwise (· ≤ ·) := cumsum_sorted h.near fs 0 (isFloat_zero p) h.nonneg

/-- the last entry -/
theorem Table.last (h : Table p fl fs) : ∃ tot, (cumsumFl fl fs).getLast? = Option.some tot ∧ (cumsumFl fl fs)[fs.length - 1]? = Option.some tot ∧ 0 ≤ tot ∧ IsFloat p tot ∧ ∀ c ∈ cumsumFl fl fs, c ≤ tot := by
  have hl : (cumsumFl fl fs).length = fs.length := cumsum_length fl fs 0
  have hne : cumsumFl fl fs ≠ [] := fun e => h.some (by rw [e] at hl; exact List.length_eq_zero_iff.mp hl.symm)
  refine ⟨(cumsumFl fl fs).getLast hne, List.getLast?_eq_some_getLast hne, ?_, (h.sorted.1 _ (List.getLast_mem hne)).1, (h.sorted.1 _ (List.getLast_mem hne)).2, fun c hc => ?_⟩
  · rw [← hl, ← List.getLast?_eq_getElem?, List.getLast?_eq_some_getLast hne]
  · exact h.sorted.2.rel_getLast_of_rel_getLast_getLast hc le_rfl

theorem Table.bin (h : Table p fl fs) (u : ℝ) : ∃ tot, (cumsumFl fl fs)[fs.length - 1]? = Option.some tot ∧ 0 ≤ tot ∧ IsFloat p tot ∧ (∀ c ∈ cumsumFl fl fs, c ≤ tot) ∧
    binFl fl fs u = Option.some (searchsorted (cumsumFl fl fs) (fl (tot * u))) := by
  obtain ⟨tot, e1, e2, h1, h2, h3⟩ := h.last
  exact ⟨tot, e2, h1, h2, h3, by rw [binFl, e1]; simp only; rw [uniform_zero h.near h2]⟩

theorem entry (fl : ℝ → ℝ) {fs : List ℝ} {i : Nat} (hi : i < fs.length) : ∃ c, (cumsumFl fl fs)[i]? = Option.some c := by
  have hl : (cumsumFl fl fs).length = fs.length := cumsum_length fl fs 0
  exact ⟨_, List.getElem?_eq_getElem (hl ▸ hi)⟩

theorem eps_le (hp : 1 ≤ p) : (1 : ℝ) / 2 ^ p ≤ 1 / 2 := by
  refine one_div_le_one_div_of_le (by norm_num) ?_
  calc (2 : ℝ) = 2 ^ 1 := by norm_num
    _ ≤ 2 ^ p := pow_le_pow_right₀ (by norm_num) hp

/-- how many of the draws `k / N` of a total `t` are, after rounding, at most `c` -/
theorem count (hp : 1 ≤ p) (hf : Nearest p fl) {t c : ℝ} (ht : 0 < t) (hc : 0 ≤ c) (hct : c ≤ t) (hF : IsFloat p c) {N : Nat} (hN : 1 ≤ N) :
    c / t ≤ (((Finset.range N).filter fun k : Nat => fl (t * (k / N)) ≤ c).card : ℝ) / N ∧
    (((Finset.range N).filter fun k : Nat => fl (t * (k / N)) ≤ c).card : ℝ) / N ≤ c / (t * (1 - 1 / 2 ^ p)) + 1 / N := by
  have n0 : (0 : ℝ) < N := by exact_mod_cast hN
  have hε := eps_le hp
  constructor
  · rw [le_div_iff₀ n0]
    have hm : ⌈c / t * N⌉₊ ≤ N := by
      rw [Nat.ceil_le]
      have : c / t ≤ 1 := (div_le_one ht).mpr hct
      nlinarith
    refine le_trans (Nat.le_ceil (c / t * N)) ?_
    have : (Finset.range ⌈c / t * N⌉₊) ⊆ (Finset.range N).filter fun k : Nat => fl (t * (k / N)) ≤ c := by
      intro k hk
      rw [Finset.mem_range, Nat.lt_ceil] at hk
      rw [Finset.mem_filter, Finset.mem_range]
      refine ⟨lt_of_lt_of_le (Nat.lt_ceil.mpr hk) hm, nearest_le p fl hf _ c hF ?_⟩
      rw [← mul_div_assoc, div_le_iff₀ n0]
      rw [div_mul_eq_mul_div, lt_div_iff₀ ht] at hk
      linarith
    have := Finset.card_le_card this
    rw [Finset.card_range] at this
    exact_mod_cast this
  · rw [div_le_iff₀ n0, add_mul, one_div_mul_cancel n0.ne']
    have hs : ((Finset.range N).filter fun k : Nat => fl (t * (k / N)) ≤ c) ⊆ Finset.range (⌊c / (t * (1 - 1 / 2 ^ p)) * N⌋₊ + 1) := by
      intro k hk
      rw [Finset.mem_filter] at hk
      rw [Finset.mem_range, Nat.lt_succ_iff]
      refine Nat.le_floor ?_
      have b := (nearest_bounds hp hf (x := t * (k / N)) (by positivity)).1
      have d : 0 < t * (1 - 1 / (2 : ℝ) ^ p) := mul_pos ht (by linarith)
      rw [div_mul_eq_mul_div, le_div_iff₀ d]
      have := b.trans hk.2
      rw [← mul_div_assoc, ← mul_div_assoc, div_le_iff₀ n0] at this
      linarith
    have := Finset.card_le_card hs
    rw [Finset.card_range] at this
    have h2 : (⌊c / (t * (1 - 1 / 2 ^ p)) * N⌋₊ : ℝ) ≤ c / (t * (1 - 1 / 2 ^ p)) * N := by
      refine Nat.floor_le (mul_nonneg (div_nonneg hc (mul_nonneg ht.le (by linarith))) n0.le)
    have h3 : (((Finset.range N).filter fun k : Nat => fl (t * (k / N)) ≤ c).card : ℝ) ≤ (⌊c / (t * (1 - 1 / 2 ^ p)) * N⌋₊ : ℝ) + 1 := by exact_mod_cast this
    linarith

/-- each entry is the rounded sum of the one before and the flux -/
theorem cumsum_step (fl : ℝ → ℝ) : ∀ (xs : List ℝ) (s : ℝ) (i : Nat) (a x : ℝ), (cumsumFlFrom fl s xs)[i]? = some a → xs[i + 1]? = some x → (cumsumFlFrom fl s xs)[i + 1]? = some (fl (a + x))
  | [], _, i, a, x, h, _ => by simp [cumsumFlFrom] at h
  | y :: xs, s, 0, a, x, h, hx => by
    cases xs with
    | nil => simp at hx
    | cons z xs =>
      simp only [cumsumFlFrom, List.getElem?_cons_zero, Option.some.injEq, List.getElem?_cons_succ] at h hx ⊢
      subst h hx; rfl
  | y :: xs, s, i + 1, a, x, h, hx => by
    simp only [cumsumFlFrom, List.getElem?_cons_succ] at h hx ⊢
    exact cumsum_step fl xs _ i a x h hx

theorem cumsum_first (fl : ℝ → ℝ) {xs : List ℝ} {x : ℝ} (h : xs[0]? = some x) : (cumsumFl fl xs)[0]? = some (fl x) := by
  cases xs with
  | nil => simp at h
  | cons y xs => simp only [List.getElem?_cons_zero, Option.some.injEq] at h; subst h; simp [cumsumFl, cumsumFlFrom]

theorem Table.bounds (h : Table p fl fs) {i : Nat} {c : ℝ} (hc : (cumsumFl fl fs)[i]? = Option.some c) :
    (1 - 1 / 2 ^ p) ^ (i + 1) * (fs.take (i + 1)).sum ≤ c ∧ c ≤ (1 + 1 / 2 ^ p) ^ (i + 1) * (fs.take (i + 1)).sum := by
  simpa only [zero_add] using cumsum_bounds h.prec h.near fs 0 0 0 le_rfl (by simp) (by simp) h.nonneg i c hc

theorem Table.total (h : Table p fl fs) {t : ℝ} (ht : (cumsumFl fl fs)[fs.length - 1]? = Option.some t) :
    (1 - 1 / 2 ^ p) ^ fs.length * fs.sum ≤ t ∧ t ≤ (1 + 1 / 2 ^ p) ^ fs.length * fs.sum := by
  have l : 1 ≤ fs.length := List.length_pos_of_ne_nil h.some
  have := h.bounds ht
  rwa [Nat.sub_add_cancel l, List.take_length] at this

theorem Table.total_pos (h : Table p fl fs) (hs : 0 < fs.sum) {t : ℝ} (ht : (cumsumFl fl fs)[fs.length - 1]? = Option.some t) : 0 < t :=
  lt_of_lt_of_le (mul_pos (pow_pos (by linarith [eps_le h.prec]) _) hs) (h.total ht).1

end C135

end

end Tomopt
