import Verif.Model.VolumeMse
import Mathlib.Tactic.Ring
import Mathlib.Tactic.Linarith
import Mathlib.Tactic.FieldSimp
import Mathlib.Algebra.Order.BigOperators.Group.List

/-
Property theorems: C143, the squared-error loss against the target of a volume.
-/
namespace Tomopt

noncomputable section

namespace C143

open Mse

/-- `i` is an index of a tensor with sizes `s`: as many entries, each below its size -/
def Idx (i s : List Nat) : Prop := List.Forall₂ (· < ·) i s

/-- sizes that can be matched: counted from the last dimension, they are equal or one of them is 1 -/
def Fit (a b : List Nat) : Prop := ∀ (k x y : Nat), a[k]? = some x → b[k]? = some y → x = y ∨ x = 1 ∨ y = 1

/-! ### Helpers -/

theorem mem_indices : ∀ (s i : List Nat), i ∈ indices s ↔ Idx i s
  | [], i => by
    unfold Idx
    simp [indices]
  | d :: ds, i => by
    unfold Idx
    simp only [indices, List.mem_flatMap, List.mem_range, List.mem_map, mem_indices ds]
    constructor
    · rintro ⟨a, ha, is, his, rfl⟩
      exact List.Forall₂.cons ha his
    · intro h
      cases h with
      | cons h1 h2 => exact ⟨_, h1, _, h2, rfl⟩

theorem length_indices : ∀ s : List Nat, (indices s).length = s.prod
  | [] => rfl
  | d :: ds => by
    simp [indices, List.length_flatMap, length_indices ds]

theorem nodup_indices : ∀ s : List Nat, (indices s).Nodup
  | [] => by simp [indices]
  | d :: ds => by
    unfold indices
    rw [List.nodup_flatMap]
    refine ⟨fun i _ => (nodup_indices ds).map (fun a b h => by simpa using h), ?_⟩
    refine List.Nodup.pairwise_of_forall_ne List.nodup_range ?_
    intro a _ b _ hab
    rw [Function.onFun, List.disjoint_left]
    rintro x h1 h2
    simp only [List.mem_map] at h1 h2
    obtain ⟨u, -, rfl⟩ := h1
    obtain ⟨v, -, h⟩ := h2
    simp only [List.cons.injEq] at h
    exact hab h.1.symm

theorem bcast_self : ∀ s : List Nat, bcast s s = some s
  | [] => rfl
  | a :: as => by simp [bcast, bcast_self as]

theorem align_self : ∀ (s i : List Nat), Idx i s → align s i = i
  | [], _, h => by cases h; rfl
  | d :: ds, _, h => by
    cases h with
    | @cons a _ as _ h1 h2 =>
      simp only [align, List.headD_cons, List.tail_cons, align_self ds as h2]
      split
      · have : a = 0 := by omega
        rw [this]
      · rfl

theorem bcast_none_iff : ∀ a b : List Nat, bcast a b = none ↔ ¬ Fit a b
  | [], b => by simp [bcast, Fit]
  | a :: as, [] => by simp [bcast, Fit]
  | a :: as, b :: bs => by
    have hcons : Fit (a :: as) (b :: bs) ↔ (a = b ∨ a = 1 ∨ b = 1) ∧ Fit as bs := by
      constructor
      · intro h
        exact ⟨h 0 a b rfl rfl, fun k x y hx hy => h (k + 1) x y (by simpa using hx) (by simpa using hy)⟩
      · rintro ⟨h1, h2⟩ k x y hx hy
        cases k with
        | zero =>
          simp only [List.getElem?_cons_zero, Option.some.injEq] at hx hy
          subst hx hy
          exact h1
        | succ k => exact h2 k x y (by simpa using hx) (by simpa using hy)
    have ih := bcast_none_iff as bs
    rw [hcons, bcast]
    split
    · rename_i h
      rw [Option.map_eq_none_iff, ih]
      tauto
    · split
      · rename_i h
        rw [Option.map_eq_none_iff, ih]
        tauto
      · rename_i h1 h2
        simp only [true_iff]
        tauto

theorem sum_sq_zero {α : Type} (f : α → ℝ) : ∀ l : List α, (l.map fun i => f i ^ 2).sum = 0 ↔ ∀ i ∈ l, f i = 0
  | [] => by simp
  | x :: l => by
    have h0 : 0 ≤ (l.map fun i => f i ^ 2).sum := List.sum_nonneg (by simp only [List.mem_map]; rintro _ ⟨a, -, rfl⟩; exact sq_nonneg _)
    simp only [List.map_cons, List.sum_cons, List.forall_mem_cons]
    rw [← sum_sq_zero f l]
    constructor
    · intro h
      have := sq_nonneg (f x)
      exact ⟨pow_eq_zero_iff (two_ne_zero) |>.mp (by linarith), by linarith⟩
    · rintro ⟨h1, h2⟩
      rw [h1, h2]
      ring

theorem mse_some {p t : Tensor} {s : List Nat} (h : bcast p.dims t.dims = some s) (hs : s.prod ≠ 0) :
    mse p t = .ok (.num (((indices s).map fun i => (p.at' (align p.dims i) - t.at' (align t.dims i)) ^ 2).sum / s.prod)) := by
  unfold mse
  rw [h]
  simp only [List.length_map, length_indices, if_neg hs]

/-! ### The property -/

/-- **C143.** For a target of the same shape as the prediction the loss is the squared deviation of entry from entry, averaged over all entries: `is` is any list of all indices. -/
theorem same (p t : Tensor) (h : p.dims = t.dims) (hs : p.dims.prod ≠ 0) (is : List (List Nat)) (hn : is.Nodup) (hi : ∀ i, i ∈ is ↔ Idx i p.dims) :
    mse p t = .ok (.num ((is.map fun i => (p.at' i - t.at' i) ^ 2).sum / p.dims.prod)) := by
  have hp : is.Perm (indices p.dims) := (List.perm_ext_iff_of_nodup hn (nodup_indices _)).mpr fun i => by rw [hi, mem_indices]
  rw [mse_some (s := p.dims) (by rw [← h]; exact bcast_self _) hs, (hp.map _).sum_eq]
  congr 4
  apply List.map_congr_left
  intro i hi'
  have := (mem_indices _ i).mp hi'
  rw [← h, align_self _ _ this]

/-- **C143.** It is never negative, and zero exactly when every prediction equals its own target. -/
theorem same_zero (p t : Tensor) (h : p.dims = t.dims) (hs : p.dims.prod ≠ 0) :
    ∃ l : ℝ, mse p t = .ok (.num l) ∧ 0 ≤ l ∧ (l = 0 ↔ ∀ i, Idx i p.dims → p.at' i = t.at' i) := by
  refine ⟨_, same p t h hs (indices p.dims) (nodup_indices _) (mem_indices _), ?_, ?_⟩
  · refine div_nonneg (List.sum_nonneg ?_) (Nat.cast_nonneg _)
    simp only [List.mem_map]
    rintro _ ⟨a, -, rfl⟩
    exact sq_nonneg _
  · rw [div_eq_zero_iff, sum_sq_zero]
    have : ((p.dims.prod : ℕ) : ℝ) ≠ 0 := by exact_mod_cast hs
    simp only [this, or_false, mem_indices, sub_eq_zero]

/-- **C143.** A target that is one number is compared with every prediction. -/
theorem single (p t : Tensor) (h : t.dims = [] ∨ t.dims = [1]) (hp : p.dims ≠ []) (hs : p.dims.prod ≠ 0) (is : List (List Nat)) (hn : is.Nodup) (hi : ∀ i, i ∈ is ↔ Idx i p.dims) :
    mse p t = .ok (.num ((is.map fun i => (p.at' i - t.at' (if t.dims = [] then [] else [0])) ^ 2).sum / p.dims.prod)) := by
  obtain ⟨d, ds, hd⟩ := List.exists_cons_of_ne_nil hp
  have hb : bcast p.dims t.dims = some p.dims := by
    rcases h with h | h <;> rw [h, hd]
    · rfl
    · simp only [bcast, or_true, if_true]
      cases ds <;> rfl
  have hperm : is.Perm (indices p.dims) := (List.perm_ext_iff_of_nodup hn (nodup_indices _)).mpr fun i => by rw [hi, mem_indices]
  rw [mse_some hb hs, (hperm.map _).sum_eq]
  congr 4
  apply List.map_congr_left
  intro i hi'
  rw [align_self _ _ ((mem_indices _ i).mp hi')]
  rcases h with h | h <;> simp [h, align]

theorem split_sum {α : Type} (f : α → ℝ) (m c : ℝ) : ∀ l : List α, (l.map fun i => (f i - c) ^ 2).sum = (l.map fun i => (f i - m) ^ 2).sum + 2 * (m - c) * ((l.map f).sum - l.length * m) + l.length * (m - c) ^ 2
  | [] => by simp
  | x :: l => by
    simp only [List.map_cons, List.sum_cons, List.length_cons, split_sum f m c l, Nat.cast_add, Nat.cast_one]
    ring

/-- **C143.** For a target that is one number the loss is the spread of the predictions about their mean plus the square of the mean's own error, so that it asks both for predictions which agree and for the right mean. -/
theorem spread (p t : Tensor) (h : t.dims = [] ∨ t.dims = [1]) (hp : p.dims ≠ []) (hs : p.dims.prod ≠ 0) (is : List (List Nat)) (hnd : is.Nodup) (hi : ∀ i, i ∈ is ↔ Idx i p.dims) :
    let c := t.at' (if t.dims = [] then [] else [0])
    let n : ℝ := p.dims.prod
    let m := (is.map p.at').sum / n
    mse p t = .ok (.num ((is.map fun i => (p.at' i - m) ^ 2).sum / n + (m - c) ^ 2)) := by
  intro c n m
  have hn : n ≠ 0 := by
    change ((p.dims.prod : ℕ) : ℝ) ≠ 0
    exact_mod_cast hs
  have hlen : is.length = p.dims.prod := by
    rw [← length_indices]
    exact ((List.perm_ext_iff_of_nodup hnd (nodup_indices _)).mpr fun i => by rw [hi, mem_indices]).length_eq
  rw [single p t h hp hs is hnd hi, split_sum p.at' m c, hlen]
  congr 2
  have hm : (is.map p.at').sum = n * m := by
    change _ = n * (_ / n)
    field_simp
  rw [hm]
  change (_ + 2 * (m - c) * (n * m - n * m) + n * (m - c) ^ 2) / n = _
  field_simp
  ring

/-- **C143.** One predicted number against one number, as for fill levels of a furnace: the square of the error. -/
theorem number (p t : Tensor) (hp : p.dims = [1]) (ht : t.dims = [1]) : mse p t = .ok (.num ((p.at' [0] - t.at' [0]) ^ 2)) := by
  rw [mse_some (s := [1]) (by rw [hp, ht]; rfl) (by simp)]
  simp [indices, hp, ht, align]

/-- **C143.** Prediction and target can be swapped. -/
theorem symm (p t : Tensor) (h : p.dims = t.dims) : mse p t = mse t p := by
  unfold mse
  rw [h]
  cases bcast t.dims t.dims with
  | none => rfl
  | some ds =>
    simp only
    congr 1
    rw [show (fun i => (p.at' (align t.dims i) - t.at' (align t.dims i)) ^ 2) = fun i => (t.at' (align t.dims i) - p.at' (align t.dims i)) ^ 2 from by funext i; ring]

/-- **C143.** Shapes which cannot be matched are an error, and no others are; a volume without target is an error too. -/
theorem error (p t : Tensor) : (mse p t = .error .runtimeError ↔ ¬ Fit p.dims t.dims) ∧ (Fit p.dims t.dims → ∃ l, mse p t = .ok l) ∧ inferenceLoss p none = .error .attributeError ∧
    inferenceLoss p (some t) = mse p t := by
  refine ⟨?_, ?_, rfl, rfl⟩
  · rw [← bcast_none_iff]
    unfold mse
    cases h : bcast p.dims t.dims <;> simp
  · intro h
    have : bcast p.dims t.dims ≠ none := fun h' => (bcast_none_iff _ _).mp h' h
    obtain ⟨s, hs⟩ := Option.ne_none_iff_exists'.mp this
    unfold mse
    rw [hs]
    exact ⟨_, rfl⟩

/-! ### What the code refutes -/

/-- a column of `n` predictions, shape (n, 1) -/
def column (n : Nat) (f : Nat → ℝ) : Tensor := { dims := [1, n], at' := fun i => f (i.getD 1 0) }

/-- `n` targets, shape (n) -/
def row (n : Nat) (f : Nat → ℝ) : Tensor := { dims := [n], at' := fun i => f (i.getD 0 0) }

/-- **C143 is refuted by the code.** A column of `n` predictions is compared with `n` targets pair by pair, each prediction with every target: the loss is zero only if all predictions and all targets are one and the same
number. -/
theorem pairs (n : Nat) (hn : n ≠ 0) (f g : Nat → ℝ) : ∃ l : ℝ, mse (column n f) (row n g) = .ok (.num l) ∧
    l = ((List.range n).flatMap fun j => (List.range n).map fun i => (f i - g j) ^ 2).sum / (n * n) ∧ (l = 0 ↔ ∀ i < n, ∀ j < n, f i = g j) := by
  have hb : bcast (column n f).dims (row n g).dims = some [n, n] := by
    simp only [column, row, bcast]
    by_cases h1 : n = 1
    · subst h1; simp
    · simp [h1, Ne.symm h1]
  have hp : ([n, n] : List Nat).prod ≠ 0 := by simp [hn]
  refine ⟨_, mse_some hb hp, ?_, ?_⟩
  · have hr : indices [n, n] = (List.range n).flatMap fun j => (List.range n).map fun i => [j, i] := by
      have h1 : indices [n] = (List.range n).map fun i => [i] := by
        rw [List.map_eq_flatMap]
        rfl
      rw [indices, h1]
      simp only [List.map_map, Function.comp_def]
    rw [hr, List.map_flatMap]
    simp only [List.map_map, List.prod_cons, List.prod_nil, mul_one, Nat.cast_mul]
    congr 2
    apply List.flatMap_congr
    intro j hj
    apply List.map_congr_left
    intro i hi
    rw [List.mem_range] at hi hj
    simp only [Function.comp_apply, column, row, align]
    by_cases h1 : n = 1
    · have hi0 : i = 0 := by omega
      have hj0 : j = 0 := by omega
      simp [h1, hi0, hj0]
    · simp [h1]
  · have h0 : ((([n, n] : List Nat).prod : ℕ) : ℝ) ≠ 0 := by exact_mod_cast hp
    rw [div_eq_zero_iff, sum_sq_zero]
    simp only [h0, or_false, mem_indices, sub_eq_zero]
    constructor
    · intro h i hi j hj
      have := h [j, i] (List.Forall₂.cons hj (List.Forall₂.cons hi List.Forall₂.nil))
      simp only [column, row, align] at this
      by_cases h1 : n = 1
      · have hi0 : i = 0 := by omega
        have hj0 : j = 0 := by omega
        simpa [h1, hi0, hj0] using this
      · simpa [h1] using this
    · intro h is his
      cases his with
      | @cons j _ _ _ hj h2 =>
        cases h2 with
        | @cons i _ _ _ hi h3 =>
          cases h3
          simp only [column, row, align]
          by_cases h1 : n = 1
          · have hi0 : i = 0 := by omega
            have hj0 : j = 0 := by omega
            simpa [h1, hi0, hj0] using h 0 (by omega) 0 (by omega)
          · simpa [h1] using h i hi j hj

/-- **C143 is refuted by the code.** So predictions that are all right are punished. -/
theorem pairs_violated (n : Nat) (f : Nat → ℝ) (i j : Nat) (hi : i < n) (hj : j < n) (hf : f i ≠ f j) : ∃ l : ℝ, mse (column n f) (row n f) = .ok (.num l) ∧ l ≠ 0 := by
  obtain ⟨l, h1, -, h2⟩ := pairs n (by omega) f f
  exact ⟨l, h1, fun h => hf (h2.mp h i hi j hj)⟩

/-! ### The hypotheses can be met -/

example : ∃ l : ℝ, mse (row 3 fun i => i) (row 3 fun _ => 1) = .ok (.num l) ∧ 0 ≤ l ∧ (l = 0 ↔ ∀ i, Idx i [3] → (row 3 fun i => i).at' i = (row 3 fun _ => 1).at' i) :=
  same_zero _ _ rfl (by simp [row])

example : mse (row 2 fun i => i) (row 1 fun _ => 3) = .ok (.num (((1 : ℝ) / 4 + 1 / 4) / 2 + (1 / 2 - 3) ^ 2)) := by
  rw [spread (row 2 fun i => i) (row 1 fun _ => 3) (Or.inr rfl) (by simp [row]) (by simp [row]) (indices [2]) (nodup_indices _) (mem_indices _)]
  simp [row, indices, List.range_succ]
  norm_num

example : mse (row 2 fun i => i) (row 3 fun _ => 3) = .error .runtimeError := (error _ _).1.mpr fun h => by
  have := h 0 2 3 rfl rfl
  omega

example : ∃ l : ℝ, mse (column 2 fun i => i) (row 2 fun i => i) = .ok (.num l) ∧ l ≠ 0 := pairs_violated 2 _ 0 1 (by omega) (by omega) (by norm_num)

end C143

end

end Tomopt
