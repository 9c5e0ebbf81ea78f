import Verif.Spec.FurnacePlots
import Mathlib.Tactic.Linarith
import Mathlib.Tactic.FieldSimp
import Mathlib.Algebra.BigOperators.Group.List.Basic
import Mathlib.Algebra.Order.BigOperators.Group.List

/- Lemmas on grouping rows by level. -/
namespace Tomopt

noncomputable section

namespace C150

open FurnacePlots

theorem levels_mem (t : Table) (x : ℝ) : x ∈ levels t ↔ ∃ r ∈ t.rows, r.target = x := by
  unfold levels
  rw [(List.mergeSort_perm _ _).mem_iff, List.mem_dedup, List.mem_map]

theorem levels_sorted (t : Table) : (levels t).Pairwise (· < ·) := by
  have h1 := List.pairwise_mergeSort (le := fun a b : ℝ => decide (a ≤ b)) (by simp; intro a b c; exact le_trans) (by simp; intro a b; exact le_total _ _) (t.rows.map (·.target)).dedup
  have h2 : (levels t).Nodup := (List.mergeSort_perm _ _).nodup_iff.mpr (List.nodup_dedup _)
  have h3 := h1.and h2
  exact h3.imp fun ⟨a, b⟩ => lt_of_le_of_ne (by simpa using a) b

theorem mean_some {xs : List ℝ} (h : xs ≠ []) : mean xs = some (xs.sum / xs.length) := by rw [mean, if_neg h]

theorem group_ne (t : Table) (c : String) (x : ℝ) (h : x ∈ levels t) : group t c x ≠ [] := by
  obtain ⟨r, hr, e⟩ := (levels_mem t x).mp h
  intro h0
  have : r.col c ∈ group t c x := List.mem_map_of_mem (List.mem_filter.mpr ⟨hr, by simpa using e⟩)
  rw [h0] at this
  simp at this

theorem shows (t : Table) (c : String) : Shows t c ((levels t).map fun x => ⟨x, mean (group t c x), std (group t c x)⟩) := by
  have hmap : ((levels t).map fun x => (⟨x, mean (group t c x), std (group t c x)⟩ : Point)).map (·.x) = levels t := by
    rw [List.map_map]
    exact List.map_id' _
  refine ⟨by rw [hmap]; exact levels_sorted t, fun x => by rw [hmap]; exact levels_mem t x, ?_⟩
  intro p hp vs hvs
  obtain ⟨x, hx, rfl⟩ := List.mem_map.mp hp
  have hg := group_ne t c x hx
  have hvs : vs.Perm (group t c x) := hvs
  have hs := hvs.sum_eq
  have hl := hvs.length_eq
  have hlen : 0 < (group t c x).length := List.length_pos_iff.mpr hg
  refine ⟨by simp only [mean_some hg, hs, hl], ?_, ?_⟩
  · simp only [std, mean_some hg]
    rw [hl]
    split
    · simp; omega
    · simp; omega
  · intro e he
    simp only [std, mean_some hg] at he
    split at he
    · simp at he
    · rename_i h2
      simp only [Option.some.injEq] at he
      subst he
      have hpos : (0 : ℝ) < (group t c x).length - 1 := by
        have : (2 : ℝ) ≤ (group t c x).length := by exact_mod_cast not_lt.mp h2
        linarith
      have hnn : 0 ≤ ((group t c x).map fun v => (v - (group t c x).sum / (group t c x).length) ^ 2).sum := List.sum_nonneg (by
        intro y hy
        obtain ⟨v, -, rfl⟩ := List.mem_map.mp hy
        positivity)
      refine ⟨Real.sqrt_nonneg _, ?_⟩
      rw [Real.sq_sqrt (div_nonneg hnn hpos.le), hl, hs, div_mul_cancel₀ _ hpos.ne']
      exact ((hvs.map _).sum_eq).symm

theorem pick (f : ℝ) (y : ℝ) (xs : List ℝ) (hn : xs.Nodup) (h : y ∈ xs) : (xs.map fun x => if y = x then f else 0).sum = f := by
  induction xs with
  | nil => simp at h
  | cons x xs ih =>
    rw [List.nodup_cons] at hn
    simp only [List.map_cons, List.sum_cons]
    by_cases e : y = x
    · subst e
      have : (xs.map fun x => if y = x then f else 0) = xs.map fun _ => 0 := List.map_congr_left fun z hz => if_neg fun e : y = z => hn.1 (e ▸ hz)
      rw [this]
      simp
    · rw [if_neg e, ih hn.2 (by simpa [e] using h), zero_add]

theorem split_sum (c : String) (rows : List Row) (xs : List ℝ) (hn : xs.Nodup) (h : ∀ r ∈ rows, r.target ∈ xs) :
    (xs.map fun x => ((rows.filter fun r => decide (r.target = x)).map (·.col c)).sum).sum = (rows.map (·.col c)).sum := by
  induction rows with
  | nil => simp
  | cons r rows ih =>
    have e : ∀ x, (((r :: rows).filter fun r => decide (r.target = x)).map (·.col c)).sum = (if r.target = x then r.col c else 0) + ((rows.filter fun r => decide (r.target = x)).map (·.col c)).sum := by
      intro x
      by_cases hx : r.target = x <;> simp [hx]
    simp only [e, List.sum_map_add, List.map_cons, List.sum_cons]
    rw [pick _ _ _ hn (h r (by simp)), ih fun q hq => h q (List.mem_cons_of_mem _ hq)]

theorem dev_sum (xs : List ℝ) (m : ℝ) : (xs.map fun x => (x - m) ^ 2).sum = (xs.map fun x => x ^ 2).sum - 2 * m * xs.sum + xs.length * m ^ 2 := by
  induction xs with
  | nil => simp
  | cons x xs ih =>
    simp only [List.map_cons, List.sum_cons, List.length_cons, ih]
    push_cast
    ring

end C150

end

end Tomopt
