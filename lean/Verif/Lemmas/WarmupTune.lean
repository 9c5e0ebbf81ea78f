import Verif.Model.WarmupTune
import Verif.Spec.Median
import Verif.Lemmas.Warmup
import Mathlib.Tactic.Linarith

/- Medians, and what the warm-ups that set numbers have recorded. -/
namespace Tomopt

open Spec

theorem npSort_perm (xs : List ℝ) : (npSort xs).Perm xs := List.mergeSort_perm _ _

theorem npSort_sorted (xs : List ℝ) : (npSort xs).Pairwise (· ≤ ·) := by
  have h := List.pairwise_mergeSort (le := fun a b : ℝ => decide (a ≤ b)) (by intro a b c; simp only [decide_eq_true_eq]; exact le_trans)
    (by intro a b; simp only [Bool.or_eq_true, decide_eq_true_eq]; exact le_total a b) xs
  unfold npSort
  refine List.Pairwise.imp ?_ (by convert h)
  intro a b hab
  simpa using hab

theorem npMedian_spec (xs : List ℝ) (h : xs ≠ []) : ∃ m, npMedian xs = .num m ∧ IsMedian m xs := by
  refine ⟨_, by unfold npMedian; rw [if_neg h], h, npSort xs, npSort_perm xs, npSort_sorted xs, ?_⟩
  rw [(npSort_perm xs).length_eq]

/-- the median is between any bounds of the elements -/
theorem Spec.IsMedian.bounds {m : ℝ} {xs : List ℝ} (h : IsMedian m xs) (lo hi : ℝ) (hlo : ∀ x ∈ xs, lo ≤ x) (hhi : ∀ x ∈ xs, x ≤ hi) : lo ≤ m ∧ m ≤ hi := by
  obtain ⟨h0, s, hp, -, rfl⟩ := h
  have hl : 0 < s.length := by rw [hp.length_eq]; exact List.length_pos_iff.mpr h0
  have key : ∀ k < s.length, lo ≤ s.getD k 0 ∧ s.getD k 0 ≤ hi := by
    intro k hk
    rw [List.getD_eq_getElem?_getD, List.getElem?_eq_getElem hk, Option.getD_some]
    have := hp.mem_iff.mp (List.getElem_mem hk)
    exact ⟨hlo _ this, hhi _ this⟩
  have h1 := key ((s.length - 1) / 2) (by omega)
  have h2 := key (s.length / 2) (by omega)
  constructor <;> linarith [h1.1, h1.2, h2.1, h2.2]

/-- at least half of the elements are at most the median, and at least half are at least the median -/
theorem Spec.IsMedian.half {m : ℝ} {xs : List ℝ} (h : IsMedian m xs) :
    xs.length ≤ 2 * xs.countP (fun x => decide (x ≤ m)) ∧ xs.length ≤ 2 * xs.countP (fun x => decide (m ≤ x)) := by
  obtain ⟨h0, s, hp, hs, hm⟩ := h
  have hl : 0 < s.length := by rw [hp.length_eq]; exact List.length_pos_iff.mpr h0
  have ha : (s.length - 1) / 2 < s.length := by omega
  have hb : s.length / 2 < s.length := by omega
  simp only [List.getD_eq_getElem?_getD, List.getElem?_eq_getElem ha, List.getElem?_eq_getElem hb, Option.getD_some] at hm
  have hmono : ∀ i j (hi : i < s.length) (hj : j < s.length), i ≤ j → s[i] ≤ s[j] := by
    intro i j hi hj hij
    rcases Nat.lt_or_eq_of_le hij with h | rfl
    · exact List.pairwise_iff_getElem.mp hs i j hi hj h
    · exact le_refl _
  have hab := hmono _ _ ha hb (by omega)
  rw [← hp.length_eq, ← hp.countP_eq, ← hp.countP_eq]
  constructor
  · have h1 : (s.take ((s.length - 1) / 2 + 1)).countP (fun x => decide (x ≤ m)) = (s.length - 1) / 2 + 1 := by
      rw [List.countP_eq_length.mpr]
      · rw [List.length_take]; omega
      · intro x hx
        obtain ⟨k, hk, rfl⟩ := List.mem_iff_getElem.mp hx
        rw [List.length_take] at hk
        rw [List.getElem_take, decide_eq_true_iff]
        have := hmono k _ (by omega) ha (by omega)
        linarith
    have h2 := (List.take_sublist ((s.length - 1) / 2 + 1) s).countP_le (p := fun x => decide (x ≤ m))
    omega
  · have h1 : (s.drop (s.length / 2)).countP (fun x => decide (m ≤ x)) = s.length - s.length / 2 := by
      rw [List.countP_eq_length.mpr]
      · rw [List.length_drop]
      · intro x hx
        obtain ⟨k, hk, rfl⟩ := List.mem_iff_getElem.mp hx
        rw [List.length_drop] at hk
        rw [List.getElem_drop, decide_eq_true_iff]
        have := hmono (s.length / 2) (s.length / 2 + k) hb (by omega) (by omega)
        linarith
    have h2 := (List.drop_sublist (s.length / 2) s).countP_le (p := fun x => decide (m ≤ x))
    omega

namespace Warmup

/-- state of the `i`-th warm-up during epoch `e` -/
theorem canon_get (ns : List Nat) (e i : Nat) (hi : i < ns.length) : (canon ns e)[i]? =
    some ⟨ns[i], min (e - (ns.take i).sum) ns[i], decide ((ns.take i).sum ≤ e ∧ e < (ns.take (i + 1)).sum)⟩ := by
  induction ns generalizing e i with
  | nil => simp at hi
  | cons n ns ih =>
    unfold canon
    by_cases h : e < n
    · rw [if_pos h]
      cases i with
      | zero => simp [h]; omega
      | succ i =>
        simp only [List.length_cons, Nat.add_lt_add_iff_right] at hi
        simp only [idle, List.getElem?_cons_succ, List.getElem?_map, List.getElem?_eq_getElem hi, Option.map_some, List.getElem_cons_succ]
        have h1 : (List.take (i + 1) (n :: ns)).sum = n + (ns.take i).sum := by simp
        congr 2
        · omega
        · symm
          rw [decide_eq_false_iff_not]
          omega
    · rw [if_neg h]
      cases i with
      | zero => simp; omega
      | succ i =>
        simp only [List.length_cons, Nat.add_lt_add_iff_right] at hi
        simp only [List.getElem?_cons_succ, ih _ _ hi, List.getElem_cons_succ]
        have h1 : (List.take (i + 1) (n :: ns)).sum = n + (ns.take i).sum := by simp
        have h2 : (List.take (i + 1 + 1) (n :: ns)).sum = n + (ns.take (i + 1)).sum := by simp
        congr 2
        · omega
        · rw [decide_eq_decide]; omega

/-- epochs of the `i`-th warm-up -/
abbrev from_ (ws : List Wu) (i : Nat) : Nat := ((ws.take i).map (·.n)).sum

theorem from_succ (ws : List Wu) (i : Nat) (hi : i < ws.length) : from_ ws (i + 1) = from_ ws i + ws[i].n := by
  unfold from_
  rw [← List.take_append_getElem hi, List.map_append, List.sum_append]
  simp

theorem during_get (cs : List Cb) (ws : List Wu) (hl : Listed cs ws) (e i : Nat) (hi : i < ws.length) : (during cs ws e).2.ws[i]? =
    some ⟨ws[i].n, min (e - from_ ws i) ws[i].n, decide (from_ ws i ≤ e ∧ e < from_ ws (i + 1))⟩ := by
  rw [during_state cs ws hl, canon_get _ _ _ (by simpa using hi)]
  simp [from_, List.map_take]

end Warmup

end Tomopt
