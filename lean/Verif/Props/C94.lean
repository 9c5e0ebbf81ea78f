import Verif.Model.Optims
import Mathlib.Data.List.Basic
import Mathlib.Tactic.Ring

/- C94: what callbacks know about each other. -/
namespace Tomopt

noncomputable section

open Optims

namespace C94

/-- the positions, counted from `i`, of the callbacks with a property, in order -/
def positions (p : Kind → Bool) (i : Nat) (cs : List Kind) : List Nat := (cs.zipIdx i).filterMap fun x => if p x.1 then some x.2 else none

theorem positions_cons (p : Kind → Bool) (i : Nat) (c : Kind) (cs : List Kind) : positions p i (c :: cs) = (if p c then [i] else []) ++ positions p (i + 1) cs := by
  unfold positions
  rw [List.zipIdx_cons, List.filterMap_cons]
  cases p c <;> simp

/-- `positions` says what it should: strictly increasing, and exactly those with the property -/
theorem mem_positions (p : Kind → Bool) (cs : List Kind) (j : Nat) : j ∈ positions p 0 cs ↔ ∃ c, cs[j]? = some c ∧ p c = true := by
  unfold positions
  rw [List.mem_filterMap]
  constructor
  · rintro ⟨⟨c, k⟩, h1, h2⟩
    rw [List.mem_zipIdx_iff_getElem?] at h1
    by_cases hp : p c = true
    · simp only [hp, if_true, Option.some.injEq] at h2
      obtain rfl := h2
      exact ⟨c, h1, hp⟩
    · simp [hp] at h2
  · rintro ⟨c, h1, hp⟩
    exact ⟨(c, j), by rw [List.mem_zipIdx_iff_getElem?]; exact h1, by simp [hp]⟩

theorem positions_sorted (p : Kind → Bool) (i : Nat) (cs : List Kind) : (positions p i cs).Pairwise (· < ·) ∧ ∀ j ∈ positions p i cs, i ≤ j := by
  induction cs generalizing i with
  | nil => simp [positions]
  | cons c cs ih =>
    obtain ⟨h1, h2⟩ := ih (i + 1)
    rw [positions_cons]
    cases p c
    · simpa using ⟨h1, fun j hj => by have := h2 j hj; omega⟩
    · simp only [if_true, List.cons_append, List.nil_append, List.pairwise_cons, List.mem_cons]
      refine ⟨⟨fun j hj => by have := h2 j hj; omega, h1⟩, ?_⟩
      rintro j (rfl | hj)
      · exact le_rfl
      · have := h2 j hj; omega

theorem sortFrom_eq (cs : List Kind) (i : Nat) (s : Sorted) :
    sortFrom i cs s = ⟨s.cyclic ++ positions (·.cyclic) i cs, s.warmup ++ positions (·.warmup) i cs, s.log ++ (positions (·.logger) i cs).map some,
      s.metric ++ positions (·.metric) i cs, s.nWarm + ((cs.filter (·.warmup)).map (·.nWarm)).sum⟩ := by
  induction cs generalizing i s with
  | nil => simp [sortFrom, positions]
  | cons c cs ih =>
    unfold sortFrom
    rw [ih]
    simp only [positions_cons]
    obtain ⟨a, b, d, e, n⟩ := c
    cases a <;> cases b <;> cases d <;> cases e <;> simp [List.append_assoc, Nat.add_assoc]

/-- **C94.** For every list of callbacks: the warm-up, cyclic and metric callbacks that others are told about are exactly those in the list, in its order; the total warm-up is
the sum of theirs; the metric logger is the first one in the list, or `None`. -/
theorem sorted (cs : List Kind) :
    (sortCbs cs).cyclic = positions (·.cyclic) 0 cs ∧ (sortCbs cs).warmup = positions (·.warmup) 0 cs ∧ (sortCbs cs).metric = positions (·.metric) 0 cs ∧
    (sortCbs cs).nWarm = ((cs.filter (·.warmup)).map (·.nWarm)).sum ∧ metricLog (sortCbs cs) = .ok (positions (·.logger) 0 cs).head? := by
  unfold sortCbs
  rw [sortFrom_eq]
  simp only [List.nil_append, Nat.zero_add]
  cases h : positions (·.logger) 0 cs with
  | nil => simp [metricLog]
  | cons x l => simp [metricLog]

/-- **C94: further loggers.** Only the first of several metric loggers is known to other callbacks. -/
theorem second_logger (a b : Kind) (ha : a.logger = true) (cs : List Kind) : metricLog (sortCbs (a :: b :: cs)) = .ok (some 0) := by
  rw [(sorted _).2.2.2.2, positions_cons, ha]
  rfl

example : (sortCbs [⟨false, true, false, false, 2⟩, ⟨false, false, true, false, 0⟩, ⟨false, true, false, false, 3⟩, ⟨false, false, false, true, 0⟩]).warmup = [0, 2] := rfl
example : (sortCbs [⟨false, true, false, false, 2⟩, ⟨false, false, true, false, 0⟩, ⟨false, true, false, false, 3⟩, ⟨false, false, false, true, 0⟩]).nWarm = 5 := rfl

end C94

end

end Tomopt
