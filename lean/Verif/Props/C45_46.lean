import Verif.Lemmas.Warmup

/- C45, C46: warm-ups, and callbacks that wait for them. Epochs are counted from 0; validation epochs in between change nothing. -/
namespace Tomopt

open Warmup

/-- the total number of epochs requested -/
def totalWarm (ws : List Wu) : Nat := (ws.map (·.n)).sum

namespace C45

/-- **C45: freeze.** Whatever the state an earlier fit left behind and whatever the other callbacks, the flag that skips the steps of the optimisers is set
in exactly the first `Σ nᵢ` training epochs. (Also for `nᵢ = 0`.) -/
theorem freeze (cs : List Cb) (ws : List Wu) (hl : Listed cs ws) (e : Nat) : (during cs ws e).2.skip = true ↔ e < totalWarm ws := by
  rw [during_state cs ws hl]
  exact decide_eq_true_iff

/-- **C45: turns.** The `i`-th warm-up is active in exactly `nᵢ` consecutive epochs, which follow those of the warm-ups before it. -/
theorem turns (cs : List Cb) (ws : List Wu) (hl : Listed cs ws) (e i : Nat) (hi : i < ws.length) :
    ((during cs ws e).2.ws[i]?).map (·.act) = some (decide (totalWarm (ws.take i) ≤ e ∧ e < totalWarm (ws.take (i + 1)))) := by
  rw [during_state cs ws hl]
  show Option.map _ (canon _ e)[i]? = _
  rw [canon_act _ _ _ (by simpa using hi)]
  simp only [totalWarm, List.map_take]

/-- In the epochs where steps are skipped exactly one warm-up is active, afterwards none. -/
theorem one_active (cs : List Cb) (ws : List Wu) (hl : Listed cs ws) (e : Nat) :
    ((during cs ws e).2.ws.countP (·.act)) = if e < totalWarm ws then 1 else 0 := by
  rw [during_state cs ws hl]
  unfold totalWarm
  generalize ws.map (·.n) = ns
  induction ns generalizing e with
  | nil => rfl
  | cons n ns ih =>
    simp only at ih ⊢
    have hs : (n :: ns).sum = n + ns.sum := List.sum_cons
    unfold canon
    by_cases h : e < n
    · rw [if_pos h, if_pos (by omega)]
      rw [List.countP_cons_of_pos rfl]
      have : (idle ns).countP (·.act) = 0 := by
        rw [List.countP_eq_zero]
        intro c hc
        obtain ⟨m, -, rfl⟩ := List.mem_map.mp hc
        simp
      rw [this]
    · rw [if_neg h, List.countP_cons_of_neg (by simp), ih]
      by_cases h2 : e - n < ns.sum
      · rw [if_pos h2, if_pos (by omega)]
      · rw [if_neg h2, if_neg (by omega)]

/-- two warm-ups of two epochs and one, listed after another callback, left over from an earlier fit -/
def demo : List Cb × List Wu := ([.other, .warm 0, .post true, .warm 1], [⟨2, 2, false⟩, ⟨1, 1, true⟩])

example : Listed demo.1 demo.2 := by unfold Listed; decide
example : (List.range 5).map (fun e => (during demo.1 demo.2 e).2.skip) = [true, true, true, false, false] := by decide

end C45

namespace C46

/-- the callback at position `p` is active in epoch `e` -/
def ActiveAt (cs : List Cb) (ws : List Wu) (p e : Nat) : Prop := (during cs ws e).1[p]? = some (.post true)

theorem active_iff (pre suf : List Cb) (a : Bool) (ws : List Wu) (e : Nat) : ActiveAt (pre ++ .post a :: suf) ws pre.length e ↔
    ∃ j ≤ e, ((check^[(idx pre).length] (before (pre ++ .post a :: suf) ws j).2).ws.all fun c => !c.act) = true := by
  obtain ⟨p, q, h1, h2, -⟩ := post_active pre suf a ws e
  unfold ActiveAt
  rw [h1, ← h2, List.getElem?_append_right (Nat.le_refl _)]
  simp only [Nat.sub_self, List.getElem?_cons_zero, Option.some.injEq, Cb.post.injEq, decide_eq_true_iff]

/-- **C46: without warm-ups** a waiting callback is active from the first epoch. -/
theorem no_warmups (pre suf : List Cb) (a : Bool) (hl : Listed (pre ++ .post a :: suf) []) (e : Nat) : ActiveAt (pre ++ .post a :: suf) [] pre.length e := by
  rw [active_iff]
  refine ⟨0, Nat.zero_le _, ?_⟩
  rw [before_zero _ _ hl]
  have : check^[(idx pre).length] ⟨start [], false⟩ = ⟨[], false⟩ := by
    generalize (idx pre).length = k
    induction k with
    | zero => rfl
    | succ k ih => rw [Function.iterate_succ_apply]; exact ih
  show (check^[(idx pre).length] ⟨start [], false⟩).ws.all _ = true
  rw [this]
  rfl

/-- **C46, what holds.** If at least one warm-up is listed before the waiting callback (and every warm-up asks for at least one epoch), it becomes active
at the first epoch after the last warm-up. Missing: other orders, see `late_violated`. -/
theorem on_time_partial (pre suf : List Cb) (a : Bool) (ws : List Wu) (hl : Listed (pre ++ .post a :: suf) ws) (hpos : ∀ c ∈ ws, 0 < c.n)
    (hbefore : idx pre ≠ []) (e : Nat) : ActiveAt (pre ++ .post a :: suf) ws pre.length e ↔ totalWarm ws ≤ e := by
  rw [active_iff]
  have hk : 1 ≤ (idx pre).length := by
    have := List.length_pos_iff.mpr hbefore
    omega
  have hpos' : ∀ n ∈ ws.map (·.n), 0 < n := by
    intro n hn
    obtain ⟨c, hc, rfl⟩ := List.mem_map.mp hn
    exact hpos c hc
  have key : ∀ j, ((check^[(idx pre).length] (before (pre ++ .post a :: suf) ws j).2).ws.all fun c => !c.act) = decide (totalWarm ws ≤ j) := by
    intro j
    cases j with
    | zero =>
      rw [before_zero _ _ hl]
      have hst : start (ws.map (·.n)) = canon (ws.map (·.n)) 0 := by
        cases ws with
        | nil => rfl
        | cons c ws => rw [List.map_cons, start_succ, canon, if_pos (hpos' _ (by simp))]
      rw [hst]
      have := check_canon [] (by simp) (ws.map (·.n)) 0 (!ws.isEmpty) (idx pre).length
      simp only [List.nil_append] at this
      rw [this]
      exact canon_all _ _
    | succ j =>
      rw [before_succ _ _ hl]
      have := check_next_pos (ws.map (·.n)) hpos' [] (by simp) j (decide (j < (ws.map (·.n)).sum)) (idx pre).length hk
      simp only [List.nil_append] at this
      rw [this]
      exact canon_all _ _
  constructor
  · rintro ⟨j, hj, h⟩
    rw [key, decide_eq_true_iff] at h
    omega
  · intro h
    exact ⟨e, Nat.le_refl e, by rw [key, decide_eq_true_iff]; exact h⟩

/-- **C46 (violated).** Listed before all the warm-ups, it becomes active exactly one epoch late. -/
theorem late_violated (pre suf : List Cb) (a : Bool) (ws : List Wu) (hl : Listed (pre ++ .post a :: suf) ws) (h0 : ws ≠ [])
    (hbefore : idx pre = []) (e : Nat) : ActiveAt (pre ++ .post a :: suf) ws pre.length e ↔ totalWarm ws + 1 ≤ e := by
  rw [active_iff, hbefore]
  have key : ∀ j, ((before (pre ++ .post a :: suf) ws j).2.ws.all fun c => !c.act) = decide (totalWarm ws + 1 ≤ j) := by
    intro j
    cases j with
    | zero =>
      rw [before_zero _ _ hl]
      cases ws with
      | nil => exact absurd rfl h0
      | cons c ws => simp [start]
    | succ j =>
      rw [before_succ _ _ hl]
      show ((canon _ j).map incr).all _ = _
      rw [incr_act, canon_all, decide_eq_decide]
      unfold totalWarm
      omega
  constructor
  · rintro ⟨j, hj, h⟩
    have := key j
    simp only [List.length_nil, Function.iterate_zero_apply] at h
    rw [h] at this
    have := of_decide_eq_true this.symm
    omega
  · intro h
    exact ⟨e, Nat.le_refl e, by simp only [List.length_nil, Function.iterate_zero_apply]; rw [key, decide_eq_true_iff]; exact h⟩

example : Listed ([.warm 0] ++ .post false :: [.warm 1]) [⟨2, 0, false⟩, ⟨1, 0, false⟩] := by unfold Listed; decide
example : ¬ ActiveAt ([.warm 0] ++ .post false :: [.warm 1]) [⟨2, 0, false⟩, ⟨1, 0, false⟩] 1 2 := by unfold ActiveAt; decide
example : ActiveAt ([.warm 0] ++ .post false :: [.warm 1]) [⟨2, 0, false⟩, ⟨1, 0, false⟩] 1 3 := by unfold ActiveAt; decide
example : ¬ ActiveAt ([] ++ .post false :: [.warm 0]) [⟨2, 0, false⟩] 0 2 := by unfold ActiveAt; decide

end C46

end Tomopt
