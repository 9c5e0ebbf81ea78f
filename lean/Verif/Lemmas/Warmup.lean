import Verif.Model.Warmup
import Mathlib.Data.List.Basic
import Mathlib.Tactic.Linarith

/- How the list of warm-ups evolves. -/
namespace Tomopt

namespace Warmup

/-- numbers of the warm-ups among the callbacks -/
def idx : List Cb → List Nat
  | [] => []
  | .warm i :: cs => i :: idx cs
  | _ :: cs => idx cs

/-- nobody active, nothing done -/
def idle (ns : List Nat) : List Wu := ns.map (⟨·, 0, false⟩)

/-- state at the start of a fit -/
def start : List Nat → List Wu
  | [] => []
  | n :: ns => ⟨n, 0, true⟩ :: idle ns

/-- state during epoch `e` -/
def canon : List Nat → Nat → List Wu
  | [], _ => []
  | n :: ns, e => if e < n then ⟨n, e, true⟩ :: idle ns else ⟨n, n, false⟩ :: canon ns (e - n)

/-- what the end of a training epoch does -/
def incr (c : Wu) : Wu := if c.act then { c with cnt := c.cnt + 1 } else c

theorem scan_neg (c : Wu) (l : List Wu) (h : ¬ (c.act = true ∧ c.n ≤ c.cnt)) : scan (c :: l) = (c :: (scan l).1, (scan l).2) := by
  cases l <;> conv_lhs => unfold scan
  all_goals rw [if_neg h]

theorem scan_idle (ns : List Nat) : scan (idle ns) = (idle ns, false) := by
  induction ns with
  | nil => rfl
  | cons n ns ih =>
    show scan (⟨n, 0, false⟩ :: idle ns) = _
    rw [scan_neg _ _ (by simp), ih]
    rfl

theorem scan_canon (ns : List Nat) (e : Nat) : scan (canon ns e) = (canon ns e, false) := by
  induction ns generalizing e with
  | nil => rfl
  | cons n ns ih =>
    unfold canon
    by_cases h : e < n
    · rw [if_pos h, scan_neg _ _ (by simp; omega), scan_idle]
    · rw [if_neg h, scan_neg _ _ (by simp), ih]

theorem scan_append (D : List Wu) (hD : ∀ c ∈ D, c.act = false) (l : List Wu) : scan (D ++ l) = (D ++ (scan l).1, (scan l).2) := by
  induction D with
  | nil => rfl
  | cons d D ih =>
    rw [List.cons_append, scan_neg _ _ (by simp [hD d List.mem_cons_self]), ih fun c hc => hD c (List.mem_cons_of_mem _ hc)]
    rfl

theorem check_append (D : List Wu) (hD : ∀ c ∈ D, c.act = false) (l : List Wu) (sk : Bool) :
    check ⟨D ++ l, sk⟩ = ⟨D ++ (scan l).1, if (scan l).2 then false else sk⟩ := by
  simp only [check, scan_append D hD]

theorem check_canon (D : List Wu) (hD : ∀ c ∈ D, c.act = false) (ns : List Nat) (e : Nat) (sk : Bool) (k : Nat) :
    check^[k] ⟨D ++ canon ns e, sk⟩ = ⟨D ++ canon ns e, sk⟩ := by
  induction k with
  | zero => rfl
  | succ k ih => rw [Function.iterate_succ_apply, check_append D hD, scan_canon]; simpa using ih

theorem start_succ (n : Nat) (ns : List Nat) : start (n :: ns) = ⟨n, 0, true⟩ :: idle ns := rfl

/-- a finished warm-up hands over to the next one -/
theorem scan_finish (c : Wu) (h1 : c.act = true) (h2 : c.n ≤ c.cnt) (ns : List Nat) :
    scan (c :: idle ns) = ({ c with act := false } :: start ns, ns.isEmpty) := by
  cases ns with
  | nil => show scan [c] = _; unfold scan; rw [if_pos ⟨h1, h2⟩]; rfl
  | cons n ns => show scan (c :: _ :: idle ns) = _; unfold scan; rw [if_pos ⟨h1, h2⟩]; rfl

theorem sum_pos_of (n : Nat) (ns : List Nat) (h : 0 < n) : ¬ (n :: ns).sum = 0 := by simp; omega

/-- enough checks at the first epoch -/
theorem check_start (ns : List Nat) (D : List Wu) (hD : ∀ c ∈ D, c.act = false) (sk : Bool) (k : Nat) (hk : ns.length ≤ k) :
    check^[k] ⟨D ++ start ns, sk⟩ = ⟨D ++ canon ns 0, if ns ≠ [] ∧ ns.sum = 0 then false else sk⟩ := by
  induction ns generalizing D sk k with
  | nil =>
    rw [show start [] = canon [] 0 from rfl, check_canon D hD]
    simp
  | cons n ns ih =>
    by_cases hn : 0 < n
    · rw [show start (n :: ns) = canon (n :: ns) 0 by rw [start_succ, canon, if_pos hn], check_canon D hD, if_neg]
      rintro ⟨-, h⟩
      exact sum_pos_of n ns hn h
    · obtain rfl : n = 0 := by omega
      obtain ⟨k, rfl⟩ : ∃ j, k = j + 1 := ⟨k - 1, by simp only [List.length_cons] at hk; omega⟩
      simp only [List.length_cons, Nat.add_le_add_iff_right] at hk
      rw [Function.iterate_succ_apply, check_append D hD, start_succ, scan_finish _ rfl (Nat.le_refl 0),
        show ∀ a : Wu, D ++ a :: start ns = (D ++ [a]) ++ start ns by simp]
      rw [ih _ (by intro c hc; rcases List.mem_append.mp hc with h | h; exact hD c h; simp at h; rw [h]) _ _ hk]
      rw [show canon (0 :: ns) 0 = ⟨0, 0, false⟩ :: canon ns 0 by rw [canon, if_neg (by omega)]]
      have : ∀ a : Wu, (D ++ [a]) ++ canon ns 0 = D ++ a :: canon ns 0 := by simp
      rw [this]
      congr 1
      cases ns with
      | nil => simp
      | cons m ns => simp

theorem incr_idle (ns : List Nat) : (idle ns).map incr = idle ns := by
  induction ns with
  | nil => rfl
  | cons n ns ih =>
    show incr ⟨n, 0, false⟩ :: (idle ns).map incr = _
    rw [ih]
    rfl

/-- after the end of epoch `e`, enough checks give the state of epoch `e + 1` -/
theorem check_next (ns : List Nat) (D : List Wu) (hD : ∀ c ∈ D, c.act = false) (e : Nat) (sk : Bool) (k : Nat) (hk : ns.length ≤ k) :
    check^[k] ⟨D ++ (canon ns e).map incr, sk⟩ = ⟨D ++ canon ns (e + 1), if e + 1 = ns.sum then false else sk⟩ := by
  induction ns generalizing D sk k e with
  | nil =>
    rw [show (canon [] e).map incr = canon [] (e + 1) from rfl, check_canon D hD]
    simp
  | cons n ns ih =>
    have hk' : ns.length ≤ k := by simp only [List.length_cons] at hk; omega
    unfold canon
    by_cases h : e < n
    · rw [if_pos h, List.map_cons, incr_idle, show incr ⟨n, e, true⟩ = ⟨n, e + 1, true⟩ from rfl]
      by_cases h2 : e + 1 < n
      · rw [if_pos h2, show (⟨n, e + 1, true⟩ : Wu) :: idle ns = canon (n :: ns) (e + 1) by rw [canon, if_pos h2], check_canon D hD, if_neg]
        simp; omega
      · obtain rfl : n = e + 1 := by omega
        rw [if_neg h2]
        obtain ⟨k, rfl⟩ : ∃ j, k = j + 1 := ⟨k - 1, by simp only [List.length_cons] at hk; omega⟩
        simp only [List.length_cons, Nat.add_le_add_iff_right] at hk
        rw [Function.iterate_succ_apply, check_append D hD, scan_finish _ rfl (Nat.le_refl (e + 1)),
          show ∀ a : Wu, D ++ a :: start ns = (D ++ [a]) ++ start ns by simp]
        rw [check_start ns _ (by intro c hc; rcases List.mem_append.mp hc with h | h; exact hD c h; simp at h; rw [h]) _ _ hk]
        simp only [Nat.sub_self]
        have : ∀ a : Wu, (D ++ [a]) ++ canon ns 0 = D ++ a :: canon ns 0 := by simp
        rw [this]
        congr 1
        cases ns with
        | nil => simp
        | cons m ns => simp
    · rw [if_neg h, if_neg (by omega), List.map_cons, show incr ⟨n, n, false⟩ = ⟨n, n, false⟩ from rfl,
        show ∀ (a : Wu) (l : List Wu), D ++ a :: l = (D ++ [a]) ++ l by simp]
      rw [ih _ (by intro c hc; rcases List.mem_append.mp hc with h | h; exact hD c h; simp at h; rw [h]) _ _ _ hk']
      rw [show e + 1 - n = e - n + 1 by omega]
      have : ∀ (a : Wu) (l : List Wu), (D ++ [a]) ++ l = D ++ a :: l := by simp
      rw [this]
      congr 1
      have hs : (n :: ns).sum = n + ns.sum := List.sum_cons
      by_cases h3 : e - n + 1 = ns.sum
      · rw [if_pos h3, if_pos (by omega)]
      · rw [if_neg h3, if_neg (by omega)]

/-- with positive numbers of epochs, one check is enough -/
theorem check_next_pos (ns : List Nat) (hpos : ∀ n ∈ ns, 0 < n) (D : List Wu) (hD : ∀ c ∈ D, c.act = false) (e : Nat) (sk : Bool) (k : Nat) (hk : 1 ≤ k) :
    (check^[k] ⟨D ++ (canon ns e).map incr, sk⟩).ws = D ++ canon ns (e + 1) := by
  induction ns generalizing D sk k e with
  | nil =>
    rw [show (canon [] e).map incr = canon [] (e + 1) from rfl, check_canon D hD]
  | cons n ns ih =>
    unfold canon
    by_cases h : e < n
    · rw [if_pos h, List.map_cons, incr_idle, show incr ⟨n, e, true⟩ = ⟨n, e + 1, true⟩ from rfl]
      by_cases h2 : e + 1 < n
      · rw [if_pos h2, show (⟨n, e + 1, true⟩ : Wu) :: idle ns = canon (n :: ns) (e + 1) by rw [canon, if_pos h2], check_canon D hD]
      · obtain rfl : n = e + 1 := by omega
        rw [if_neg h2]
        obtain ⟨k, rfl⟩ : ∃ j, k = j + 1 := ⟨k - 1, by omega⟩
        rw [Function.iterate_succ_apply, check_append D hD, scan_finish _ rfl (Nat.le_refl (e + 1)),
          show ∀ a : Wu, D ++ a :: start ns = (D ++ [a]) ++ start ns by simp]
        rw [show start ns = canon ns 0 by
          cases ns with
          | nil => rfl
          | cons m ns => rw [start_succ, canon, if_pos (hpos m (by simp))]]
        rw [check_canon _ (by intro c hc; rcases List.mem_append.mp hc with h | h; exact hD c h; simp at h; rw [h])]
        simp
    · rw [if_neg h, if_neg (by omega), List.map_cons, show incr ⟨n, n, false⟩ = ⟨n, n, false⟩ from rfl,
        show ∀ (a : Wu) (l : List Wu), D ++ a :: l = (D ++ [a]) ++ l by simp]
      rw [ih (fun m hm => hpos m (List.mem_cons_of_mem _ hm)) _
        (by intro c hc; rcases List.mem_append.mp hc with h | h; exact hD c h; simp at h; rw [h]) _ _ _ hk]
      rw [show e + 1 - n = e - n + 1 by omega]
      simp

/-- who is active -/
theorem canon_act (ns : List Nat) (e i : Nat) (hi : i < ns.length) :
    ((canon ns e)[i]?).map (·.act) = some (decide ((ns.take i).sum ≤ e ∧ e < (ns.take (i + 1)).sum)) := by
  induction ns generalizing e i with
  | nil => simp at hi
  | cons n ns ih =>
    unfold canon
    by_cases h : e < n
    · rw [if_pos h]
      cases i with
      | zero => simp [h]
      | succ i =>
        simp only [List.length_cons, Nat.add_lt_add_iff_right] at hi
        simp only [idle, List.getElem?_cons_succ, List.getElem?_map, List.getElem?_eq_getElem hi, Option.map_some]
        congr 1
        symm
        rw [decide_eq_false_iff_not]
        simp only [List.take_succ_cons, List.sum_cons]
        omega
    · rw [if_neg h]
      cases i with
      | zero => simp; omega
      | succ i =>
        simp only [List.length_cons, Nat.add_lt_add_iff_right] at hi
        simp only [List.getElem?_cons_succ]
        rw [ih _ _ hi]
        congr 1
        rw [decide_eq_decide]
        simp only [List.take_succ_cons, List.sum_cons]
        omega

/-- nobody is active exactly when all epochs of warm-up are over -/
theorem canon_all (ns : List Nat) (e : Nat) : ((canon ns e).all fun c => !c.act) = decide (ns.sum ≤ e) := by
  induction ns generalizing e with
  | nil => simp [canon]
  | cons n ns ih =>
    unfold canon
    by_cases h : e < n
    · rw [if_pos h]
      symm
      simp only [List.all_cons, Bool.not_true, Bool.false_and]
      rw [decide_eq_false_iff_not]
      simp only [List.sum_cons]
      omega
    · rw [if_neg h, List.all_cons, ih]
      simp only [Bool.not_false, Bool.true_and]
      rw [decide_eq_decide]
      simp only [List.sum_cons]
      omega

theorem incr_act (l : List Wu) : ((l.map incr).all fun c => !c.act) = l.all fun c => !c.act := by
  induction l with
  | nil => rfl
  | cons c l ih =>
    rw [List.map_cons, List.all_cons, List.all_cons, ih]
    congr 2
    unfold incr
    split
    · rfl
    · rfl

/- Effect of the whole list of callbacks. -/

theorem trainBegin_state (cs : List Cb) (s : St) : (trainBegin cs s).2 = (idx cs).foldl (fun s i => reset i s) s := by
  induction cs generalizing s with
  | nil => rfl
  | cons c cs ih => cases c <;> simp only [trainBegin, idx, List.foldl_cons, ih]

theorem epochBegin_state (cs : List Cb) (s : St) : (epochBegin cs s).2 = check^[(idx cs).length] s := by
  induction cs generalizing s with
  | nil => rfl
  | cons c cs ih => cases c <;> simp only [epochBegin, idx, List.length_cons, Function.iterate_succ_apply, ih]

theorem epochEnd_state (cs : List Cb) (s : St) : epochEnd cs s = (idx cs).foldl (fun s i => epochEnd1 i s) s := by
  induction cs generalizing s with
  | nil => rfl
  | cons c cs ih => cases c <;> simp only [epochEnd, idx, List.foldl_cons, ih]

theorem idx_trainBegin (cs : List Cb) (s : St) : idx (trainBegin cs s).1 = idx cs := by
  induction cs generalizing s with
  | nil => rfl
  | cons c cs ih => cases c <;> simp only [trainBegin, idx, ih]

theorem idx_epochBegin (cs : List Cb) (s : St) : idx (epochBegin cs s).1 = idx cs := by
  induction cs generalizing s with
  | nil => rfl
  | cons c cs ih => cases c <;> simp only [epochBegin, idx, ih]

theorem ends (k : Nat) (s : St) (hk : k ≤ s.ws.length) (i : Nat) :
    ((List.range k).foldl (fun s i => epochEnd1 i s) s).skip = s.skip ∧
    ((List.range k).foldl (fun s i => epochEnd1 i s) s).ws[i]? = if i < k then s.ws[i]?.map incr else s.ws[i]? := by
  induction k generalizing i with
  | zero => simp
  | succ k ih =>
    have ih := ih (by omega)
    rw [List.range_succ, List.foldl_append, List.foldl_cons, List.foldl_nil]
    have h0 := (ih 0).1
    have hi := (ih i).2
    generalize (List.range k).foldl (fun s i => epochEnd1 i s) s = r at h0 hi
    refine ⟨h0, ?_⟩
    rw [epochEnd1, List.getElem?_modify, hi]
    by_cases h : k = i
    · subst h
      rw [if_neg (by omega), if_pos (by omega)]
      simp only [if_true]
      rfl
    · simp only [if_neg h]
      by_cases h2 : i < k
      · rw [if_pos h2, if_pos (by omega)]; simp
      · rw [if_neg h2, if_neg (by omega)]; simp

theorem ends_all (s : St) : (List.range s.ws.length).foldl (fun s i => epochEnd1 i s) s = ⟨s.ws.map incr, s.skip⟩ := by
  have h := ends s.ws.length s (Nat.le_refl _)
  have h1 := (h 0).1
  have h2 : ((List.range s.ws.length).foldl (fun s i => epochEnd1 i s) s).ws = s.ws.map incr := by
    apply List.ext_getElem?
    intro i
    rw [(h i).2, List.getElem?_map]
    by_cases hi : i < s.ws.length
    · rw [if_pos hi]
    · rw [if_neg hi]; simp at hi; simp [hi]
  rw [← h1, ← h2]

theorem resets (k : Nat) (s : St) (hk : k ≤ s.ws.length) (hk0 : 0 < k) (i : Nat) :
    ((List.range k).foldl (fun s i => reset i s) s).skip = true ∧
    ((List.range k).foldl (fun s i => reset i s) s).ws[i]? = if i < k then s.ws[i]?.map (fun c => ⟨c.n, 0, decide (i = 0)⟩) else s.ws[i]? := by
  induction k generalizing i with
  | zero => omega
  | succ k ih =>
    rw [List.range_succ, List.foldl_append, List.foldl_cons, List.foldl_nil]
    refine ⟨rfl, ?_⟩
    rcases Nat.eq_zero_or_pos k with rfl | hk1
    · simp only [List.range_zero, List.foldl_nil, reset, List.getElem?_modify]
      by_cases h : i = 0
      · subst h
        cases s.ws[0]? <;> simp
      · have h' : ¬ 0 = i := fun h2 => h h2.symm
        simp only [if_neg h']
        rw [if_neg (by omega)]
        simp
    · have hi := (ih (by omega) hk1 i).2
      generalize (List.range k).foldl (fun s i => reset i s) s = r at hi
      simp only [reset, List.getElem?_modify]
      rw [hi]
      by_cases h : i = 0
      · subst h
        have h' : ¬ k = 0 := by omega
        simp only [if_neg h', if_pos hk1]
        cases s.ws[0]? <;> simp
      · have h' : ¬ 0 = i := fun h2 => h h2.symm
        simp only [if_neg h']
        by_cases h2 : k = i
        · subst h2
          rw [if_neg (by omega), if_pos (by omega)]
          cases s.ws[k]? <;> simp [h]
        · simp only [if_neg h2]
          by_cases h3 : i < k
          · rw [if_pos h3, if_pos (by omega)]; simp
          · rw [if_neg h3, if_neg (by omega)]; simp

theorem resets_all (ws : List Wu) (sk : Bool) (h0 : ws ≠ []) :
    (List.range ws.length).foldl (fun s i => reset i s) ⟨ws, sk⟩ = ⟨start (ws.map (·.n)), true⟩ := by
  have hpos : 0 < ws.length := List.length_pos_iff.mpr h0
  have h := resets ws.length ⟨ws, sk⟩ (Nat.le_refl _) hpos
  have h1 := (h 0).1
  have h2 : ((List.range ws.length).foldl (fun s i => reset i s) (⟨ws, sk⟩ : St)).ws = start (ws.map (·.n)) := by
    apply List.ext_getElem?
    intro i
    rw [(h i).2]
    cases ws with
    | nil => exact absurd rfl h0
    | cons c ws =>
      show _ = ((⟨c.n, 0, true⟩ : Wu) :: idle (ws.map (·.n)))[i]?
      cases i with
      | zero => simp
      | succ i =>
        simp only [List.length_cons, List.getElem?_cons_succ, idle, List.map_map, List.getElem?_map]
        by_cases hi : i < ws.length
        · rw [if_pos (by omega)]
          cases ws[i]? <;> simp
        · rw [if_neg (by omega)]
          simp at hi; simp [hi]
  generalize (List.range ws.length).foldl (fun s i => reset i s) (⟨ws, sk⟩ : St) = r at h1 h2
  cases r
  simp only at h1 h2
  rw [h1, h2]

theorem canon_length (ns : List Nat) (e : Nat) : (canon ns e).length = ns.length := by
  induction ns generalizing e with
  | nil => rfl
  | cons n ns ih =>
    unfold canon
    split <;> simp [idle, ih]

/-- the warm-ups among the callbacks are exactly those in the list `warmup_cbs`, in order (volume_wrapper.py 350) -/
def Listed (cs : List Cb) (ws : List Wu) : Prop := idx cs = List.range ws.length

theorem idx_before (cs : List Cb) (ws : List Wu) (e : Nat) : idx (before cs ws e).1 = idx cs := by
  induction e with
  | zero => exact idx_trainBegin _ _
  | succ e ih => simp only [before, idx_epochBegin, ih]

theorem before_zero (cs : List Cb) (ws : List Wu) (hl : Listed cs ws) : (before cs ws 0).2 = ⟨start (ws.map (·.n)), !ws.isEmpty⟩ := by
  simp only [before, begin_, trainBegin_state]
  rw [hl]
  cases ws with
  | nil => rfl
  | cons c ws => exact resets_all _ _ (by simp)

theorem during_state (cs : List Cb) (ws : List Wu) (hl : Listed cs ws) (e : Nat) :
    (during cs ws e).2 = ⟨canon (ws.map (·.n)) e, decide (e < (ws.map (·.n)).sum)⟩ := by
  induction e with
  | zero =>
    simp only [during, epochBegin_state, idx_before]
    rw [before_zero cs ws hl]
    have := check_start (ws.map (·.n)) [] (by simp) (!ws.isEmpty) (idx cs).length (by rw [hl]; simp)
    simp only [List.nil_append] at this
    rw [this]
    congr 1
    cases ws with
    | nil => simp
    | cons c ws =>
      simp only [List.map_cons, ne_eq, reduceCtorEq, not_false_eq_true, true_and, List.isEmpty_cons, Bool.not_false]
      by_cases h : (c.n :: ws.map (·.n)).sum = 0
      · rw [if_pos h, h]; rfl
      · rw [if_neg h]; symm; rw [decide_eq_true_iff]; omega
  | succ e ih =>
    have hb : (before cs ws (e + 1)).2 = ⟨(canon (ws.map (·.n)) e).map incr, decide (e < (ws.map (·.n)).sum)⟩ := by
      simp only [before]
      change epochEnd (epochBegin _ _).1 (during cs ws e).2 = _
      rw [ih, epochEnd_state, idx_epochBegin, idx_before, hl]
      have := ends_all ⟨canon (ws.map (·.n)) e, decide (e < (ws.map (·.n)).sum)⟩
      simp only [canon_length, List.length_map] at this
      exact this
    rw [during]
    simp only [epochBegin_state, idx_before]
    rw [hb]
    have := check_next (ws.map (·.n)) [] (by simp) e (decide (e < (ws.map (·.n)).sum)) (idx cs).length (by rw [hl]; simp)
    simp only [List.nil_append] at this
    rw [this]
    congr 1
    by_cases h : e + 1 = (ws.map (·.n)).sum
    · rw [if_pos h]; symm; rw [decide_eq_false_iff_not]; omega
    · rw [if_neg h, decide_eq_decide]; omega

theorem before_succ (cs : List Cb) (ws : List Wu) (hl : Listed cs ws) (e : Nat) :
    (before cs ws (e + 1)).2 = ⟨(canon (ws.map (·.n)) e).map incr, decide (e < (ws.map (·.n)).sum)⟩ := by
  simp only [before]
  change epochEnd (epochBegin _ _).1 (during cs ws e).2 = _
  rw [during_state cs ws hl, epochEnd_state, idx_epochBegin, idx_before, hl]
  have := ends_all ⟨canon (ws.map (·.n)) e, decide (e < (ws.map (·.n)).sum)⟩
  simp only [canon_length, List.length_map] at this
  exact this

/- A waiting callback. -/

theorem epochBegin_post (pre suf : List Cb) (a : Bool) (s : St) :
    (epochBegin (pre ++ .post a :: suf) s).1 = (epochBegin pre s).1 ++ .post (postCheck a (check^[(idx pre).length] s)) :: (epochBegin suf (check^[(idx pre).length] s)).1 := by
  induction pre generalizing s with
  | nil => rfl
  | cons c pre ih => cases c <;> simp only [List.cons_append, epochBegin, idx, List.length_cons, Function.iterate_succ_apply, ih]

theorem trainBegin_post (pre suf : List Cb) (a : Bool) (s : St) : ∃ pre' suf', (trainBegin (pre ++ .post a :: suf) s).1 = pre' ++ .post false :: suf' ∧
    pre'.length = pre.length ∧ idx pre' = idx pre := by
  induction pre generalizing s with
  | nil => exact ⟨[], _, rfl, rfl, rfl⟩
  | cons c pre ih =>
    cases c with
    | warm i =>
      obtain ⟨p, q, h1, h2, h3⟩ := ih (reset i s)
      exact ⟨.warm i :: p, q, by simp only [List.cons_append, trainBegin, h1], by simp [h2], by simp [idx, h3]⟩
    | post b =>
      obtain ⟨p, q, h1, h2, h3⟩ := ih s
      exact ⟨.post false :: p, q, by simp only [List.cons_append, trainBegin, h1], by simp [h2], by simp [idx, h3]⟩
    | other =>
      obtain ⟨p, q, h1, h2, h3⟩ := ih s
      exact ⟨.other :: p, q, by simp only [List.cons_append, trainBegin, h1], by simp [h2], by simp [idx, h3]⟩

theorem epochBegin_length (cs : List Cb) (s : St) : (epochBegin cs s).1.length = cs.length := by
  induction cs generalizing s with
  | nil => rfl
  | cons c cs ih => cases c <;> simp only [epochBegin, List.length_cons, ih]

/-- A waiting callback is active once nobody was active when it looked. -/
theorem post_active (pre suf : List Cb) (a : Bool) (ws : List Wu) (e : Nat) :
    ∃ pre' suf', (during (pre ++ .post a :: suf) ws e).1 =
      pre' ++ .post (decide (∃ j ≤ e, ((check^[(idx pre).length] (before (pre ++ .post a :: suf) ws j).2).ws.all fun c => !c.act) = true)) :: suf' ∧
      pre'.length = pre.length ∧ idx pre' = idx pre := by
  induction e with
  | zero =>
    obtain ⟨p, q, h1, h2, h3⟩ := trainBegin_post pre suf a ⟨ws, false⟩
    generalize hS : (before (pre ++ .post a :: suf) ws 0).2 = S
    refine ⟨(epochBegin p S).1, (epochBegin q (check^[(idx pre).length] S)).1, ?_, by rw [epochBegin_length, h2], by rw [idx_epochBegin, h3]⟩
    show (epochBegin (trainBegin (pre ++ .post a :: suf) ⟨ws, false⟩).1 (before (pre ++ .post a :: suf) ws 0).2).1 = _
    rw [h1, hS, epochBegin_post, h3]
    congr 3
    unfold postCheck
    rw [Bool.false_or, Bool.eq_iff_iff, decide_eq_true_iff]
    constructor
    · exact fun h => ⟨0, Nat.le_refl 0, by rw [hS]; exact h⟩
    · rintro ⟨j, hj, h⟩
      obtain rfl : j = 0 := by omega
      rw [hS] at h
      exact h
  | succ e ih =>
    obtain ⟨p, q, h1, h2, h3⟩ := ih
    have hb : (before (pre ++ .post a :: suf) ws (e + 1)).1 = (during (pre ++ .post a :: suf) ws e).1 := rfl
    generalize hS : (before (pre ++ .post a :: suf) ws (e + 1)).2 = S
    refine ⟨(epochBegin p S).1, (epochBegin q (check^[(idx pre).length] S)).1, ?_, by rw [epochBegin_length, h2], by rw [idx_epochBegin, h3]⟩
    show (epochBegin (before (pre ++ .post a :: suf) ws (e + 1)).1 (before (pre ++ .post a :: suf) ws (e + 1)).2).1 = _
    rw [hb, h1, hS, epochBegin_post, h3]
    congr 3
    unfold postCheck
    rw [Bool.eq_iff_iff, Bool.or_eq_true, decide_eq_true_iff]
    simp only [decide_eq_true_iff]
    constructor
    · rintro (⟨j, hj, h⟩ | h)
      · exact ⟨j, by omega, h⟩
      · exact ⟨e + 1, Nat.le_refl _, by rw [hS]; exact h⟩
    · rintro ⟨j, hj, h⟩
      rcases Nat.lt_or_ge e j with hlt | hge
      · obtain rfl : j = e + 1 := by omega
        right; rw [hS] at h; exact h
      · exact .inl ⟨j, hge, h⟩

end Warmup

end Tomopt
