import Verif.Props.C59
import Verif.Props.C34_36
import Mathlib.Data.List.Count

/- Which of the draws of a generator a resampled muon is. -/
namespace Tomopt

noncomputable section

namespace C134

open Gen C59

/-- the draw of round `s` given to slot `j`, if slot `j` is finished in round `t j`: those before it that still need one come first -/
def rank (t : Nat → Nat) (s j : Nat) : Nat := (List.range j).countP fun i => decide (s ≤ t i)

theorem rank_congr {t t' : Nat → Nat} {s j : Nat} (h : ∀ i < j, s ≤ t i ↔ s ≤ t' i) : rank t s j = rank t' s j := by
  unfold rank
  refine List.countP_congr fun i hi => ?_
  simpa using h i (List.mem_range.mp hi)

/-- whoever still needs a draw gets another one -/
theorem rank_lt {t : Nat → Nat} {s j j' : Nat} (h : s ≤ t j) (hj : j < j') : rank t s j < rank t s j' := by
  have one : rank t s (j + 1) = rank t s j + 1 := by simp [rank, List.range_succ, h]
  have mono : ∀ k, rank t s (j + 1) ≤ rank t s (j + 1 + k) := by
    intro k
    induction k with
    | zero => exact le_rfl
    | succ k ih =>
      refine ih.trans ?_
      rw [show j + 1 + (k + 1) = (j + 1 + k) + 1 by omega]
      simp only [rank, List.range_succ, List.countP_append]
      omega
  have := mono (j' - (j + 1))
  rw [show j + 1 + (j' - (j + 1)) = j' by omega] at this
  omega

theorem ranks (q : Nat → Bool) (n : Nat) : ((List.range n).filter q).map (fun j => (List.range j).countP q) = List.range ((List.range n).countP q) := by
  induction n with
  | zero => rfl
  | succ n ih =>
    rw [List.range_succ, List.filter_append, List.map_append, ih, List.countP_append]
    cases h : q n <;> simp [h, List.range_succ]

theorem put_filter {β γ : Type} (p : β → Bool) (f f' : β → γ) : ∀ l : List β, put (l.map p) (l.map f) ((l.filter p).map f') = l.map fun j => if p j then f' j else f j
  | [] => rfl
  | a :: l => by
    have := put_filter p f f' l
    cases h : p a <;> simp [h, put, this]

theorem inv_map {β : Type} (p : β → Bool) (l : List β) : inv (l.map p) = l.map fun j => !p j := by simp [inv]

theorem count_map {β : Type} (p : β → Bool) (l : List β) : countTrue (l.map p) = l.countP p := by
  simp [countTrue, List.countP_eq_length_filter, List.filter_map]

/-- what slot `j` holds before round `i` is checked -/
def held (d : Nat → Nat → Gen.Row) (t : Nat → Nat) (i j : Nat) : Gen.Row := d (min i (t j)) (rank t (min i (t j)) j)

def musAt (d : Nat → Nat → Gen.Row) (t : Nat → Nat) (n i : Nat) : List Gen.Row := (List.range n).map (held d t i)

def okAt (t : Nat → Nat) (n i : Nat) : List Bool := (List.range n).map fun j => decide (t j < i)

/-- One round: those which hit the volume are finished, the others get the next draws. -/
theorem round (P : Gen.Row → Bool) (d : Nat → Nat → Gen.Row) (t : Nat → Nat) (n i : Nat) (h : ∀ j < n, i ≤ t j → (P (d i (rank t i j)) = true ↔ t j = i)) :
    let ok := okAt t n i
    let mus := musAt d t n i
    let sel := pick (inv ok) mus
    let tmp := sel.map P
    put (inv ok) mus (put (inv tmp) sel ((List.range (countTrue (inv tmp))).map (d (i + 1)))) = musAt d t n (i + 1) ∧
    put (inv ok) ok (List.zipWith (· || ·) (pick (inv ok) ok) tmp) = okAt t n (i + 1) := by
  intro ok mus sel tmp
  have e1 : inv ok = (List.range n).map fun j => decide (i ≤ t j) := by
    simp only [ok, okAt, inv_map]
    refine List.map_congr_left fun j _ => ?_
    by_cases hj : t j < i
    · simp [hj, not_le.mpr hj]
    · simp [hj, not_lt.mp hj]
  obtain ⟨l, hl⟩ : ∃ l, l = (List.range n).filter fun j => decide (i ≤ t j) := ⟨_, rfl⟩
  have e2 : sel = l.map (held d t i) := by
    simp only [sel, mus, musAt]; rw [e1, C36.pick_filter, hl]
  have hmem : ∀ j ∈ l, j < n ∧ i ≤ t j := fun j hj => by
    rw [hl, List.mem_filter] at hj
    exact ⟨List.mem_range.mp hj.1, by simpa using hj.2⟩
  have e3 : tmp = l.map fun j => decide (t j = i) := by
    simp only [tmp]; rw [e2, List.map_map]
    refine List.map_congr_left fun j hj => ?_
    obtain ⟨h1, h2⟩ := hmem j hj
    have := h j h1 h2
    simp only [Function.comp, held, min_eq_left h2]
    by_cases ht : t j = i
    · simp [ht, this.mpr ht]
    · have : P (d i (rank t i j)) = false := by
        rw [Bool.eq_false_iff]; exact fun hp => ht (this.mp hp)
      simp [ht, this]
  have e4 : inv tmp = l.map fun j => decide (i + 1 ≤ t j) := by
    rw [e3, inv_map]
    refine List.map_congr_left fun j hj => ?_
    obtain ⟨h1, h2⟩ := hmem j hj
    by_cases ht : t j = i
    · simp [ht]
    · have : i + 1 ≤ t j := by omega
      simp [ht, this]
  have e5 : l.filter (fun j => decide (i + 1 ≤ t j)) = (List.range n).filter fun j => decide (i + 1 ≤ t j) := by
    rw [hl, List.filter_filter]
    refine List.filter_congr fun j _ => ?_
    by_cases ht : i + 1 ≤ t j
    · simp [ht, show i ≤ t j by omega]
    · simp [ht]
  have e6 : (List.range (countTrue (inv tmp))).map (d (i + 1)) = (l.filter fun j => decide (i + 1 ≤ t j)).map fun j => d (i + 1) (rank t (i + 1) j) := by
    have hc : countTrue (inv tmp) = (List.range n).countP fun j => decide (i + 1 ≤ t j) := by
      rw [e4, count_map, List.countP_eq_length_filter, e5, ← List.countP_eq_length_filter]
    rw [hc, e5, ← ranks, List.map_map]
    rfl
  constructor
  · rw [e6, e4, e2, put_filter, e1]
    simp only [mus, musAt]
    rw [hl, put_filter]
    refine List.map_congr_left fun j _ => ?_
    simp only [held]
    by_cases h1 : i + 1 ≤ t j
    · simp [h1, show i ≤ t j by omega]
    · by_cases h2 : i ≤ t j
      · have : t j = i := by omega
        simp [this]
      · have m1 : min i (t j) = t j := by omega
        have m2 : min (i + 1) (t j) = t j := by omega
        simp [h1, h2, m1, m2]
  · have e7 : List.zipWith (· || ·) (pick (inv ok) ok) tmp = l.map fun j => decide (t j < i + 1) := by
      rw [e3]
      have : pick (inv ok) ok = l.map fun j => decide (t j < i) := by
        rw [e1, show ok = (List.range n).map fun j => decide (t j < i) from rfl, C36.pick_filter, hl]
      rw [this, C36.zip_idx]
      refine List.map_congr_left fun j hj => ?_
      obtain ⟨h1, h2⟩ := hmem j hj
      by_cases ht : t j = i
      · simp [ht]
      · simp [ht, show ¬ t j < i by omega, show ¬ t j < i + 1 by omega]
    rw [e7, e1, show ok = (List.range n).map fun j => decide (t j < i) from rfl, hl, put_filter]
    refine List.map_congr_left fun j _ => ?_
    by_cases h2 : i ≤ t j
    · simp [h2]
    · simp [h2, show t j < i by omega, show t j < i + 1 by omega]

/-- slot `j` is finished in round `t j` -/
def Finished (P : Gen.Row → Bool) (d : Nat → Nat → Gen.Row) (n : Nat) (t : Nat → Nat) : Prop :=
  ∀ j < n, (∀ s < t j, P (d s (rank t s j)) = false) ∧ P (d (t j) (rank t (t j) j)) = true

/-- the muons that come out -/
def outOf (d : Nat → Nat → Gen.Row) (n : Nat) (t : Nat → Nat) : List Gen.Row := (List.range n).map fun j => d (t j) (rank t (t j) j)

theorem finished_unique {P d n t t'} (h : Finished P d n t) (h' : Finished P d n t') : ∀ j < n, t j = t' j := by
  have key : ∀ s, ∀ j < n, (s ≤ t j ↔ s ≤ t' j) := by
    intro s
    induction s using Nat.strong_induction_on with
    | _ s ih =>
      intro j hj
      cases s with
      | zero => simp
      | succ s =>
        have h1 := ih s (by omega) j hj
        have hr : rank t s j = rank t' s j := rank_congr fun i hi => ih s (by omega) i (by omega)
        constructor
        · intro hs
          have h2 := (h j hj).1 s (by omega)
          by_contra hn
          have h3 : t' j = s := by have := h1.mp (by omega); omega
          have := (h' j hj).2
          rw [h3, ← hr, h2] at this
          simp at this
        · intro hs
          have h2 := (h' j hj).1 s (by omega)
          by_contra hn
          have h3 : t j = s := by have := h1.mpr (by omega); omega
          have := (h j hj).2
          rw [h3, hr, h2] at this
          simp at this
  intro j hj
  have h1 := (key (t j) j hj).mp le_rfl
  have h2 := (key (t' j) j hj).mpr le_rfl
  omega

theorem count_ok (t : Nat → Nat) (n i : Nat) : countTrue (okAt t n i) < n ↔ ∃ j < n, i ≤ t j := by
  rw [okAt, count_map]
  constructor
  · intro h
    by_contra hn
    push Not at hn
    have : (List.range n).countP (fun j => decide (t j < i)) = (List.range n).length := List.countP_eq_length.mpr fun j hj => by simpa using hn j (List.mem_range.mp hj)
    rw [this, List.length_range] at h
    omega
  · rintro ⟨j, hj, h⟩
    have : (List.range n).countP (fun j => decide (t j < i)) ≠ (List.range n).length := fun e => by
      have := List.countP_eq_length.mp e j (List.mem_range.mpr hj)
      simp at this; omega
    have le : (List.range n).countP (fun j => decide (t j < i)) ≤ (List.range n).length := List.countP_le_length
    rw [List.length_range] at this le
    omega

theorem len_mus (d t n i) : (musAt d t n i).length = n := by simp [musAt]

theorem all_done {d t n i} (h : ∀ j < n, t j < i) : musAt d t n i = outOf d n t := by
  refine List.map_congr_left fun j hj => ?_
  have := h j (List.mem_range.mp hj)
  rw [held, min_eq_right (by omega)]

/-- generator that hands out the draws of the next round -/
def genOf (d : Nat → Nat → Gen.Row) (i k : Nat) : List Gen.Row := (List.range k).map (d (i + 1))

theorem loop_finds (h : ℝ) (lw : ℝ × ℝ) (Ls : List PassiveLayer) (d : Nat → Nat → Gen.Row) (n : Nat) (t : Nat → Nat) (hf : Finished (hitsB h lw Ls) d n t) (fuel i : Nat)
    (hb : ∀ j < n, t j < i + fuel) : resampleLoop h lw Ls (genOf d) fuel i (musAt d t n i) (okAt t n i) = .ok (some (outOf d n t)) := by
  induction fuel generalizing i with
  | zero =>
    rw [resampleLoop, len_mus, if_neg ((count_ok t n i).not.mpr (by push Not; simpa using hb)), all_done (by simpa using hb)]
  | succ fuel ih =>
    rw [resampleLoop, len_mus]
    by_cases hc : countTrue (okAt t n i) < n
    · rw [if_pos hc]
      simp only [check_spec]
      obtain ⟨r1, r2⟩ := round (hitsB h lw Ls) d t n i fun j hj hi => by
        constructor
        · intro hp
          by_contra hn
          have := (hf j hj).1 i (by omega)
          rw [hp] at this; simp at this
        · intro e; have := (hf j hj).2; rw [e] at this; exact this
      simp only [genOf]
      rw [r1, r2]
      exact ih (i + 1) fun j hj => by have := hb j hj; omega
    · rw [if_neg hc, all_done]
      intro j hj
      by_contra hn
      exact hc ((count_ok t n i).mpr ⟨j, hj, by omega⟩)

theorem loop_ended (h : ℝ) (lw : ℝ × ℝ) (Ls : List PassiveLayer) (d : Nat → Nat → Gen.Row) (n : Nat) (fuel i : Nat) (t : Nat → Nat) (out : List Gen.Row)
    (ht : ∀ j < n, t j ≤ i ∧ (∀ s < t j, hitsB h lw Ls (d s (rank t s j)) = false) ∧ (t j < i → hitsB h lw Ls (d (t j) (rank t (t j) j)) = true))
    (hr : resampleLoop h lw Ls (genOf d) fuel i (musAt d t n i) (okAt t n i) = .ok (some out)) :
    ∃ t', Finished (hitsB h lw Ls) d n t' ∧ (∀ j < n, t' j < i + fuel) ∧ out = outOf d n t' := by
  induction fuel generalizing i t with
  | zero =>
    rw [resampleLoop, len_mus] at hr
    split at hr
    · simp at hr
    · rename_i hc
      have hd : ∀ j < n, t j < i := fun j hj => by by_contra hn; exact hc ((count_ok t n i).mpr ⟨j, hj, by omega⟩)
      simp only [Except.ok.injEq, Option.some.injEq] at hr
      exact ⟨t, fun j hj => ⟨(ht j hj).2.1, (ht j hj).2.2 (hd j hj)⟩, by simpa using hd, by rw [← hr, all_done hd]⟩
  | succ fuel ih =>
    rw [resampleLoop, len_mus] at hr
    by_cases hc : countTrue (okAt t n i) < n
    · rw [if_pos hc] at hr
      simp only [check_spec] at hr
      obtain ⟨t', ht'⟩ : ∃ t' : Nat → Nat, t' = fun j => if t j = i ∧ hitsB h lw Ls (d i (rank t i j)) = false then i + 1 else t j := ⟨_, rfl⟩
      have same : ∀ j < n, ∀ s ≤ i, (s ≤ t' j ↔ s ≤ t j) := fun j hj s hs => by
        rw [ht']; simp only; split <;> omega
      have rk : ∀ s ≤ i, ∀ j ≤ n, rank t' s j = rank t s j := fun s hs j hj => rank_congr fun k hk => same k (by omega) s hs
      have mn : ∀ j < n, min i (t' j) = min i (t j) := fun j hj => by
        rw [ht']; simp only; split <;> omega
      have em : musAt d t n i = musAt d t' n i := List.map_congr_left fun j hj => by
        have hj := List.mem_range.mp hj
        rw [held, held, mn j hj, rk _ (min_le_left _ _) j hj.le]
      have eo : okAt t n i = okAt t' n i := List.map_congr_left fun j hj => by
        rw [ht']; simp only
        split
        · rename_i hq; simp [hq.1]
        · rfl
      rw [em, eo] at hr
      obtain ⟨r1, r2⟩ := round (hitsB h lw Ls) d t' n i fun j hj hi => by
        have hti : t j = i := by have h1 := (ht j hj).1; have := (same j hj i le_rfl).mp hi; omega
        rw [rk i le_rfl j hj.le, ht']
        simp only [hti, true_and]
        cases hq : hitsB h lw Ls (d i (rank t i j)) <;> simp
      simp only [genOf] at hr
      rw [r1, r2] at hr
      have nx : ∀ j < n, t' j ≤ i + 1 ∧ (∀ s < t' j, hitsB h lw Ls (d s (rank t' s j)) = false) ∧ (t' j < i + 1 → hitsB h lw Ls (d (t' j) (rank t' (t' j) j)) = true) := by
        intro j hj
        obtain ⟨a1, a2, a3⟩ := ht j hj
        by_cases hq : t j = i ∧ hitsB h lw Ls (d i (rank t i j)) = false
        · have e : t' j = i + 1 := by rw [ht']; simp [hq]
          refine ⟨by omega, fun s hs => ?_, by omega⟩
          rw [rk s (by omega) j hj.le]
          by_cases hsi : s = i
          · rw [hsi]; exact hq.2
          · exact a2 s (by omega)
        · have e : t' j = t j := by rw [ht']; simp only; rw [if_neg hq]
          refine ⟨by omega, fun s hs => ?_, fun _ => ?_⟩
          · rw [rk s (by omega) j hj.le]; exact a2 s (by omega)
          · rw [e, rk _ a1 j hj.le]
            by_cases hi : t j < i
            · exact a3 hi
            · have : t j = i := by omega
              have hq' : ¬ hitsB h lw Ls (d i (rank t i j)) = false := fun hf => hq ⟨this, hf⟩
              rw [this]
              simpa using hq'
      obtain ⟨t2, h1, h2, h3⟩ := ih (i + 1) t' nx hr
      exact ⟨t2, h1, fun j hj => by have := h2 j hj; omega, h3⟩
    · rw [if_neg hc] at hr
      have hd : ∀ j < n, t j < i := fun j hj => by by_contra hn; exact hc ((count_ok t n i).mpr ⟨j, hj, by omega⟩)
      simp only [Except.ok.injEq, Option.some.injEq] at hr
      exact ⟨t, fun j hj => ⟨(ht j hj).2.1, (ht j hj).2.2 (hd j hj)⟩, fun j hj => by have := hd j hj; omega, by rw [← hr, all_done hd]⟩

/-- **Which draw a muon is.** Resampling ends within `fuel` rounds exactly if there are rounds in which the slots are finished, all before. -/
theorem ended_iff (h : ℝ) (lw : ℝ × ℝ) (Ls : List PassiveLayer) (d : Nat → Nat → Gen.Row) (n fuel : Nat) (out : List Gen.Row) :
    resample h lw Ls (genOf d) fuel ((List.range n).map (d 0)) = .ok (some out) ↔ ∃ t, Finished (hitsB h lw Ls) d n t ∧ (∀ j < n, t j < fuel) ∧ out = outOf d n t := by
  have r0 : ∀ (t : Nat → Nat) j, rank t 0 j = j := fun t j => by simp [rank]
  have m0 : ∀ t, (List.range n).map (d 0) = musAt d t n 0 := fun t => List.map_congr_left fun j _ => by simp [held, r0]
  have o0 : ∀ t, List.replicate ((List.range n).map (d 0)).length false = okAt t n 0 := fun t => by
    simp [okAt]
  constructor
  · intro hr
    rw [resample, o0 fun _ => 0, m0 fun _ => 0] at hr
    obtain ⟨t, h1, h2, h3⟩ := loop_ended h lw Ls d n fuel 0 (fun _ => 0) out (fun j _ => ⟨le_rfl, by simp, by simp⟩) hr
    exact ⟨t, h1, by simpa using h2, h3⟩
  · rintro ⟨t, h1, h2, rfl⟩
    rw [resample, o0 t, m0 t]
    exact loop_finds h lw Ls d n t h1 fuel 0 (by simpa using h2)

end C134

end

end Tomopt
