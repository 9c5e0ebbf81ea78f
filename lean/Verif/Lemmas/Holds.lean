import Verif.Lemmas.Loops
import Verif.Spec.Epochs

/- Callbacks that keep something of their own, in a fit: what they hold after each epoch. -/
namespace Tomopt

noncomputable section

namespace Fit

open EpochSave

variable {W V P σ δ : Type}

/-- Callback number `k` of environment `E` holds the part `st` of the world, which nobody else changes; its interjections act on it by `act`, given what it reads from
`fit_params` and the part `obs` of the world, which it does not change. -/
structure Holds (E : Env W V P) (k : Nat) (st : W → σ) (obs : W → δ) (act : Ev → View → δ → σ → Except Err Unit × σ) : Prop where
  self : ∀ e fp w, (E.cb k e fp w).1 = (act e (viewOf fp) (obs w) (st w)).1 ∧ st (E.cb k e fp w).2.2 = (act e (viewOf fp) (obs w) (st w)).2
  keeps : ∀ e fp w, obs (E.cb k e fp w).2.2 = obs w
  other : ∀ i e fp w, i ≠ k → st (E.cb i e fp w).2.2 = st w
  prim : ∀ a fp w, st (E.prim a fp w).2 = st w
  pred : ∀ fp w, st (E.pred fp w).2 = st w
  loss : ∀ p w, st (E.loss p w).2 = st w

variable {E : Env W V P} {k : Nat} {st : W → σ} {obs : W → δ} {act : Ev → View → δ → σ → Except Err Unit × σ} {c : Conf}

theorem Holds.cb_inv (h : Holds E k st obs act) (Q : σ → Prop) (md : Mode) (i : Nat) (e : Ev) (hq : ∀ v d x, v.mode = md → Q x → Q (act e v d x).2) :
    Inv (fun s : S W V P => Q (st s.w) ∧ s.fp.mode = md) (callCb E i e) := by
  refine inv_seq (fun _ h => h) ?_
  rintro s ⟨h1, h2⟩
  refine ⟨?_, h2⟩
  by_cases hi : i = k
  · subst hi
    have := (h.self e s.fp s.w).2
    exact this ▸ hq _ _ _ h2 h1
  · exact (h.other i e _ _ hi).symm ▸ h1

theorem Holds.kept (h : Holds E k st obs act) (Q : σ → Prop) (md : Mode) (hq : ∀ e, InScan e → ∀ v d x, v.mode = md → Q x → Q (act e v d x).2) :
    Kept E (fun s : S W V P => Q (st s.w) ∧ s.fp.mode = md) where
  set g hg := by
    rintro s ⟨h1, h2⟩
    exact ⟨h1, (hg _).1.trans h2⟩
  cb i e he := h.cb_inv Q md i e (hq e he)
  call a := inv_seq (fun _ h => h) fun s hs => ⟨(h.prim a s.fp s.w).symm ▸ hs.1, hs.2⟩
  pred := by
    refine inv_seq (fun _ h => h) ?_
    rintro s ⟨h1, h2⟩
    have a := h.pred s.fp s.w
    dsimp only
    rcases hp : E.pred s.fp s.w with ⟨r, w⟩
    rw [hp] at a
    cases r <;> exact ⟨a.symm ▸ h1, h2⟩
  loss := by
    unfold addLoss
    refine inv_dep (m := fun s => _) fun s0 hs0 => ?_
    refine inv_seq (fun _ h => h) ?_
    split
    · cases s0.fp.pred with
      | none => exact inv_nop
      | some p =>
        rintro s ⟨h1, h2⟩
        have a := h.loss p s.w
        dsimp only
        rcases hp : E.loss p s.w with ⟨r, w⟩
        rw [hp] at a
        cases r <;> exact ⟨a.symm ▸ h1, h2⟩
    · exact inv_nop

/-- All callbacks are told: the holder acts on what it held, given what it observes; if those after it do not change that, it is what can be observed afterwards. -/
theorem Holds.told (h : Holds E k st obs act) (e : Ev) (l : List Nat) (hl : l.Pairwise (· < ·)) (s s' : S W V P)
    (hobs : ∀ i fp w, k < i → fp.mode = s.fp.mode → obs (E.cb i e fp w).2.2 = obs w) (hr : each l (fun i => callCb E i e) s = (.ok (), s')) :
    viewOf s'.fp = viewOf s.fp ∧ ((∀ i ∈ l, k < i) → obs s'.w = obs s.w) ∧
      (if k ∈ l then act e (viewOf s.fp) (obs s'.w) (st s.w) = (.ok (), st s'.w) else st s'.w = st s.w) := by
  induction l generalizing s with
  | nil =>
    cases hr
    exact ⟨rfl, fun _ => rfl, by simp⟩
  | cons i l ih =>
    rw [List.pairwise_cons] at hl
    rw [each] at hr
    obtain ⟨s1, h1, h2⟩ := seq_ok hr
    unfold callCb seq note at h1
    simp only [Prod.mk.injEq] at h1
    obtain ⟨hr, hs1⟩ := h1
    have w1 : s1.w = (E.cb i e s.fp s.w).2.2 := by rw [← hs1]
    have v1 : viewOf s1.fp = viewOf s.fp := by rw [← hs1]; rfl
    have m1 : s1.fp.mode = s.fp.mode := congrArg View.mode v1
    obtain ⟨a1, a2, a3⟩ := ih hl.2 s1 (by rw [m1]; exact hobs) h2
    refine ⟨a1.trans v1, fun hk => ?_, ?_⟩
    · rw [a2 fun j hj => hk j (by simp [hj]), w1]
      exact hobs i _ _ (hk i (by simp)) rfl
    · by_cases hi : i = k
      · subst hi
        have hnot : i ∉ l := fun hm => by have := hl.1 i hm; omega
        rw [if_pos (by simp)]
        rw [if_neg hnot] at a3
        obtain ⟨b1, b2⟩ := h.self e s.fp s.w
        rw [a2 hl.1, a3, w1, h.keeps, b2, ← hr, b1]
      · have hs : st s1.w = st s.w := by rw [w1]; exact h.other i e _ _ hi
        rw [v1, hs] at a3
        by_cases hk : k ∈ l
        · rw [if_pos hk] at a3
          rw [if_pos (by simp [hk])]
          exact a3
        · rw [if_neg hk] at a3
          rw [if_neg (by simp only [List.mem_cons, not_or]; exact ⟨fun h => hi h.symm, hk⟩)]
          exact a3

/-- All callbacks are told: the holder acts on what it held. -/
theorem Holds.told_any (h : Holds E k st obs act) (e : Ev) (l : List Nat) (hk : k ∈ l) (hl : l.Nodup) (s s' : S W V P)
    (hr : each l (fun i => callCb E i e) s = (.ok (), s')) : ∃ d, act e (viewOf s.fp) d (st s.w) = (.ok (), st s'.w) := by
  have keep : ∀ (l : List Nat) (s s' : S W V P), k ∉ l → each l (fun i => callCb E i e) s = (.ok (), s') → st s'.w = st s.w := by
    intro l
    induction l with
    | nil =>
      intro s s' _ hr
      cases hr
      rfl
    | cons i l ih =>
      intro s s' hnot hr
      rw [each] at hr
      obtain ⟨s1, h1, h2⟩ := seq_ok hr
      simp only [List.mem_cons, not_or] at hnot
      rw [ih s1 s' hnot.2 h2]
      unfold callCb seq note at h1
      simp only [Prod.mk.injEq] at h1
      rw [← h1.2]
      exact h.other i e _ _ fun h => hnot.1 h.symm
  induction l generalizing s with
  | nil => simp at hk
  | cons i l ih =>
    rw [List.nodup_cons] at hl
    rw [each] at hr
    obtain ⟨s1, h1, h2⟩ := seq_ok hr
    unfold callCb seq note at h1
    simp only [Prod.mk.injEq] at h1
    obtain ⟨hr, hs1⟩ := h1
    have w1 : s1.w = (E.cb i e s.fp s.w).2.2 := by rw [← hs1]
    have v1 : viewOf s1.fp = viewOf s.fp := by rw [← hs1]; rfl
    by_cases hi : i = k
    · subst hi
      obtain ⟨b1, b2⟩ := h.self e s.fp s.w
      refine ⟨obs s.w, ?_⟩
      rw [keep l s1 s' hl.1 h2, w1, b2, ← hr, b1]
    · have hs : st s1.w = st s.w := by rw [w1]; exact h.other i e _ _ hi
      rw [← v1, ← hs]
      exact ih ((List.mem_cons.mp hk).resolve_left fun h => hi h.symm) hl.2 s1 h2

/-- The state after a number of epochs when all epochs have been fitted. -/
theorem reached_of_epochs {trn : Passives V} {val : Option (Passives V)} {w : W} {log : List (Act V)} (n e : Nat) (s s' : S W V P)
    (hR : Reached E c trn val w log e s) (hst : e = 0 ∨ s.fp.stop = false) (h : epochs E c trn val n s = (.ok (), s')) :
    ∃ m, e ≤ m ∧ m ≤ e + n ∧ (n ≠ 0 → e < m) ∧ Reached E c trn val w log m s' ∧ (m = e + n ∨ s'.fp.stop = true) := by
  induction n generalizing e s with
  | zero =>
    cases h
    exact ⟨e, le_refl _, le_refl _, fun h => absurd rfl h, hR, .inl rfl⟩
  | succ n ih =>
    rw [epochs] at h
    obtain ⟨s1, h1, h⟩ := seq_ok h
    have hR1 : Reached E c trn val w log (e + 1) s1 := .next hR hst h1
    cases hstop : s1.fp.stop with
    | true =>
      simp only [hstop, if_true] at h
      cases h
      exact ⟨e + 1, by omega, by omega, fun _ => by omega, hR1, .inr hstop⟩
    | false =>
      simp only [hstop, Bool.false_eq_true, if_false] at h
      obtain ⟨m, d1, d2, -, d4, d5⟩ := ih (e + 1) s1 hR1 (.inr hstop) h
      refine ⟨m, by omega, by omega, fun _ => by omega, d4, ?_⟩
      rcases d5 with d5 | d5
      · exact .inl (by omega)
      · exact .inr d5

end Fit

end

end Tomopt
