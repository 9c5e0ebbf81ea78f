import Verif.Model.OneCycle
import Mathlib.Tactic.Linarith
import Mathlib.Tactic.Ring
import Mathlib.Tactic.FieldSimp

/- C47: the one-cycle schedule. -/
namespace Tomopt

noncomputable section

open OneCycle

namespace C47

/-- A cosine ramp from `a` (at 0) to `b` (at 1). -/
def ramp (a b t : ℝ) : ℝ := b - (b - a) * (Real.cos (Real.pi * t) + 1) / 2

theorem ramp_zero (a b : ℝ) : ramp a b 0 = a := by
  simp only [ramp, mul_zero, Real.cos_zero]
  ring
theorem ramp_one (a b : ℝ) : ramp a b 1 = b := by simp [ramp]

theorem ramp_mem (a b t : ℝ) : min a b ≤ ramp a b t ∧ ramp a b t ≤ max a b := by
  unfold ramp
  have h1 := Real.cos_le_one (Real.pi * t)
  have h2 := Real.neg_one_le_cos (Real.pi * t)
  rcases le_total a b with h | h
  · rw [min_eq_left h, max_eq_right h]
    constructor <;> nlinarith
  · rw [min_eq_right h, max_eq_left h]
    constructor <;> nlinarith

/-- the ramp is increasing on [0, 1] if it goes up -/
theorem ramp_strictMono (a b s t : ℝ) (hab : a < b) (hs : 0 ≤ s) (hst : s < t) (ht : t ≤ 1) : ramp a b s < ramp a b t := by
  unfold ramp
  have : Real.cos (Real.pi * t) < Real.cos (Real.pi * s) := by
    apply Real.cos_lt_cos_of_nonneg_of_le_pi
    · exact mul_nonneg Real.pi_pos.le hs
    · calc Real.pi * t ≤ Real.pi * 1 := mul_le_mul_of_nonneg_left ht Real.pi_pos.le
        _ = Real.pi := mul_one _
    · exact mul_lt_mul_of_pos_left hst Real.pi_pos
  nlinarith

/-- lowest and highest of the given rates -/
def lowest (c : Cfg) : ℝ := min c.init (min c.mid c.final)
def highest (c : Cfg) : ℝ := max c.init (max c.mid c.final)

/-- The same from any state, such as one left by an earlier fit. -/
theorem range_from (c : Cfg) (f : Fit) (os : List Op) (s s' : St) (h0 : lowest c ≤ s.lr ∧ s.lr ≤ highest c) (h : run c f os s = .ok s') :
    lowest c ≤ s'.lr ∧ s'.lr ≤ highest c := by
  have key : ∀ os s s', lowest c ≤ s.lr ∧ s.lr ≤ highest c → run c f os s = .ok s' → lowest c ≤ s'.lr ∧ s'.lr ≤ highest c := by
    intro os
    induction os with
    | nil => intro s s' hs h; simp only [run, Except.ok.injEq] at h; rw [← h]; exact hs
    | cons o os ih =>
      intro s s' hs h
      unfold run at h
      cases ha : apply c f s o with
      | error e => rw [ha] at h; simp at h
      | ok t =>
        rw [ha] at h
        refine ih t s' ?_ h
        cases o with
        | activate e => simp only [apply, Except.ok.injEq] at ha; rw [← ha]; exact hs
        | epochEnd e =>
          simp only [apply, epochEnd] at ha
          split at ha
          · split at ha
            · simp at ha
            · simp only [Except.ok.injEq] at ha; rw [← ha]; exact hs
          · simp only [Except.ok.injEq] at ha; rw [← ha]; exact hs
        | step =>
          simp only [apply, stepEnd, schedule] at ha
          split at ha
          · split at ha
            · simp at ha
            · rename_i lr heq
              simp only [Except.ok.injEq] at ha
              rw [← ha]
              split at heq
              · simp at heq
              · split at heq
                · simp at heq
                · simp only [Except.ok.injEq] at heq
                  rename_i scale _ _
                  have h3 : lr = ramp (if s.warming then c.init else c.final) c.mid (((s.iter + 1 : ℕ) : ℝ) / scale) := by
                    rw [← heq, ramp, mul_div_assoc Real.pi]
                  show lowest c ≤ lr ∧ lr ≤ highest c
                  have h1 := ramp_mem c.init c.mid (((s.iter + 1 : ℕ) : ℝ) / scale)
                  have h2 := ramp_mem c.final c.mid (((s.iter + 1 : ℕ) : ℝ) / scale)
                  rw [h3]
                  unfold lowest highest
                  by_cases hw : s.warming = true
                  · rw [if_pos hw]
                    exact ⟨le_trans (le_min (min_le_left _ _) (le_trans (min_le_right _ _) (min_le_left _ _))) h1.1,
                      le_trans h1.2 (max_le (le_max_left _ _) (le_trans (le_max_left _ _) (le_max_right _ _)))⟩
                  · rw [if_neg hw]
                    exact ⟨le_trans (le_min (le_trans (min_le_right _ _) (min_le_right _ _)) (le_trans (min_le_right _ _) (min_le_left _ _))) h2.1,
                      le_trans h2.2 (max_le (le_trans (le_max_right _ _) (le_max_right _ _)) (le_trans (le_max_left _ _) (le_max_right _ _)))⟩
          · simp only [Except.ok.injEq] at ha; rw [← ha]; exact hs
  exact key os _ s' h0 h

/-- **C47: range.** Whatever happens to the callback, and for every length of training and warm-up, the rate in the optimiser stays between
the lowest and the highest of the three given rates. -/
theorem range (c : Cfg) (f : Fit) (os : List Op) (s : St) (h : run c f os (trainBegin c) = .ok s) : lowest c ≤ s.lr ∧ s.lr ≤ highest c :=
  range_from c f os _ s ⟨min_le_left _ _, le_max_left _ _⟩ h

/- What the rate is at every update of a fit without warm-ups. -/

theorem run_append (c : Cfg) (f : Fit) (a b : List Op) (s : St) : run c f (a ++ b) s = match run c f a s with
    | .error e => .error e
    | .ok t => run c f b t := by
  induction a generalizing s with
  | nil => rfl
  | cons o a ih =>
    rw [List.cons_append, run, run]
    cases apply c f s o with
    | error e => rfl
    | ok t => exact ih t

/-- `j` updates in a row -/
theorem run_steps (c : Cfg) (f : Fit) (s : St) (x scale : ℤ) (ha : s.active = true) (hp : s.plan = some (x, scale)) (hs : scale ≠ 0) (j : Nat) :
    run c f (List.replicate j .step) s = .ok { s with iter := s.iter + j, lr := if j = 0 then s.lr else ramp (if s.warming then c.init else c.final) c.mid (((s.iter + j : ℕ) : ℝ) / scale) } := by
  induction j generalizing s with
  | zero => simp [run]
  | succ j ih =>
    rw [List.replicate_succ, run]
    have h1 : apply c f s .step = .ok { s with iter := s.iter + 1, lr := ramp (if s.warming then c.init else c.final) c.mid (((s.iter + 1 : ℕ) : ℝ) / scale) } := by
      simp only [apply, stepEnd, ha, if_true, schedule, hp, if_neg hs]
      rw [ramp, mul_div_assoc Real.pi]
    rw [h1]
    show run c f (List.replicate j .step) { s with iter := s.iter + 1, lr := _ } = _
    rw [ih { s with iter := s.iter + 1, lr := ramp (if s.warming then c.init else c.final) c.mid (((s.iter + 1 : ℕ) : ℝ) / scale) } ha hp]
    simp only [Nat.add_assoc, Nat.add_comm 1 j]
    by_cases hj : j = 0
    · subst hj; simp
    · simp [hj]

/-- the state after `e` epochs -/
theorem after_epochs (c : Cfg) (f : Fit) (val : Bool) (hw : 0 < c.warm) (hk : 0 < f.k) (e : Nat) (he : e ≤ f.n) :
    ∃ lr, run c f (fitOps f val e) (trainBegin c) = .ok (if e ≤ c.warm
      then ⟨true, e * f.k, true, some (f.n, c.warm * f.k), lr⟩
      else ⟨true, (e - c.warm - 1) * f.k, false, some (f.n, (f.n - c.warm) * f.k), lr⟩) := by
  induction e with
  | zero =>
    refine ⟨c.init, ?_⟩
    rw [if_pos (Nat.zero_le _)]
    simp [fitOps, run, apply, activate, trainBegin]
  | succ e ih =>
    obtain ⟨lr, h⟩ := ih (by omega)
    have hops : fitOps f val (e + 1) = fitOps f val e ++ epochOps f val (e + 1) := by
      simp [fitOps, List.range_succ]
    rw [hops, run_append, h]
    simp only
    unfold epochOps
    rw [run_append]
    have hwk : ((c.warm : ℤ) * f.k) ≠ 0 := by positivity
    have hnk : e ≥ c.warm + 1 → (((f.n : ℤ) - c.warm) * f.k) ≠ 0 := by
      intro h1
      have : (0 : ℤ) < (f.n : ℤ) - c.warm := by omega
      positivity
    by_cases h1 : e ≤ c.warm
    · rw [if_pos h1, run_steps c f _ _ _ rfl rfl hwk]
      simp only
      by_cases h2 : e + 1 ≤ c.warm
      · refine ⟨if f.k = 0 then lr else ramp c.init c.mid (((e * f.k + f.k : ℕ) : ℝ) / ((c.warm : ℤ) * f.k : ℤ)), ?_⟩
        rw [if_pos h2]
        have h3 : ¬ (((e + 1 : ℕ) : ℤ) - 1 = c.warm) := by omega
        have h4 : (e + 1) * f.k = e * f.k + f.k := by ring
        cases val <;> simp only [run, apply, epochEnd, h3, h4, if_false, Bool.false_eq_true, if_true]
      · obtain rfl : e = c.warm := by omega
        refine ⟨if f.k = 0 then lr else ramp c.init c.mid (((c.warm * f.k + f.k : ℕ) : ℝ) / ((c.warm : ℤ) * f.k : ℤ)), ?_⟩
        rw [if_neg h2]
        have h3 : (((c.warm + 1 : ℕ) : ℤ) - 1 = c.warm) := by omega
        have h5 : ((f.n : ℤ) - ((c.warm + 1 : ℕ) : ℤ) + 1) = f.n - c.warm := by omega
        have h6 : (c.warm + 1 - c.warm - 1) * f.k = 0 := by
          rw [show c.warm + 1 - c.warm - 1 = 0 by omega]; ring
        cases val <;> simp only [run, apply, epochEnd, h3, h5, h6, if_true, Bool.false_eq_true, if_false]
    · rw [if_neg h1, run_steps c f _ _ _ rfl rfl (hnk (by omega))]
      simp only
      refine ⟨if f.k = 0 then lr else ramp c.final c.mid ((((e - c.warm - 1) * f.k + f.k : ℕ) : ℝ) / (((f.n : ℤ) - c.warm) * f.k : ℤ)), ?_⟩
      rw [if_neg (show ¬ e + 1 ≤ c.warm by omega)]
      have h3 : ¬ (((e + 1 : ℕ) : ℤ) - 1 = c.warm) := by omega
      have h4 : (e + 1 - c.warm - 1) * f.k = (e - c.warm - 1) * f.k + f.k := by
        rw [show e + 1 - c.warm - 1 = (e - c.warm - 1) + 1 by omega]; ring
      cases val <;> simp only [run, apply, epochEnd, h3, h4, if_false, Bool.false_eq_true, if_true]

/-- The rate after `e` complete epochs and `j` updates of the next one. -/
def rateAfter (c : Cfg) (f : Fit) (val : Bool) (e j : Nat) (r : ℝ) : Prop :=
  ∃ s, run c f (fitOps f val e ++ List.replicate j .step) (trainBegin c) = .ok s ∧ s.lr = r

/-- **The first `warmup_length + 1` epochs**: the rate follows the ramp from the initial to the mid value over `warmup_length` epochs (it reaches
the mid value exactly then) - and then a further epoch, beyond the end of the ramp. -/
theorem warm_phase (c : Cfg) (f : Fit) (val : Bool) (hw : 0 < c.warm) (e j : Nat) (he : e ≤ c.warm) (hn : e < f.n) (hj0 : 0 < j) (hj : j ≤ f.k) :
    rateAfter c f val e j (ramp c.init c.mid (((e * f.k + j : ℕ) : ℝ) / ((c.warm * f.k : ℕ) : ℝ))) := by
  have hk : 0 < f.k := by omega
  obtain ⟨lr, h⟩ := after_epochs c f val hw hk e (by omega)
  rw [if_pos he] at h
  have hwk : ((c.warm : ℤ) * f.k) ≠ 0 := by positivity
  refine ⟨⟨true, e * f.k + j, true, some (f.n, c.warm * f.k), if j = 0 then lr else ramp c.init c.mid (((e * f.k + j : ℕ) : ℝ) / ((c.warm * f.k : ℤ) : ℝ))⟩, ?_, ?_⟩
  · rw [run_append, h]
    simp only
    rw [run_steps c f _ _ _ rfl rfl hwk]
    simp only [if_true]
  · rw [if_neg (by omega)]
    push_cast
    rfl

/-- **All later epochs**: the rate follows the ramp from the *final* value to the *mid* value, over `n - warmup_length` epochs (one more than there are). -/
theorem converge_phase (c : Cfg) (f : Fit) (val : Bool) (hw : 0 < c.warm) (e j : Nat) (he : c.warm < e) (hn : e < f.n) (hj0 : 0 < j) (hj : j ≤ f.k) :
    rateAfter c f val e j (ramp c.final c.mid ((((e - c.warm - 1) * f.k + j : ℕ) : ℝ) / (((f.n - c.warm) * f.k : ℕ) : ℝ))) := by
  have hk : 0 < f.k := by omega
  obtain ⟨lr, h⟩ := after_epochs c f val hw hk e (by omega)
  rw [if_neg (by omega)] at h
  have hnk : (((f.n : ℤ) - c.warm) * f.k) ≠ 0 := by
    have : (0 : ℤ) < (f.n : ℤ) - c.warm := by omega
    positivity
  refine ⟨⟨true, (e - c.warm - 1) * f.k + j, false, some (f.n, (f.n - c.warm) * f.k), if j = 0 then lr else ramp c.final c.mid ((((e - c.warm - 1) * f.k + j : ℕ) : ℝ) / ((((f.n : ℤ) - c.warm) * f.k : ℤ) : ℝ))⟩, ?_, ?_⟩
  · rw [run_append, h]
    simp only
    rw [run_steps c f _ _ _ rfl rfl hnk]
    simp only [if_false, Bool.false_eq_true]
  · rw [if_neg (by omega)]
    have : ((((f.n : ℤ) - c.warm) * f.k : ℤ) : ℝ) = (((f.n - c.warm) * f.k : ℕ) : ℝ) := by
      have h1 : ((f.n - c.warm : ℕ) : ℤ) = (f.n : ℤ) - c.warm := by omega
      rw [← h1]
      push_cast
      rfl
    rw [this]

/-- **C47, what holds of the warm-up.** During the first `warmup_length` epochs every update raises the rate, which ends at the mid value.
Missing: that it stays there, and the second phase. -/
theorem warm_rises_partial (c : Cfg) (f : Fit) (val : Bool) (hw : 0 < c.warm) (hn : c.warm ≤ f.n) (hlr : c.init < c.mid) :
    (∀ e j e' j' : Nat, e < c.warm → e' < c.warm → 0 < j → j ≤ f.k → 0 < j' → j' ≤ f.k → e * f.k + j < e' * f.k + j' →
      ∃ r r', rateAfter c f val e j r ∧ rateAfter c f val e' j' r' ∧ c.init < r ∧ r < r' ∧ r' ≤ c.mid) ∧
    (0 < f.k → rateAfter c f val (c.warm - 1) f.k c.mid) := by
  constructor
  · intro e j e' j' he he' hj0 hj hj0' hj' hlt
    have hk : 0 < f.k := by omega
    have hwk : (0 : ℝ) < ((c.warm * f.k : ℕ) : ℝ) := by exact_mod_cast Nat.mul_pos hw hk
    have hle : e' * f.k + j' ≤ c.warm * f.k := by
      calc e' * f.k + j' ≤ e' * f.k + f.k := by omega
        _ = (e' + 1) * f.k := by ring
        _ ≤ c.warm * f.k := Nat.mul_le_mul_right _ he'
    have h0 : (0 : ℝ) < ((e * f.k + j : ℕ) : ℝ) / ((c.warm * f.k : ℕ) : ℝ) := by
      apply div_pos _ hwk
      exact_mod_cast (by omega : 0 < e * f.k + j)
    have h1 : ((e * f.k + j : ℕ) : ℝ) / ((c.warm * f.k : ℕ) : ℝ) < ((e' * f.k + j' : ℕ) : ℝ) / ((c.warm * f.k : ℕ) : ℝ) := by
      rw [div_lt_div_iff_of_pos_right hwk]
      exact_mod_cast hlt
    have h2 : ((e' * f.k + j' : ℕ) : ℝ) / ((c.warm * f.k : ℕ) : ℝ) ≤ 1 := by
      rw [div_le_one hwk]
      exact_mod_cast hle
    refine ⟨_, _, warm_phase c f val hw e j (by omega) (by omega) hj0 hj, warm_phase c f val hw e' j' (by omega) (by omega) hj0' hj', ?_, ?_, ?_⟩
    · calc c.init = ramp c.init c.mid 0 := (ramp_zero _ _).symm
        _ < _ := ramp_strictMono _ _ _ _ hlr le_rfl h0 (by linarith)
    · exact ramp_strictMono _ _ _ _ hlr h0.le h1 h2
    · have := (ramp_mem c.init c.mid (((e' * f.k + j' : ℕ) : ℝ) / ((c.warm * f.k : ℕ) : ℝ))).2
      rwa [max_eq_right hlr.le] at this
  · intro hk
    have := warm_phase c f val hw (c.warm - 1) f.k (by omega) (by omega) hk le_rfl
    rw [show (c.warm - 1) * f.k + f.k = c.warm * f.k by
      obtain ⟨m, hm⟩ : ∃ m, c.warm = m + 1 := ⟨c.warm - 1, by omega⟩
      rw [hm]; simp; ring] at this
    rwa [div_self (by exact_mod_cast (Nat.mul_pos hw hk).ne'), ramp_one] at this

/-- **C47 (violated): direction.** In the second phase every update *raises* the rate, from just above the final value towards the mid value. -/
theorem converge_rises_violated (c : Cfg) (f : Fit) (val : Bool) (hw : 0 < c.warm) (hlr : c.final < c.mid) (e j e' j' : Nat) (he : c.warm < e) (he' : c.warm < e')
    (hn : e < f.n) (hn' : e' < f.n) (hj0 : 0 < j) (hj : j ≤ f.k) (hj0' : 0 < j') (hj' : j' ≤ f.k)
    (hlt : (e - c.warm - 1) * f.k + j < (e' - c.warm - 1) * f.k + j') :
    ∃ r r', rateAfter c f val e j r ∧ rateAfter c f val e' j' r' ∧ c.final < r ∧ r < r' := by
  have hk : 0 < f.k := by omega
  have hpos : 0 < (f.n - c.warm) * f.k := Nat.mul_pos (by omega) hk
  have hnk : (0 : ℝ) < (((f.n - c.warm) * f.k : ℕ) : ℝ) := by exact_mod_cast hpos
  have hle : (e' - c.warm - 1) * f.k + j' ≤ (f.n - c.warm) * f.k := by
    calc (e' - c.warm - 1) * f.k + j' ≤ (e' - c.warm - 1) * f.k + f.k := by omega
      _ = (e' - c.warm - 1 + 1) * f.k := by ring
      _ ≤ (f.n - c.warm) * f.k := Nat.mul_le_mul_right _ (by omega)
  have h0 : (0 : ℝ) < (((e - c.warm - 1) * f.k + j : ℕ) : ℝ) / (((f.n - c.warm) * f.k : ℕ) : ℝ) := by
    apply div_pos _ hnk
    exact_mod_cast (by omega : 0 < (e - c.warm - 1) * f.k + j)
  have h1 : (((e - c.warm - 1) * f.k + j : ℕ) : ℝ) / (((f.n - c.warm) * f.k : ℕ) : ℝ) < (((e' - c.warm - 1) * f.k + j' : ℕ) : ℝ) / (((f.n - c.warm) * f.k : ℕ) : ℝ) := by
    rw [div_lt_div_iff_of_pos_right hnk]
    exact_mod_cast hlt
  have h2 : (((e' - c.warm - 1) * f.k + j' : ℕ) : ℝ) / (((f.n - c.warm) * f.k : ℕ) : ℝ) ≤ 1 := by
    rw [div_le_one hnk]
    exact_mod_cast hle
  refine ⟨_, _, converge_phase c f val hw e j he hn hj0 hj, converge_phase c f val hw e' j' he' hn' hj0' hj', ?_, ?_⟩
  · calc c.final = ramp c.final c.mid 0 := (ramp_zero _ _).symm
      _ < _ := ramp_strictMono _ _ _ _ hlr le_rfl h0 (by linarith)
  · exact ramp_strictMono _ _ _ _ hlr h0.le h1 h2

/-- **C47 (violated): length.** The warm-up lasts one epoch longer than `warmup_length`, in which the rate falls again: with `warmup_length = 1` it is back
at the initial value. -/
theorem extra_epoch_violated (c : Cfg) (f : Fit) (val : Bool) (hw : c.warm = 1) (hn : 1 < f.n) (hk : 0 < f.k) :
    rateAfter c f val 0 f.k c.mid ∧ rateAfter c f val 1 f.k c.init := by
  constructor
  · have := warm_phase c f val (by omega) 0 f.k (by omega) (by omega) hk le_rfl
    rw [hw] at this
    simp only [Nat.zero_mul, Nat.zero_add, Nat.one_mul] at this
    rwa [div_self (by exact_mod_cast hk.ne'), ramp_one] at this
  · have := warm_phase c f val (by omega) 1 f.k (by omega) hn hk le_rfl
    rw [hw] at this
    simp only [Nat.one_mul] at this
    have h2 : ((f.k + f.k : ℕ) : ℝ) / (f.k : ℝ) = 2 := by
      have : (f.k : ℝ) ≠ 0 := by exact_mod_cast hk.ne'
      push_cast
      field_simp
      norm_num
    rw [h2] at this
    have h3 : ramp c.init c.mid 2 = c.init := by
      unfold ramp
      rw [show Real.pi * 2 = 2 * Real.pi by ring, Real.cos_two_pi]
      ring
    rwa [h3] at this

/-- **C47: no warm-up phase.** `warmup_length = 0` fails at the first update. -/
theorem zero_length_error (c : Cfg) (f : Fit) (val : Bool) (hw : c.warm = 0) (hk : 0 < f.k) (e : Nat) (he : 0 < e) :
    run c f (fitOps f val e) (trainBegin c) = .error .zeroDivision := by
  obtain ⟨e, rfl⟩ : ∃ m, e = m + 1 := ⟨e - 1, by omega⟩
  obtain ⟨k, hk'⟩ : ∃ m, f.k = m + 1 := ⟨f.k - 1, by omega⟩
  unfold fitOps
  rw [List.range_succ_eq_map, List.flatMap_cons, epochOps, hk', List.replicate_succ]
  simp [run, apply, activate, stepEnd, schedule, hw, trainBegin]

/-- **C47: long warm-ups.** If the epoch `warmup_length + 1` ends before other warm-ups are over (so that the callback is not active yet), the fit fails. -/
theorem late_activation_error (c : Cfg) (f : Fit) (s : St) (h : s.plan = none) : apply c f s (.epochEnd (c.warm + 1)) = .error .attributeError := by
  have : (((c.warm + 1 : ℕ) : ℤ) - 1 = c.warm) := by omega
  simp only [apply, epochEnd, this, if_true, h]

example : ∃ r, rateAfter ⟨2, 0.01, 0.1, 0.001⟩ ⟨10, 2⟩ true 3 1 r :=
  ⟨_, converge_phase ⟨2, 0.01, 0.1, 0.001⟩ ⟨10, 2⟩ true (by decide) 3 1 (by decide) (by decide) (by decide) (by decide)⟩
example : ∃ r r', rateAfter ⟨2, 0.01, 0.1, 0.001⟩ ⟨10, 2⟩ true 3 1 r ∧ rateAfter ⟨2, 0.01, 0.1, 0.001⟩ ⟨10, 2⟩ true 9 2 r' ∧ (0.001 : ℝ) < r ∧ r < r' :=
  converge_rises_violated ⟨2, 0.01, 0.1, 0.001⟩ ⟨10, 2⟩ true (by decide) (by norm_num) 3 1 9 2 (by decide) (by decide) (by decide) (by decide) (by decide) (by decide)
    (by decide) (by decide) (by decide)

end C47

end

end Tomopt
