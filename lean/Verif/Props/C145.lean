import Verif.Model.Reuse
import Verif.Lemmas.Warmup
import Verif.Props.C51

/-
Property theorems: C145, callbacks used for another fit.
-/
namespace Tomopt

noncomputable section

namespace C145

/-! ### Warm-ups -/

section warm

open Warmup

theorem idx_new (cs : List Cb) : idx (cs.map newCb) = idx cs := by
  induction cs with
  | nil => rfl
  | cons c cs ih => cases c <;> simp only [List.map_cons, newCb, idx, ih]

theorem trainBegin_cbs (cs : List Cb) (s : St) : (trainBegin cs s).1 = cs.map newCb := by
  induction cs generalizing s with
  | nil => rfl
  | cons c cs ih => cases c <;> simp only [trainBegin, List.map_cons, newCb, ih]

theorem before_new (cs : List Cb) (ws : List Wu) (hl : Listed cs ws) (e : Nat) : before cs ws e = before (cs.map newCb) (newWu ws) e := by
  induction e with
  | zero =>
    refine Prod.ext ?_ ?_
    · simp only [before, begin_, trainBegin_cbs, List.map_map]
      apply List.map_congr_left
      intro c _
      cases c <;> rfl
    · have hl' : Listed (cs.map newCb) (newWu ws) := by
        unfold Listed
        rw [idx_new, hl]
        simp [newWu]
      rw [before_zero cs ws hl, before_zero _ _ hl']
      simp [newWu, Function.comp_def]
  | succ e ih => simp only [before, ih]

/-- **C145: warm-ups.** Whatever an earlier fit, finished or broken off, left in the warm-ups and in the callbacks that wait for them: in every epoch they are in the state in which new ones would be. -/
theorem warm (cs : List Cb) (ws : List Wu) (hl : Listed cs ws) (e : Nat) : during cs ws e = during (cs.map newCb) (newWu ws) e := by
  unfold during
  rw [before_new cs ws hl]

/-- **C145: what warm-ups set.** So cost coefficients and learning rates are set as by new ones. -/
theorem tuned (cs : List Cb) (ws : List Wu) (hl : Listed cs ws) (i : Nat) (vols : Nat → List VolErr × List VolErr) (coef : Option XF) (rate : ℝ) (grads : Nat → List (List Grad)) (lr : XF) (e : Nat) :
    Cost.fit cs ws i vols coef e = Cost.fit (cs.map newCb) (newWu ws) i vols coef e ∧ Opt.fit rate cs ws i grads lr e = Opt.fit rate (cs.map newCb) (newWu ws) i grads lr e := by
  induction e with
  | zero => exact ⟨rfl, rfl⟩
  | succ e ih => simp only [Cost.fit, Opt.fit, ih, warm cs ws hl e, and_self]

end warm

/-! ### Schedules -/

section cycle

open OneCycle

/-- a new schedule `s` and a used one `t` at the same point of a fit -/
def Alike (s t : St) : Prop := t.active = s.active ∧ t.iter = s.iter ∧ t.lr = s.lr ∧ (s.active = true → t = s) ∧ (s.active = false → s.plan = none)

theorem alike_op (c : Cfg) (f : Fit) (o : Op) {s t s' : St} (h : Alike s t) (hs : apply c f s o = .ok s') : ∃ t', apply c f t o = .ok t' ∧ Alike s' t' := by
  obtain ⟨h1, h2, h3, h4, h5⟩ := h
  cases o with
  | activate e =>
    simp only [apply, Except.ok.injEq] at hs
    subst hs
    refine ⟨_, rfl, rfl, h2, h3, fun _ => ?_, fun h => by simp [activate] at h⟩
    simp only [activate, h2, h3]
  | step =>
    cases ha : s.active with
    | false =>
      simp only [apply, stepEnd, ha, Bool.false_eq_true, if_false, Except.ok.injEq] at hs
      subst hs
      exact ⟨t, by simp only [apply, stepEnd, h1, ha, Bool.false_eq_true, if_false], h1, h2, h3, h4, h5⟩
    | true =>
      rw [h4 ha]
      refine ⟨s', hs, rfl, rfl, rfl, fun _ => rfl, fun h => ?_⟩
      simp only [apply, stepEnd, ha, if_true] at hs
      split at hs
      · simp at hs
      · simp only [Except.ok.injEq] at hs
        subst hs
        simp at h
  | epochEnd e =>
    cases ha : s.active with
    | false =>
      have hp := h5 ha
      simp only [apply, epochEnd, hp] at hs ⊢
      split at hs
      · simp at hs
      · rename_i hne
        simp only [Except.ok.injEq] at hs
        subst hs
        rw [if_neg hne]
        exact ⟨t, rfl, h1, h2, h3, h4, h5⟩
    | true =>
      rw [h4 ha]
      refine ⟨s', hs, rfl, rfl, rfl, fun _ => rfl, fun h => ?_⟩
      simp only [apply, epochEnd] at hs
      split at hs
      · split at hs
        · simp at hs
        · simp only [Except.ok.injEq] at hs
          subst hs
          simp [ha] at h
      · simp only [Except.ok.injEq] at hs
        subst hs
        simp [ha] at h

theorem alike_run (c : Cfg) (f : Fit) : ∀ (os : List Op) {s t s' : St}, Alike s t → run c f os s = .ok s' → ∃ t', run c f os t = .ok t' ∧ Alike s' t'
  | [], s, t, s', h, hs => by
    simp only [run, Except.ok.injEq] at hs
    subst hs
    exact ⟨t, rfl, h⟩
  | o :: os, s, t, s', h, hs => by
    unfold run at hs
    cases ho : apply c f s o with
    | error e => rw [ho] at hs; simp at hs
    | ok s1 =>
      rw [ho] at hs
      obtain ⟨t1, e1, a1⟩ := alike_op c f o h ho
      obtain ⟨t', e2, a2⟩ := alike_run c f os a1 hs
      exact ⟨t', by rw [run, e1]; exact e2, a2⟩

/-- **C145: schedules.** In a fit in which a new one-cycle schedule does not fail, one used before sets the same learning rates (or momenta) at every step, whatever the earlier fit was, and is in the same state from its activation on. -/
theorem cycle (c : Cfg) (f : Fit) (os : List Op) (s : St) (h : run c f os (trainBegin c) = .ok s) (old : St) :
    ∃ t, run c f os (trainAgain c old) = .ok t ∧ t.lr = s.lr ∧ t.active = s.active ∧ (s.active = true → t = s) := by
  obtain ⟨t, h1, h2, h3, h4, h5, -⟩ := alike_run c f os (s := trainBegin c) (t := trainAgain c old) ⟨rfl, rfl, rfl, fun h => by simp [trainBegin] at h, fun _ => rfl⟩ h
  exact ⟨t, h1, h4, h2, h5⟩

end cycle

/-! ### Metrics and the logger -/

section metrics

open Fit

theorem begin_length (ms : List Metric) : (metricsBegin ms).length = ms.length := by
  have : ∀ (is : List Nat) (ms : List Metric), (is.foldl metricBegin ms).length = ms.length := by
    intro is
    induction is with
    | nil => intro ms; rfl
    | cons i is ih =>
      intro ms
      rw [List.foldl_cons, ih]
      unfold metricBegin
      cases ms[i]? with
      | none => rfl
      | some m => simp only; split <;> simp
  exact this _ _

/-- **C145: metrics.** The same metrics have the same main metric in another fit. -/
theorem metrics (ms : List Metric) : metricsBegin (metricsBegin ms) = metricsBegin ms ∧ mainMetric (metricsBegin ms) = mainMetric ms := by
  refine ⟨?_, (C78.first_wins ms ms.length).1⟩
  have h := (C78.first_wins ms ms.length).2 le_rfl
  cases hf : C78.firstMain ms with
  | none => rw [show metricsBegin ms = ms from h.2 hf]; exact h.2 hf
  | some i =>
    have h1 : metricsBegin ms = C78.only i ms := h.1 i hf
    rw [h1]
    have hlen : (C78.only i ms).length = ms.length := by simp [C78.only]
    have hi : C78.firstMain (C78.only i ms) = some i := by
      unfold C78.firstMain at hf ⊢
      rw [List.findIdx?_eq_some_iff_getElem] at hf ⊢
      obtain ⟨hl, -, -⟩ := hf
      refine ⟨by rw [hlen]; exact hl, ?_, fun j hj => ?_⟩
      · rw [C78.only_get i ms i _ (List.getElem?_eq_getElem (by rw [hlen]; exact hl))]
        simp
      · rw [C78.only_get i ms j _ (List.getElem?_eq_getElem (by rw [hlen]; omega))]
        simp
        omega
    have h2 := ((C78.first_wins (C78.only i ms) (C78.only i ms).length).2 le_rfl).1 i hi
    change metricsBegin (C78.only i ms) = _ at h2
    rw [h2]
    unfold C78.only
    rw [List.mapIdx_mapIdx]
    rfl

/-- **C145: the logger.** A logger forgets earlier fits when a training begins. -/
theorem logger (v : View) (l l' : Logger) : logStep .trainBegin v l = logStep .trainBegin v l' := rfl

end metrics

/-! ### What the code refutes -/

open OneCycle in
/-- **C145 is refuted by the code.** A used schedule does not fail where a new one does: with warm-ups that outlast the rising phase of the schedule a new one raises an error, while one that was active in an earlier fit does not. -/
theorem cycle_violated (c : Cfg) (f : OneCycle.Fit) (p : ℤ × ℤ) (old : OneCycle.St) (hold : old.plan = some p) :
    run c f [.epochEnd (c.warm + 1)] (trainBegin c) = .error .attributeError ∧ ∃ t, run c f [.epochEnd (c.warm + 1)] (trainAgain c old) = .ok t := by
  constructor
  · simp [run, apply, OneCycle.epochEnd, trainBegin]
  · simp [run, apply, OneCycle.epochEnd, trainAgain, hold]

/-- **C145 is refuted by the code.** A metric that had to give way to another main metric in one fit has lost its rank for good: in a later fit on its own it is not the main metric, although it was created as one. -/
theorem rank_violated (a b : Fit.Metric) (ha : a.main = true) (hb : b.main = true) : ∃ b', (Fit.metricsBegin [a, b])[1]? = some b' ∧ b'.name = b.name ∧ b'.lowerBetter = b.lowerBetter ∧
    Fit.mainMetric (Fit.metricsBegin [b]) = (some 0, true) ∧ Fit.mainMetric (Fit.metricsBegin [b']) = (some 0, false) := by
  have h1 := ((C78.first_wins [a, b] 2).2 le_rfl).1 0 (by simp [C78.firstMain, List.findIdx?_cons, ha])
  change Fit.metricsBegin [a, b] = _ at h1
  refine ⟨{ b with main := false }, ?_, rfl, rfl, ?_, ?_⟩
  · rw [h1]
    simp [C78.only]
  · rw [(metrics [b]).2]
    simp [Fit.mainMetric, List.findIdx?_cons, hb]
  · rw [(metrics _).2]
    simp [Fit.mainMetric, List.findIdx?_cons]

/-! ### The hypotheses can be met -/

open Warmup in
/-- two warm-ups left in the middle of an earlier fit, and a callback that waited for them -/
example (e : Nat) : during [.warm 0, .post true, .warm 1] [⟨2, 2, false⟩, ⟨3, 1, true⟩] e = during [.warm 0, .post false, .warm 1] [⟨2, 0, false⟩, ⟨3, 0, false⟩] e :=
  warm [.warm 0, .post true, .warm 1] [⟨2, 2, false⟩, ⟨3, 1, true⟩] rfl e

open OneCycle in
example : ∃ t, run ⟨1, 0, 1, 0⟩ ⟨3, 2⟩ [.activate 1, .step, .step, .epochEnd 1] (trainAgain ⟨1, 0, 1, 0⟩ ⟨true, 7, false, some (9, 9), 5⟩) = .ok t ∧ t.active = true := by
  have hs : ∃ s, run ⟨1, 0, 1, 0⟩ ⟨3, 2⟩ [.activate 1, .step, .step, .epochEnd 1] (trainBegin ⟨1, 0, 1, 0⟩) = .ok s ∧ s.active = true := by
    simp [run, apply, activate, stepEnd, OneCycle.epochEnd, schedule, trainBegin]
  obtain ⟨s, h1, h2⟩ := hs
  obtain ⟨t, h3, -, h4, -⟩ := cycle _ _ _ s h1 ⟨true, 7, false, some (9, 9), 5⟩
  exact ⟨t, h3, h4.trans h2⟩

example : ∃ b', (Fit.metricsBegin [⟨"Accuracy", false, true⟩, ⟨"Error", true, true⟩])[1]? = some b' ∧ Fit.mainMetric (Fit.metricsBegin [b']) = (some 0, false) := by
  obtain ⟨b', h1, -, -, -, h2⟩ := rank_violated ⟨"Accuracy", false, true⟩ ⟨"Error", true, true⟩ rfl rfl
  exact ⟨b', h1, h2⟩

end C145

end

end Tomopt
