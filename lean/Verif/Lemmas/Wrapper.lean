import Verif.Spec.Wrapper
import Mathlib.Algebra.BigOperators.Group.List.Basic

/- The loops emit the specified traces. -/
namespace Tomopt

noncomputable section

namespace Fit

variable {W V P : Type}

/-- Program `m` started in `s` either ends normally having added `t` to the log with `Q`, or raises having added a prefix of some list in `L`. -/
def Emits (m : Prog W V P) (s : S W V P) (Q : S W V P → List (Act V) → Prop) (L : List (Act V) → Prop) : Prop :=
  match m s with
  | (.ok _, s') => ∃ t, s'.log = s.log ++ t ∧ Q s' t
  | (.error _, s') => ∃ t full, s'.log = s.log ++ t ∧ L full ∧ t <+: full

theorem Emits.mono {m : Prog W V P} {s : S W V P} {Q Q' : S W V P → List (Act V) → Prop} {L L' : List (Act V) → Prop} (h : Emits m s Q L)
    (hQ : ∀ s' t, Q s' t → Q' s' t) (hL : ∀ t, L t → L' t) : Emits m s Q' L' := by
  unfold Emits at *
  rcases hm : m s with ⟨r, s'⟩
  rw [hm] at h
  cases r with
  | ok a => obtain ⟨t, h1, h2⟩ := h; exact ⟨t, h1, hQ _ _ h2⟩
  | error e => obtain ⟨t, f, h1, h2, h3⟩ := h; exact ⟨t, f, h1, hL _ h2, h3⟩

theorem Emits.seq {m k : Prog W V P} {s : S W V P} {Q1 Q : S W V P → List (Act V) → Prop} {L : List (Act V) → Prop}
    (h1 : Emits m s Q1 (fun t1 => ∃ t2, L (t1 ++ t2)))
    (h2 : ∀ s' t1, Q1 s' t1 → Emits k s' (fun s'' t2 => Q s'' (t1 ++ t2)) (fun t2 => L (t1 ++ t2))) : Emits (m ;; k) s Q L := by
  unfold Emits at h1
  unfold Emits Fit.seq
  rcases hm : m s with ⟨r, s'⟩
  rw [hm] at h1
  cases r with
  | error e =>
    obtain ⟨t, f, h3, ⟨t2, h4⟩, h5⟩ := h1
    exact ⟨t, _, h3, h4, h5.trans (List.prefix_append _ _)⟩
  | ok a =>
    obtain ⟨t1, h3, h4⟩ := h1
    have := h2 s' t1 h4
    unfold Emits at this
    simp only
    rcases hk : k s' with ⟨r, s''⟩
    rw [hk] at this
    cases r with
    | ok a =>
      obtain ⟨t2, h5, h6⟩ := this
      exact ⟨t1 ++ t2, by rw [h5, h3, List.append_assoc], h6⟩
    | error e =>
      obtain ⟨t2, f, h5, h6, h7⟩ := this
      exact ⟨t1 ++ t2, _, by rw [h5, h3, List.append_assoc], h6, (List.prefix_append_right_inj _).mpr h7⟩

/-- fields callbacks cannot touch are unchanged -/
def Keeps (s s' : S W V P) : Prop :=
  s'.fp.mode = s.fp.mode ∧ s'.fp.lossVal = s.fp.lossVal ∧ s'.fp.meanLoss = s.fp.meanLoss ∧ s'.fp.epoch = s.fp.epoch

theorem Keeps.refl (s : S W V P) : Keeps s s := ⟨rfl, rfl, rfl, rfl⟩

theorem Keeps.trans {s s' s'' : S W V P} (h : Keeps s s') (h' : Keeps s' s'') : Keeps s s'' :=
  ⟨h'.1.trans h.1, h'.2.1.trans h.2.1, h'.2.2.1.trans h.2.2.1, h'.2.2.2.trans h.2.2.2⟩

/-- A program with a fixed trace. -/
def Fixed (m : Prog W V P) (t : List (Act V)) : Prop := ∀ s, Emits m s (fun s' t' => t' = t ∧ Keeps s s') (· = t)

theorem Fixed.seq {m k : Prog W V P} {t1 t2 : List (Act V)} (h1 : Fixed m t1) (h2 : Fixed k t2) : Fixed (m ;; k) (t1 ++ t2) := by
  intro s
  refine Emits.seq (Q1 := fun s' t' => t' = t1 ∧ Keeps s s') ((h1 s).mono (fun _ _ h => h) fun t h => ⟨t2, by rw [h]⟩) ?_
  rintro s' t ⟨rfl, hk⟩
  exact (h2 s').mono (fun s'' t h => ⟨by rw [h.1], hk.trans h.2⟩) fun t h => by rw [h]

theorem fixed_nop : Fixed (nop : Prog W V P) [] := fun s => ⟨[], by simp [nop], rfl, Keeps.refl s⟩

theorem fixed_each {α : Type} (l : List α) (f : α → Prog W V P) (t : α → List (Act V)) (h : ∀ a ∈ l, Fixed (f a) (t a)) :
    Fixed (each l f) (l.flatMap t) := by
  induction l with
  | nil => exact fixed_nop
  | cons a l ih =>
    rw [List.flatMap_cons]
    exact (h a (by simp)).seq (ih fun b hb => h b (by simp [hb]))

variable (E : Env W V P) (c : Conf)

theorem fixed_call (a : Act V) : Fixed (call E a) [a] := by
  intro s
  unfold Emits call seq note
  simp only
  rcases h : E.prim a s.fp s.w with ⟨r, w⟩
  cases r with
  | ok u => exact ⟨[a], rfl, rfl, ⟨rfl, rfl, rfl, rfl⟩⟩
  | error e => exact ⟨[a], [a], rfl, rfl, List.prefix_rfl⟩

theorem fixed_callCb (i : Nat) (e : Ev) : Fixed (callCb E i e) [.cb i e] := by
  intro s
  unfold Emits callCb seq note
  simp only
  rcases h : E.cb i e s.fp s.w with ⟨r, o, w⟩
  cases r with
  | ok u => exact ⟨[.cb i e], rfl, rfl, ⟨rfl, rfl, rfl, rfl⟩⟩
  | error e' => exact ⟨[.cb i e], [.cb i e], rfl, rfl, List.prefix_rfl⟩

theorem fixed_cbs (e : Ev) : Fixed (cbs E c e) (Spec.evs c.nCb e) := by
  have := fixed_each (List.range c.nCb) (fun i => callCb E i e) (fun i => [.cb i e]) fun i _ => fixed_callCb E i e
  unfold cbs Spec.evs
  convert this using 1
  exact List.map_eq_flatMap

theorem fixed_setFp (f : FP P → FP P) (h : ∀ x, (f x).mode = x.mode ∧ (f x).lossVal = x.lossVal ∧ (f x).meanLoss = x.meanLoss ∧ (f x).epoch = x.epoch) :
    Fixed (setFp f : Prog W V P) [] := fun s => ⟨[], by simp [], rfl, ⟨(h _).1, (h _).2.1, (h _).2.2.1, (h _).2.2.2⟩⟩

theorem fixed_getPred : Fixed (getPred E) [.predict] := by
  intro s
  unfold Emits getPred seq note
  simp only
  rcases h : E.pred s.fp s.w with ⟨r, w⟩
  cases r with
  | ok u => exact ⟨[.predict], rfl, rfl, ⟨rfl, rfl, rfl, rfl⟩⟩
  | error e' => exact ⟨[.predict], [.predict], rfl, rfl, List.prefix_rfl⟩

theorem fixed_muBatch : Fixed (muBatch E c) (Spec.mu c.nCb) := by
  have := (fixed_call E .makeMuons).seq <| (fixed_cbs E c .muBegin).seq <| (fixed_call E .irradiate).seq <| (fixed_call E .inferScatter).seq <|
    (fixed_cbs E c .scatterEnd).seq <| (fixed_call E .addScatters).seq (fixed_cbs E c .muEnd)
  unfold muBatch Spec.mu
  simpa only [List.append_assoc, List.cons_append, List.nil_append] using this

/-- a program that may raise before doing anything can be put in front -/
theorem Fixed.emits {m : Prog W V P} {t : List (Act V)} (h : Fixed m t) (s : S W V P) :
    Emits m s (fun s' t' => t' = t ∧ Keeps s s') (· = t) := h s

theorem emits_guard (p : Prop) [Decidable p] (e : Err) (s : S W V P) (L : List (Act V) → Prop) (hL : ∃ t, L t) :
    Emits (if p then raise e else nop) s (fun s' t => t = [] ∧ s' = s ∧ ¬ p) L := by
  obtain ⟨t, ht⟩ := hL
  by_cases hp : p
  · rw [if_pos hp]; exact ⟨[], t, by simp [], ht, List.nil_prefix⟩
  · rw [if_neg hp]; exact ⟨[], by simp [nop], rfl, rfl, hp⟩

/-- running loss plus the loss of one more volume -/
def plus : Option ℝ → Option ℝ → Option ℝ
  | a, none => a
  | none, some x => some x
  | some y, some x => some (y + x)

def scanOf (mode : Mode) : Spec.Scan :=
  ⟨c.nCb, c.nMu / c.muBs, c.bs, decide (mode ≠ .test ∧ E.hasLoss = true), decide (mode = .train)⟩

/-- all fields but the running loss are kept, and that gains `l` -/
def Gains (s s' : S W V P) (l : Option ℝ) : Prop :=
  s'.fp.mode = s.fp.mode ∧ s'.fp.lossVal = plus s.fp.lossVal l ∧ s'.fp.epoch = s.fp.epoch

theorem emits_addLoss (s : S W V P) :
    Emits (addLoss E) s
      (fun s' t => ∃ o : Spec.Out, t = [.havePred o.pred] ++ (Spec.lossOf (scanOf E c s.fp.mode).counted o).toList.map .loss ∧
        Gains s s' (Spec.lossOf (scanOf E c s.fp.mode).counted o))
      (fun t => ∃ o : Spec.Out, t = [.havePred o.pred] ++ (Spec.lossOf (scanOf E c s.fp.mode).counted o).toList.map .loss) := by
  unfold Emits addLoss seq note
  simp only
  by_cases hc : s.fp.mode ≠ .test ∧ E.hasLoss = true
  · rw [if_pos hc]
    cases hp : s.fp.pred with
    | none =>
      exact ⟨[.havePred false], rfl, ⟨false, 0⟩, by simp [Spec.lossOf], rfl, by simp [Spec.lossOf, plus], rfl⟩
    | some p =>
      simp only
      rcases h : E.loss p s.w with ⟨r, w⟩
      cases r with
      | error e =>
        refine ⟨[.havePred true], _, rfl, ⟨⟨true, 0⟩, rfl⟩, ?_⟩
        exact List.prefix_append _ _
      | ok x =>
        refine ⟨[.havePred true, .loss x], by simp, ⟨true, x⟩, ?_, rfl, ?_, rfl⟩
        · simp [Spec.lossOf, scanOf, hc.1, hc.2]
        · simp only [Spec.lossOf, scanOf, decide_eq_true_eq, hc, and_self, if_true]
          cases s.fp.lossVal <;> simp [plus, hc.1, hc.2]
  · rw [if_neg hc]
    have : (scanOf E c s.fp.mode).counted = false := decide_eq_false hc
    exact ⟨[.havePred s.fp.pred.isSome], rfl, ⟨s.fp.pred.isSome, 0⟩, by simp [Spec.lossOf, this], rfl, by simp [Spec.lossOf, this, plus], rfl⟩

/-- Compose a fixed program with what follows. -/
theorem Emits.after {m k : Prog W V P} {s : S W V P} {t1 : List (Act V)} {Q : S W V P → List (Act V) → Prop} {L : List (Act V) → Prop}
    (h1 : Fixed m t1) (hL : ∃ t2, L (t1 ++ t2))
    (h2 : ∀ s', Keeps s s' → Emits k s' (fun s'' t2 => Q s'' (t1 ++ t2)) (fun t2 => L (t1 ++ t2))) : Emits (m ;; k) s Q L := by
  refine Emits.seq (Q1 := fun s' t' => t' = t1 ∧ Keeps s s') ((h1 s).mono (fun _ _ h => h) ?_) ?_
  · rintro t rfl; exact hL
  · rintro s' t ⟨rfl, hk⟩; exact h2 s' hk

theorem emits_oneVolume (s : S W V P) (v : V) :
    Emits (oneVolume E c v) s
      (fun s' t => ∃ o : Spec.Out, t = Spec.vol (scanOf E c s.fp.mode) (v, o) ∧ Gains s s' (Spec.lossOf (scanOf E c s.fp.mode).counted o))
      (fun t => ∃ o : Spec.Out, t = Spec.vol (scanOf E c s.fp.mode) (v, o)) := by
  -- everything before the loss
  have hpre : Fixed (call E (.load v) ;; cbs E c .volBegin ;; setFp (fun f => { f with pred := none })) ([.load v] ++ (Spec.evs c.nCb .volBegin ++ [])) :=
    (fixed_call E _).seq ((fixed_cbs E c _).seq (fixed_setFp _ fun x => ⟨rfl, rfl, rfl, rfl⟩))
  have hmid : Fixed (call E .newInferrer ;; each (List.range (c.nMu / c.muBs)) (fun _ => muBatch E c) ;; cbs E c .x0PredBegin ;; getPred E ;;
      cbs E c .x0PredEnd) ([.newInferrer] ++ ((List.replicate (c.nMu / c.muBs) (Spec.mu c.nCb)).flatten ++ (Spec.evs c.nCb .x0PredBegin ++ ([.predict] ++
        Spec.evs c.nCb .x0PredEnd)))) := by
    refine (fixed_call E _).seq (Fixed.seq ?_ ((fixed_cbs E c _).seq ((fixed_getPred E).seq (fixed_cbs E c _))))
    have := fixed_each (List.range (c.nMu / c.muBs)) (fun _ => muBatch E c) (fun _ => Spec.mu c.nCb) fun _ _ => fixed_muBatch E c
    convert this using 1
    rw [List.flatMap_def, List.map_const', List.length_range]
  have hass : oneVolume E c v = (call E (.load v) ;; cbs E c .volBegin ;; setFp (fun f => { f with pred := none })) ;;
      (if c.muBs = 0 then raise .zeroDivision else nop) ;; (call E .newInferrer ;; each (List.range (c.nMu / c.muBs)) (fun _ => muBatch E c) ;;
        cbs E c .x0PredBegin ;; getPred E ;; cbs E c .x0PredEnd) ;; addLoss E ;; cbs E c .volEnd := by
    have assoc : ∀ m k l : Prog W V P, (m ;; k) ;; l = m ;; k ;; l := by
      intro m k l; funext s
      unfold seq
      rcases m s with ⟨r, s'⟩
      cases r <;> rfl
    simp only [oneVolume, scanVolume, assoc]
  rw [hass]
  have hvol : ∀ o : Spec.Out, Spec.vol (scanOf E c s.fp.mode) (v, o) = ([.load v] ++ (Spec.evs c.nCb .volBegin ++ [])) ++ ([] ++
      (([.newInferrer] ++ ((List.replicate (c.nMu / c.muBs) (Spec.mu c.nCb)).flatten ++ (Spec.evs c.nCb .x0PredBegin ++ ([.predict] ++
        Spec.evs c.nCb .x0PredEnd)))) ++ (([.havePred o.pred] ++ (Spec.lossOf (scanOf E c s.fp.mode).counted o).toList.map .loss) ++
          Spec.evs c.nCb .volEnd))) := by
    intro o
    simp only [Spec.vol, scanOf, List.append_assoc, List.append_nil, List.nil_append]
  refine Emits.after hpre ⟨_, ⟨⟨false, 0⟩, (hvol _).symm⟩⟩ fun s1 k1 => ?_
  refine Emits.seq (emits_guard _ _ _ _ ⟨[], _, ⟨⟨false, 0⟩, (hvol _).symm⟩⟩) ?_
  rintro s2 t2 ⟨rfl, rfl, -⟩
  refine Emits.after hmid ⟨_, ⟨⟨false, 0⟩, (hvol _).symm⟩⟩ fun s3 k3 => ?_
  have k := k1.trans k3
  have hm : s3.fp.mode = s.fp.mode := k.1
  refine Emits.seq ((emits_addLoss E c s3).mono (fun s' t h => h) ?_) ?_
  · rintro t ⟨o, rfl⟩
    exact ⟨Spec.evs c.nCb .volEnd, o, by rw [hvol, hm]⟩
  · rintro s4 t4 ⟨o, rfl, hg⟩
    refine ((fixed_cbs E c .volEnd) s4).mono ?_ ?_
    · rintro s5 t5 ⟨rfl, k5⟩
      refine ⟨o, by rw [hvol, hm], k5.1.trans (hg.1.trans hm), ?_, k5.2.2.2.trans (hg.2.2.trans k.2.2.2)⟩
      rw [k5.2.1, hg.2.1, k.2.1, hm]
    · rintro t rfl
      exact ⟨o, by rw [hvol, hm]⟩

end Fit

end

end Tomopt
