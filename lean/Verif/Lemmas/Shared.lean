import Verif.Spec.Shared
import Verif.Props.C124

/- Lemmas on the memory of an inferrer and on what calls do to the momenta of a muon batch. -/
namespace Tomopt

noncomputable section

namespace Shared

open Infer

/-- `s'` remembers at least what `s` does, of the same batches -/
structure Ext (s s' : Infer.St) : Prop where
  batches : s'.batches = s.batches
  vars : s.vars.isSome → s'.vars.isSome

theorem Ext.refl (s : Infer.St) : Ext s s := ⟨rfl, id⟩
theorem Ext.trans {a b c : Infer.St} (h : Ext a b) (k : Ext b c) : Ext a c := ⟨k.batches.trans h.batches, fun x => k.vars (h.vars x)⟩

/-- nothing derived is stored without the combined tensors -/
def Tidy (s : Infer.St) : Prop := s.vars.isSome ∨ (s.vars = none ∧ s.probs = none ∧ s.preds = none)

theorem ensure_ext (c : Conf) (s : Infer.St) : Ext s (ensure c s).1 ∧ (s.batches.length ≠ 0 → (ensure c s).1.vars.isSome) := by
  unfold ensure combine
  cases hv : s.vars with
  | some v => exact ⟨Ext.refl s, fun _ => by simp [hv]⟩
  | none =>
    simp only
    by_cases h0 : s.batches.length = 0
    · simp only [h0, if_true]; exact ⟨Ext.refl s, fun h => absurd rfl h⟩
    · simp only [h0, if_false]
      split
      · exact ⟨⟨rfl, fun _ => rfl⟩, fun _ => rfl⟩
      · exact ⟨⟨rfl, fun _ => rfl⟩, fun _ => rfl⟩

theorem readVars_st (c : Conf) (s : Infer.St) : (readVars c s).1 = (ensure c s).1 := by
  unfold readVars
  rcases ensure c s with ⟨s', _ | _⟩
  · rfl
  · simp only; split <;> rfl

theorem readEff_st (c : Conf) (s : Infer.St) : (readEff c s).1 = (ensure c s).1 := by
  unfold readEff
  rcases ensure c s with ⟨s', _ | _⟩ <;> rfl

theorem readN_st (c : Conf) (s : Infer.St) : (readN c s).1 = (ensure c s).1 := by
  unfold readN
  rcases ensure c s with ⟨s', _ | _⟩ <;> rfl

theorem readProbs_ext (c : Conf) (s : Infer.St) : Ext s (readProbs c s).1 ∧ (Tidy s → s.batches.length ≠ 0 → (readProbs c s).1.vars.isSome) := by
  have he := ensure_ext c s
  rw [← readVars_st] at he
  unfold readProbs
  split
  · rename_i p hp
    refine ⟨Ext.refl s, fun ht _ => ?_⟩
    rcases ht with ht | ⟨_, ht, _⟩
    · exact ht
    · rw [ht] at hp; simp at hp
  · rcases hr : readVars c s with ⟨s', r⟩
    rw [hr] at he
    cases r with
    | error e => exact ⟨he.1, fun _ => he.2⟩
    | ok v =>
      simp only
      cases hn : s'.nMu with
      | none => exact ⟨he.1, fun _ => he.2⟩
      | some n =>
        simp only
        cases parseRows v.1 v.2 with
        | error e => exact ⟨he.1, fun _ => he.2⟩
        | ok rows =>
          simp only
          cases mapE (muonProbs c.cdf c.size c.edges c.shp) rows with
          | error e => exact ⟨he.1, fun _ => he.2⟩
          | ok p => exact ⟨⟨he.1.batches, he.1.vars⟩, fun _ => he.2⟩

theorem readPreds_ext (c : Conf) (s : Infer.St) : Ext s (readPreds c s).1 ∧ (Tidy s → s.batches.length ≠ 0 → (readPreds c s).1.vars.isSome) := by
  have he := ensure_ext c s
  rw [← readEff_st] at he
  unfold readPreds
  split
  · rename_i p hp
    refine ⟨Ext.refl s, fun ht _ => ?_⟩
    rcases ht with ht | ⟨_, _, ht⟩
    · exact ht
    · rw [ht] at hp; simp at hp
  · rcases hr : readEff c s with ⟨s', r⟩
    rw [hr] at he
    rcases r with e | _ | eff
    · exact ⟨he.1, fun _ => he.2⟩
    · exact ⟨he.1, fun _ => he.2⟩
    · simp only
      have hp := (readProbs_ext c s').1
      rcases hq : readProbs c s' with ⟨s1, r1⟩
      rw [hq] at hp
      have h1 := he.1.trans hp
      cases r1 with
      | error e => exact ⟨h1, fun _ h => hp.vars (he.2 h)⟩
      | ok probs =>
        simp only
        have hw := (ensure_ext c s1).1
        rw [← readVars_st] at hw
        rcases hx : readVars c s1 with ⟨s2, r2⟩
        rw [hx] at hw
        have h2 := h1.trans hw
        have k2 : Tidy s → s.batches.length ≠ 0 → s2.vars.isSome := fun _ h => hw.vars (hp.vars (he.2 h))
        cases r2 with
        | error e => exact ⟨h2, k2⟩
        | ok v =>
          simp only
          cases parseRows v.1 v.2 with
          | error e => exact ⟨h2, k2⟩
          | ok rows =>
            simp only
            cases voxelPreds c.big c.size c.shp rows eff probs with
            | error e => exact ⟨h2, k2⟩
            | ok p => exact ⟨⟨h2.batches, h2.vars⟩, k2⟩

/-- A question leaves the batches alone; afterwards the combined tensors are stored, if there are batches. -/
theorem step_ext (c : Conf) (s : Infer.St) (q : Ask) :
    Ext s (Infer.step c s q.op).1 ∧ (Tidy s → s.batches.length ≠ 0 → (Infer.step c s q.op).1.vars.isSome) := by
  cases q with
  | prediction =>
    have h := readPreds_ext c s
    simp only [Ask.op, Infer.step, getPrediction]
    split
    · rename_i h0; exact ⟨Ext.refl s, fun _ k => absurd h0 k⟩
    · rcases hr : readPreds c s with ⟨s', _ | _⟩ <;> rw [hr] at h <;> exact h
  | vars => simp only [Ask.op, Infer.step, readVars_st]; exact ⟨(ensure_ext c s).1, fun _ => (ensure_ext c s).2⟩
  | efficiency => simp only [Ask.op, Infer.step, readEff_st]; exact ⟨(ensure_ext c s).1, fun _ => (ensure_ext c s).2⟩
  | nMuons => simp only [Ask.op, Infer.step, readN_st]; exact ⟨(ensure_ext c s).1, fun _ => (ensure_ext c s).2⟩
  | probs => exact readProbs_ext c s

/-- Without batches, a question leaves everything as it is. -/
theorem step_empty (c : Conf) (s : Infer.St) (hv : s.vars = none) (ht : Tidy s) (hb : s.batches.length = 0) (q : Ask) : (Infer.step c s q.op).1 = s := by
  have he : (ensure c s) = (s, .error .valueError) := by simp [ensure, hv, combine, hb]
  have hp : s.probs = none ∧ s.preds = none := by
    rcases ht with ht | ht
    · rw [hv] at ht; simp at ht
    · exact ht.2
  cases q <;> simp [Ask.op, Infer.step, getPrediction, hb, readVars, readEff, readN, readProbs, he, hp.1]

/-! ### Momenta -/

theorem exec_moms {α : Type} (b : Batch α) (op : MuOp α) : List.Sublist (moms (b.exec op).1) (moms b) := by
  have h := (C124.conserved b [op]).2.1
  have h2 := h.map fun x => [XF.num x.2]
  simpa [moms, Batch.execAll, List.map_map, Function.comp_def] using h2

theorem moms_length {α : Type} (b : Batch α) : (moms b).length = b.muons.length := by simp [moms]

theorem setMoms_length {α : Type} (b : Batch α) (v : List ℝ) (h : v.length = b.muons.length) : (setMoms b v).muons.length = b.muons.length := by
  simp [setMoms, h]

end Shared

end

end Tomopt
