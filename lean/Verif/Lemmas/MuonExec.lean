import Verif.Spec.MuonExec
import Verif.Lemmas.Direction
import Verif.Lemmas.Passage

/- Helper lemmas about calls on a muon batch that may fail. -/
namespace Tomopt

noncomputable section
open Batch

variable {α : Type}

theorem keepTensors_whole (keep : List Bool) : ∀ ts : List (List α), (∀ t ∈ ts, t.length = keep.length) → keepTensors keep ts = (ts.map (pick keep), true)
  | [], _ => rfl
  | t :: ts, h => by
    have ih := keepTensors_whole keep ts fun u hu => h u (by simp [hu])
    simp only [keepTensors, h t (by simp), if_true, ih, List.map_cons]

theorem keepVars_whole (keep : List Bool) : ∀ d : Dict String (List (List α)), (∀ vt ∈ d, ∀ t ∈ vt.2, t.length = keep.length) →
    keepVars keep d = (d.mapVals fun ts => ts.map (pick keep), true)
  | [], _ => rfl
  | (v, ts) :: d, h => by
    have ih := keepVars_whole keep d fun u hu => h u (by simp [hu])
    simp only [keepVars, keepTensors_whole keep ts (h (v, ts) (by simp)), if_true, ih, Dict.mapVals, List.map_cons]

theorem keepHits_whole (keep : List Bool) : ∀ d : Dict String (Dict String (List (List α))), Whole keep.length d → keepHits keep d = (filterHits d keep, true)
  | [], _ => rfl
  | (p, vars) :: d, h => by
    have ih := keepHits_whole keep d fun u hu => h u (by simp [hu])
    simp only [keepHits, keepVars_whole keep vars (h (p, vars) (by simp)), if_true, ih, filterHits, Dict.mapVals, List.map_cons]

theorem filterExec_up (b : Batch α) (raws : List RawMuon) (hl : raws.length = b.muons.length) (hw : Whole b.muons.length b.hits) :
    b.filterExec raws (raws.map keepRow) = (b.removeUpwards raws, none) := by
  unfold filterExec removeUpwards
  simp only [List.length_map]
  split
  · rw [keepHits_whole _ _ (by rw [List.length_map, hl]; exact hw)]
    simp
  · rfl

theorem filterMap_toRaw (ms : List Muon) : (ms.map MuonOf.toRaw).filterMap RawMuon.toMuon? = ms := by
  induction ms with
  | nil => rfl
  | cons m ms ih => simp [toMuon?_toRaw, ih]

theorem filterExec_filter (b : Batch α) (keep : List Bool) (hw : Whole b.muons.length b.hits) :
    b.filterExec (b.muons.map MuonOf.toRaw) keep = match b.filterMuons keep with | .ok b' => (b', none) | .error e => (b, some e) := by
  unfold filterExec filterMuons
  simp only [List.length_map]
  split
  · split
    · rfl
    · rename_i h
      rw [keepHits_whole _ _ (by rw [not_not.mp h]; exact hw), pick_map, pick_map, filterMap_toRaw]
      rfl
  · rw [filterMap_toRaw]

theorem expand_iff (a : Arg) (n : Nat) : (∃ vs, a.expand n = .ok vs) ↔ a.size = 1 ∨ a.size = n := by
  cases a with
  | scalar v => simp [Arg.expand, Arg.size]
  | vec l =>
    simp only [Arg.expand, Arg.size]
    by_cases h : l.length = n
    · simp [h]
    · simp only [h, if_false, or_false]
      rcases l with _ | ⟨v, _ | ⟨w, l⟩⟩ <;> simp

theorem expand_error (a : Arg) (n : Nat) (h : ¬(a.size = 1 ∨ a.size = n)) : a.expand n = .error .runtimeError := by
  cases a with
  | scalar v => simp [Arg.size] at h
  | vec l =>
    simp only [Arg.expand]
    simp only [Arg.size] at h
    push Not at h
    rw [if_neg h.2]
    rcases l with _ | ⟨v, _ | ⟨w, l⟩⟩ <;> simp_all

/-- A change of a column succeeds exactly if there is none or mask and change have the right lengths. -/
theorem updExec_ok (mask : List Bool) (ms : List Muon) (a : Option Arg) (f : Muon → ℝ → Muon) :
    (∃ ms', updExec mask ms a f = .ok ms') ↔ ∀ x, a = some x → mask.length = ms.length ∧ (x.size = 1 ∨ x.size = countTrue mask) := by
  cases a with
  | none => simp [updExec]
  | some x =>
    unfold updExec
    by_cases h : mask.length = ms.length
    · simp only [h, ne_eq, not_true_eq_false, if_false, Option.some.injEq, forall_eq', true_and, ← expand_iff]
      unfold optUpd
      cases hv : x.expand (countTrue mask) <;> simp [bind, Except.bind, hv]
    · simp [h]

theorem updExec_len {mask : List Bool} {ms ms' : List Muon} {a : Option Arg} {f : Muon → ℝ → Muon} (h : updExec mask ms a f = .ok ms') : ms'.length = ms.length := by
  unfold updExec at h
  cases a with
  | none => simp at h; rw [h]
  | some x =>
    simp only at h
    split at h
    · simp at h
    · unfold optUpd at h
      cases hv : x.expand (countTrue mask) with
      | error e => simp [hv, bind, Except.bind] at h
      | ok vs => simp [hv, bind, Except.bind] at h; rw [← h, maskedUpd_length]

theorem updExec_opt {mask : List Bool} {ms : List Muon} (hl : mask.length = ms.length) (a : Option Arg) (f : Muon → ℝ → Muon) :
    updExec mask ms a f = optUpd mask ms a f := by
  cases a with
  | none => rfl
  | some x => simp [updExec, hl]

theorem updExec_keys {mask : List Bool} {rows rows' : List Muon} {a : Option Arg} {f : Muon → ℝ → Muon}
    (hf : ∀ m v, ((f m v).id, (f m v).p) = (m.id, m.p)) (h : updExec mask rows a f = .ok rows') :
    rows'.map (fun m => (m.id, m.p)) = rows.map (fun m => (m.id, m.p)) := by
  cases a with
  | none => simp [updExec] at h; rw [h]
  | some x =>
    unfold updExec at h
    simp only at h
    split at h
    · simp at h
    · exact optUpd_keys hf h

theorem addTheta_key (m : Muon) (v : ℝ) : ((addTheta m v).id, (addTheta m v).p) = (m.id, m.p) := by
  unfold addTheta; simp only; split <;> rfl

end

end Tomopt
