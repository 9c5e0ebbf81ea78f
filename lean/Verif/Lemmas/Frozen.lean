import Verif.Spec.Frozen

/- Helper lemmas: programs that leave a part of the world alone. -/
namespace Tomopt

noncomputable section
open Fit

namespace Frozen

variable {W V P D : Type} (part : W → D)

/-- the part is left alone and so is the mode -/
def K (m : Prog W V P) : Prop := ∀ s, part (m s).2.w = part s.w ∧ (m s).2.fp.mode = s.fp.mode

variable {part}

theorem K.seq {m k : Prog W V P} (h : K part m) (h' : K part k) : K part (m ;; k) := by
  intro s
  obtain ⟨a, b⟩ := h s
  simp only [Fit.seq]
  rcases e : m s with ⟨r, s'⟩
  rw [e] at a b
  cases r with
  | error x => exact ⟨a, b⟩
  | ok x => exact ⟨(h' s').1.trans a, (h' s').2.trans b⟩

theorem K.nop : K part (nop : Prog W V P) := fun _ => ⟨rfl, rfl⟩

theorem K.raise (e : Err) : K part (raise e : Prog W V P) := fun _ => ⟨rfl, rfl⟩

theorem K.note (a : Act V) : K part (note a : Prog W V P) := fun _ => ⟨rfl, rfl⟩

theorem K.set {u : FP P → FP P} (h : ∀ f, (u f).mode = f.mode) : K part (setFp u : Prog W V P) := fun _ => ⟨rfl, h _⟩

theorem K.each {α : Type} {f : α → Prog W V P} (h : ∀ a, K part (f a)) : ∀ l, K part (each l f)
  | [] => K.nop
  | a :: l => (h a).seq (K.each h l)

variable {E : Env W V P} (c : Conf)

theorem K.cbs (hE : OnlyUpdates part E) (e : Ev) : K part (cbs E c e) := K.each (fun i => (K.note _).seq fun s => ⟨hE.cb .., rfl⟩) _

theorem K.call (hE : OnlyUpdates part E) (a : Act V) (h1 : a ≠ .step) (h2 : a ≠ .conform) : K part (call E a) := (K.note _).seq fun s => ⟨hE.prim a _ _ h1 h2, rfl⟩

theorem K.getPred (hE : OnlyUpdates part E) : K part (getPred E) := by
  refine (K.note _).seq fun s => ?_
  have := hE.pred s.fp s.w
  rcases e : E.pred s.fp s.w with ⟨r, w⟩
  rw [e] at this
  cases r <;> exact ⟨this, rfl⟩

theorem K.addLoss (hE : OnlyUpdates part E) : K part (addLoss E) := by
  intro s
  unfold Fit.addLoss
  refine ((K.note _).seq ?_) s
  split
  · cases s.fp.pred with
    | none => exact K.nop
    | some p =>
      intro s
      simp only
      have := hE.loss p s.w
      rcases e : E.loss p s.w with ⟨r, w⟩
      rw [e] at this
      cases r <;> exact ⟨this, rfl⟩
  · exact K.nop

theorem K.muBatch (hE : OnlyUpdates part E) : K part (muBatch E c) :=
  (K.call hE _ (by simp) (by simp)).seq <| (K.cbs c hE _).seq <| (K.call hE _ (by simp) (by simp)).seq <| (K.call hE _ (by simp) (by simp)).seq <| (K.cbs c hE _).seq <| (K.call hE _ (by simp) (by simp)).seq <| K.cbs c hE _

theorem K.scanVolume (hE : OnlyUpdates part E) : K part (scanVolume E c) := by
  refine (K.set (u := fun f => { f with pred := none }) (by intro; rfl)).seq <| K.seq ?_ <| (K.call hE .newInferrer (by simp) (by simp)).seq <| (K.each (fun _ => K.muBatch c hE) _).seq <| (K.cbs c hE _).seq <| (K.getPred hE).seq <| (K.cbs c hE _).seq <| K.addLoss hE
  split
  · exact K.raise _
  · exact K.nop

theorem K.oneVolume (hE : OnlyUpdates part E) (v : V) : K part (oneVolume E c v) := (K.call hE _ (by simp) (by simp)).seq <| (K.cbs c hE _).seq <| (K.scanVolume c hE).seq <| K.cbs c hE _

theorem K.batchBegin (hE : OnlyUpdates part E) (i : Nat) : K part (batchBegin E c i) := by
  intro s
  refine (?_ : K part (if s.fp.mode = .test then Fit.nop else if c.bs = 0 then Fit.raise .zeroDivision else if i % c.bs = 0 then setFp (fun f => { f with lossVal := none }) ;; Fit.cbs E c .volBatchBegin else Fit.nop)) s
  split
  · exact K.nop
  · split
    · exact K.raise _
    · split
      · exact (K.set (by intro; rfl)).seq (K.cbs c hE _)
      · exact K.nop

/-- not in a training epoch, or before the end of the first batch -/
theorem scan_keeps (hE : OnlyUpdates part E) (len : Nat) : ∀ (vs : List V) (i : Nat) (s : S W V P), s.fp.mode ≠ .train ∨ i + vs.length < c.bs ∨ c.bs = 0 →
    part (scanFrom E c len i vs s).2.w = part s.w ∧ (scanFrom E c len i vs s).2.fp.mode = s.fp.mode
  | [], i, s, _ => ⟨rfl, rfl⟩
  | v :: vs, i, s, h => by
    have pre : K part ((setFp fun f => { f with volumeId := some i }) ;; Fit.batchBegin E c i ;; Fit.oneVolume E c v) := (K.set (by intro; rfl)).seq <| (K.batchBegin c hE i).seq <| K.oneVolume c hE v
    have assoc : ∀ a b d : Prog W V P, a ;; b ;; d = (a ;; b) ;; d := by
      intro a b d
      funext s
      simp only [Fit.seq]
      rcases a s with ⟨r, s'⟩
      cases r <;> rfl
    obtain ⟨p1, p2⟩ := pre s
    rw [Fit.scanFrom]
    rw [assoc (Fit.batchBegin E c i), assoc]
    rw [Fit.seq]
    rcases e : ((setFp fun f => { f with volumeId := some i }) ;; Fit.batchBegin E c i ;; Fit.oneVolume E c v) s with ⟨r, s'⟩
    rw [e] at p1 p2
    cases r with
    | error x => exact ⟨p1, p2⟩
    | ok x =>
      simp only at p1 p2 ⊢
      have more : part (scanFrom E c len (i + 1) vs s').2.w = part s.w ∧ (scanFrom E c len (i + 1) vs s').2.fp.mode = s.fp.mode := by
        obtain ⟨q1, q2⟩ := scan_keeps hE len vs (i + 1) s' (by
          rw [p2]
          rcases h with h | h | h
          · exact .inl h
          · simp only [List.length_cons] at h; exact .inr (.inl (by omega))
          · exact .inr (.inr h))
        exact ⟨q1.trans p1, q2.trans p2⟩
      split
      · rename_i hc
        rcases h with h | h | h
        · have be : ∀ s : S W V P, s.fp.mode ≠ .train → part (batchEnd E c s).2.w = part s.w ∧ (batchEnd E c s).2.fp.mode = s.fp.mode := by
            intro s hs
            have a1 : K part (setMean c ;; Fit.cbs E c .volBatchEnd : Prog W V P) := (K.set (by intro; rfl)).seq (K.cbs c hE _)
            obtain ⟨b1, b2⟩ := a1 s
            rw [Fit.batchEnd, assoc, Fit.seq]
            rcases e' : (setMean c ;; Fit.cbs E c .volBatchEnd : Prog W V P) s with ⟨r, s2⟩
            rw [e'] at b1 b2
            cases r with
            | error x => exact ⟨b1, b2⟩
            | ok x =>
              simp only at b1 b2 ⊢
              rw [if_neg (by rw [b2]; exact hs)]
              exact ⟨b1, b2⟩
          obtain ⟨b1, b2⟩ := be s' (by rw [p2]; exact h)
          simp only [Fit.seq]
          rcases e' : batchEnd E c s' with ⟨r, s2⟩
          rw [e'] at b1 b2
          cases r with
          | error x => exact ⟨b1.trans p1, b2.trans p2⟩
          | ok x =>
            simp only at b1 b2 ⊢
            split
            · exact ⟨b1.trans p1, b2.trans p2⟩
            · obtain ⟨q1, q2⟩ := scan_keeps hE len vs (i + 1) s2 (.inl (by rw [b2, p2]; exact h))
              exact ⟨q1.trans (b1.trans p1), q2.trans (b2.trans p2)⟩
        · simp only [List.length_cons] at h
          have := Nat.dvd_of_mod_eq_zero hc.2
          have := Nat.le_of_dvd (by omega) this
          omega
        · rw [h, Nat.mod_zero] at hc
          omega
      · exact more

/-- the part is left alone -/
def K' (part : W → D) (m : Prog W V P) : Prop := ∀ s, part (m s).2.w = part s.w

theorem K.weak {m : Prog W V P} (h : K part m) : K' part m := fun s => (h s).1

theorem K'.seq {m k : Prog W V P} (h : K' part m) (h' : K' part k) : K' part (m ;; k) := by
  intro s
  have a := h s
  simp only [Fit.seq]
  rcases e : m s with ⟨r, s'⟩
  rw [e] at a
  cases r with
  | error x => exact a
  | ok x => exact (h' s').trans a

theorem mode_then {u : Mode} {m : Prog W V P} (h : ∀ s : S W V P, s.fp.mode = u → part (m s).2.w = part s.w) : K' part ((setFp fun f => { f with mode := u }) ;; m) := fun s => h _ rfl

theorem run_keeps (hE : OnlyUpdates part E) (ps : Passives V) (s : S W V P) (h : s.fp.mode ≠ .train ∨ ps.vols.length < c.bs ∨ c.bs = 0) : part (runEpoch E c ps s).2.w = part s.w := by
  obtain ⟨a1, a2⟩ := K.cbs c hE .epochBegin s
  simp only [runEpoch, Fit.seq]
  rcases e : Fit.cbs E c .epochBegin s with ⟨r, s1⟩
  rw [e] at a1 a2
  cases r with
  | error x => exact a1
  | ok x =>
    simp only at a1 a2 ⊢
    have b1 := (scan_keeps c hE ps.len ps.vols 0 s1 (by rw [a2]; simpa using h)).1
    simp only [scanVolumes]
    rcases e' : scanFrom E c ps.len 0 ps.vols s1 with ⟨r, s2⟩
    rw [e'] at b1
    cases r with
    | error x => exact b1.trans a1
    | ok x =>
      simp only at b1 ⊢
      exact (K.cbs c hE .epochEnd s2).1.trans (b1.trans a1)

theorem epochs_keep (hE : OnlyUpdates part E) (trn : Passives V) (val : Option (Passives V)) (h : trn.vols.length < c.bs ∨ c.bs = 0) : ∀ n, K' part (epochs E c trn val n)
  | 0 => fun _ => rfl
  | n + 1 => by
    refine K'.seq ?_ fun s => ?_
    · refine (K.set (u := fun f => { f with epoch := f.epoch + 1 }) (by intro; rfl)).weak.seq <| (K.call hE (.volMode true) (by simp) (by simp)).weak.seq ?_
      have e : ∀ a b d : Prog W V P, a ;; b ;; d = (a ;; b) ;; d := by
        intro a b d
        funext s
        simp only [Fit.seq]
        rcases a s with ⟨r, s'⟩
        cases r <;> rfl
      rw [e]
      refine (mode_then fun s _ => run_keeps c hE trn s (.inr h)).seq ?_
      cases val with
      | none => exact K.nop.weak
      | some val => exact (K.call hE _ (by simp) (by simp)).weak.seq <| mode_then fun s hs => run_keeps c hE val s (.inl (by rw [hs]; simp))
    · split
      · rfl
      · exact epochs_keep hE trn val h n s

end Frozen

end

end Tomopt
