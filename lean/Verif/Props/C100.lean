import Verif.Model.Lazy
import Verif.Lemmas.TrueTracks

/- C100: the memoised variables of scatter batches. -/
namespace Tomopt

noncomputable section
open Real

namespace C100
open Scatter

/-- What a scatter batch should report about one muon with tracks `t` (see C27–C31 for what these numbers are). -/
def direct (tie : Bool) (zr : ℝ × ℝ) (t : Track × Track × (ℝ × ℝ × ℝ)) : SVar → List (Option ℝ)
  | .poca => row3 (Scatter.poca t.1 t.2.1 t.2.2)
  | .dxy => row2 (Scatter.dxy t.1 t.2.1 t.2.2)
  | .thetaIn => [thetaOf t.1.1]
  | .thetaOut => [thetaOf t.2.1.1]
  | .phiIn => [some (phiOf t.1.1.1 t.1.1.2.1)]
  | .phiOut => [some (phiOf t.2.1.1.1 t.2.1.1.2.1)]
  | .dtheta =>
    match thetaOf t.1.1, thetaOf t.2.1.1 with
    | some a, some b => [some (dthetaDphi tie a (phiOf t.1.1.1 t.1.1.2.1) b (phiOf t.2.1.1.1 t.2.1.1.2.1)).1]
    | _, _ => [none]
  | .dphi =>
    match thetaOf t.1.1, thetaOf t.2.1.1 with
    | some a, some b => [some (dthetaDphi tie a (phiOf t.1.1.1 t.1.1.2.1) b (phiOf t.2.1.1.1 t.2.1.1.2.1)).2]
    | _, _ => [none]
  | .total => [thetaMsc t.1.1 t.2.1.1]
  | .thetaXYIn =>
    match thetaOf t.1.1 with
    | some a => row2 (Scatter.thetaXY a (phiOf t.1.1.1 t.1.1.2.1))
    | none => [none, none]
  | .thetaXYOut =>
    match thetaOf t.2.1.1 with
    | some a => row2 (Scatter.thetaXY a (phiOf t.2.1.1.1 t.2.1.1.2.1))
    | none => [none, none]
  | .dthetaXY =>
    match thetaOf t.1.1, thetaOf t.2.1.1 with
    | some a, some b => row2 (Scatter.dthetaXY (Scatter.thetaXY a (phiOf t.1.1.1 t.1.1.2.1)) (Scatter.thetaXY b (phiOf t.2.1.1.1 t.2.1.1.2.1)))
    | _, _ => [none, none]
  | .xyzIn => row3O (Scatter.xyzIn zr t.1)
  | .xyzOut => row3O (Scatter.xyzOut zr t.2.1)

/-- … and about all muons -/
def table (tie : Bool) (zr : ℝ × ℝ) (T : List (Track × Track × (ℝ × ℝ × ℝ))) (v : SVar) : Rows := T.map fun t => direct tie zr t v

/-- the answer to a request, without any memory -/
def answer (tie : Bool) (zr : ℝ × ℝ) (T : List (Track × Track × (ℝ × ℝ × ℝ))) (unc : SVar → Rows → Except Err Rows) : Ask → Except Err Rows
  | .value v => .ok (table tie zr T v)
  | .uncertainty v => unc v (table tie zr T v)

/-- the variables a variable is made from, and itself -/
def needs : SVar → List SVar
  | .dtheta => [.thetaIn, .phiIn, .thetaOut, .phiOut, .dtheta, .dphi]
  | .dphi => [.thetaIn, .phiIn, .thetaOut, .phiOut, .dtheta, .dphi]
  | .thetaXYIn => [.thetaIn, .phiIn, .thetaXYIn]
  | .thetaXYOut => [.thetaOut, .phiOut, .thetaXYOut]
  | .dthetaXY => [.thetaIn, .phiIn, .thetaXYIn, .thetaOut, .phiOut, .thetaXYOut, .dthetaXY]
  | v => [v]

def Ask.var : Ask → SVar
  | .value v => v
  | .uncertainty v => v

/-- the memory holds what should be reported, every variable was computed at most once -/
structure Inv (tie : Bool) (zr : ℝ × ℝ) (T : List (Track × Track × (ℝ × ℝ × ℝ))) (unc : SVar → Rows → Except Err Rows) (s : Memo) : Prop where
  tracks : s.tracks = T
  range : s.zr = zr
  val : ∀ v r, s.val v = some r → r = table tie zr T v
  uncs : ∀ v u, s.unc v = some u → unc v (table tie zr T v) = .ok u
  log : s.log.Nodup
  logged : ∀ v, v ∈ s.log ↔ (s.val v).isSome = true

variable {tie : Bool} {zr : ℝ × ℝ} {T : List (Track × Track × (ℝ × ℝ × ℝ))} {unc : SVar → Rows → Except Err Rows}

/-- both or none -/
def Paired (s : Memo) : Prop := (s.val .dtheta).isSome = (s.val .dphi).isSome

theorem Inv.store {s : Memo} (h : Inv tie zr T unc s) (v : SVar) (hv : s.val v = none) : Inv tie zr T unc (s.store v (table tie zr T v)) := by
  refine ⟨h.tracks, h.range, ?_, ?_, ?_, ?_⟩
  · intro w r hw
    simp only [Memo.store] at hw
    split at hw
    · rename_i e; subst e; simpa using hw.symm
    · exact h.val w r hw
  · intro w u hw
    simp only [Memo.store] at hw
    split at hw
    · simp at hw
    · exact h.uncs w u hw
  · have : v ∉ s.log := by rw [h.logged, hv]; simp
    simp only [Memo.store]
    rw [List.nodup_append]
    refine ⟨h.log, by simp, ?_⟩
    intro a ha b hb
    simp only [List.mem_singleton] at hb
    subst hb
    rintro rfl
    exact this ha
  · intro w
    simp only [Memo.store, List.mem_append, List.mem_singleton, h.logged]
    split
    · simp_all
    · simp_all

/-- what a step does: it returns the right value and leaves a good memory that contains everything it contained, and beyond it only the listed variables -/
structure Good (tie : Bool) (zr : ℝ × ℝ) (T : List (Track × Track × (ℝ × ℝ × ℝ))) (unc : SVar → Rows → Except Err Rows) (s : Memo) (v : SVar) (may : List SVar)
    (r : Rows × Memo) : Prop where
  out : r.1 = table tie zr T v
  inv : Inv tie zr T unc r.2
  paired : Paired s → Paired r.2
  only : ∀ w ∈ r.2.log, w ∈ s.log ∨ w ∈ may
  keeps : ∀ w, w ∉ may → r.2.val w = s.val w

theorem once_good {s : Memo} (h : Inv tie zr T unc s) (v : SVar) (hv1 : v ≠ .dtheta) (hv2 : v ≠ .dphi) (r : Rows) (hr : r = table tie zr T v) :
    Good tie zr T unc s v [v] (s.once v r) := by
  unfold Memo.once
  cases hv : s.val v with
  | some x => exact ⟨h.val v x hv, h, id, fun w hw => Or.inl hw, fun _ _ => rfl⟩
  | none =>
    subst hr
    refine ⟨rfl, h.store v hv, ?_, ?_, ?_⟩
    · intro hp
      simp only [Paired, Memo.store, if_neg (Ne.symm hv1), if_neg (Ne.symm hv2)] at hp ⊢
      exact hp
    · intro w hw
      simpa [Memo.store] using hw
    · intro w hw
      simp only [List.mem_singleton] at hw
      simp [Memo.store, hw]

theorem thetaIn_good {s : Memo} (h : Inv tie zr T unc s) : Good tie zr T unc s .thetaIn [.thetaIn] s.thetaIn :=
  once_good h _ (by simp) (by simp) _ (by rw [h.tracks]; rfl)
theorem thetaOut_good {s : Memo} (h : Inv tie zr T unc s) : Good tie zr T unc s .thetaOut [.thetaOut] s.thetaOut :=
  once_good h _ (by simp) (by simp) _ (by rw [h.tracks]; rfl)
theorem phiIn_good {s : Memo} (h : Inv tie zr T unc s) : Good tie zr T unc s .phiIn [.phiIn] s.phiIn :=
  once_good h _ (by simp) (by simp) _ (by rw [h.tracks]; rfl)
theorem phiOut_good {s : Memo} (h : Inv tie zr T unc s) : Good tie zr T unc s .phiOut [.phiOut] s.phiOut :=
  once_good h _ (by simp) (by simp) _ (by rw [h.tracks]; rfl)

theorem zipWith_table (f : List (Option ℝ) → List (Option ℝ) → List (Option ℝ)) (a b c : SVar)
    (hf : ∀ t, f (direct tie zr t a) (direct tie zr t b) = direct tie zr t c) : List.zipWith f (table tie zr T a) (table tie zr T b) = table tie zr T c := by
  unfold table
  rw [List.zipWith_map]
  induction T with
  | nil => rfl
  | cons t T ih => simp [hf]

theorem zip4_table {β : Type} (f : List (Option ℝ) → List (Option ℝ) → List (Option ℝ) → List (Option ℝ) → β) (a b c d : SVar) :
    zip4 f (table tie zr T a) (table tie zr T b) (table tie zr T c) (table tie zr T d) =
      T.map fun t => f (direct tie zr t a) (direct tie zr t b) (direct tie zr t c) (direct tie zr t d) := by
  unfold table
  induction T with
  | nil => rfl
  | cons t T ih => simp only [List.map_cons, zip4, ih]

theorem thetaXYIn_good {s : Memo} (h : Inv tie zr T unc s) : Good tie zr T unc s .thetaXYIn (needs .thetaXYIn) s.thetaXYIn := by
  unfold Memo.thetaXYIn
  cases hv : s.val .thetaXYIn with
  | some x => exact ⟨h.val _ x hv, h, id, fun w hw => Or.inl hw, fun _ _ => rfl⟩
  | none =>
    have g1 := thetaIn_good h
    have g2 := phiIn_good g1.inv
    simp only
    rw [g1.out, g2.out, zipWith_table thetaXYRow .thetaIn .phiIn .thetaXYIn (by
      intro t; simp only [direct]; cases thetaOf t.1.1 <;> rfl)]
    have hn : (s.thetaIn.2.phiIn.2).val .thetaXYIn = none := by rw [g2.keeps _ (by simp), g1.keeps _ (by simp), hv]
    refine ⟨rfl, g2.inv.store _ hn, fun hp => ?_, ?_, ?_⟩
    · have := g2.paired (g1.paired hp)
      simpa [Paired, Memo.store] using this
    · intro w hw
      simp only [Memo.store, List.mem_append, List.mem_singleton] at hw
      rcases hw with hw | hw
      · rcases g2.only w hw with hw | hw
        · rcases g1.only w hw with hw | hw
          · exact Or.inl hw
          · right; simp_all [needs]
        · right; simp_all [needs]
      · right; simp_all [needs]
    · intro w hw
      simp only [needs, List.mem_cons, List.not_mem_nil, or_false, not_or] at hw
      simp only [Memo.store, if_neg hw.2.2]
      rw [g2.keeps _ (by simp [hw]), g1.keeps _ (by simp [hw])]

theorem thetaXYOut_good {s : Memo} (h : Inv tie zr T unc s) : Good tie zr T unc s .thetaXYOut (needs .thetaXYOut) s.thetaXYOut := by
  unfold Memo.thetaXYOut
  cases hv : s.val .thetaXYOut with
  | some x => exact ⟨h.val _ x hv, h, id, fun w hw => Or.inl hw, fun _ _ => rfl⟩
  | none =>
    have g1 := thetaOut_good h
    have g2 := phiOut_good g1.inv
    simp only
    rw [g1.out, g2.out, zipWith_table thetaXYRow .thetaOut .phiOut .thetaXYOut (by
      intro t; simp only [direct]; cases thetaOf t.2.1.1 <;> rfl)]
    have hn : (s.thetaOut.2.phiOut.2).val .thetaXYOut = none := by rw [g2.keeps _ (by simp), g1.keeps _ (by simp), hv]
    refine ⟨rfl, g2.inv.store _ hn, fun hp => ?_, ?_, ?_⟩
    · have := g2.paired (g1.paired hp)
      simpa [Paired, Memo.store] using this
    · intro w hw
      simp only [Memo.store, List.mem_append, List.mem_singleton] at hw
      rcases hw with hw | hw
      · rcases g2.only w hw with hw | hw
        · rcases g1.only w hw with hw | hw
          · exact Or.inl hw
          · right; simp_all [needs]
        · right; simp_all [needs]
      · right; simp_all [needs]
    · intro w hw
      simp only [needs, List.mem_cons, List.not_mem_nil, or_false, not_or] at hw
      simp only [Memo.store, if_neg hw.2.2]
      rw [g2.keeps _ (by simp [hw]), g1.keeps _ (by simp [hw])]

/-- the joint computation of the two angular differences -/
theorem setDthetaDphi_good {s : Memo} (h : Inv tie zr T unc s) (h1 : s.val .dtheta = none) (h2 : s.val .dphi = none) :
    Inv tie zr T unc (s.setDthetaDphi tie) ∧ (s.setDthetaDphi tie).val .dtheta = some (table tie zr T .dtheta) ∧
      (s.setDthetaDphi tie).val .dphi = some (table tie zr T .dphi) ∧
      (∀ w ∈ (s.setDthetaDphi tie).log, w ∈ s.log ∨ w ∈ needs .dtheta) ∧ ∀ w, w ∉ needs .dtheta → (s.setDthetaDphi tie).val w = s.val w := by
  have g1 := thetaIn_good h
  have g2 := phiIn_good g1.inv
  have g3 := thetaOut_good g2.inv
  have g4 := phiOut_good g3.inv
  unfold Memo.setDthetaDphi
  simp only
  rw [g1.out, g2.out, g3.out, g4.out, zip4_table, List.map_map, List.map_map]
  have e1 : (T.map ((fun x : Option ℝ × Option ℝ => [x.1]) ∘ fun t => dthetaDphiRow tie (direct tie zr t .thetaIn) (direct tie zr t .phiIn) (direct tie zr t .thetaOut)
      (direct tie zr t .phiOut))) = table tie zr T .dtheta := by
    unfold table
    apply List.map_congr_left
    intro t _
    simp only [Function.comp, direct]
    cases thetaOf t.1.1 <;> cases thetaOf t.2.1.1 <;> rfl
  have e2 : (T.map ((fun x : Option ℝ × Option ℝ => [x.2]) ∘ fun t => dthetaDphiRow tie (direct tie zr t .thetaIn) (direct tie zr t .phiIn) (direct tie zr t .thetaOut)
      (direct tie zr t .phiOut))) = table tie zr T .dphi := by
    unfold table
    apply List.map_congr_left
    intro t _
    simp only [Function.comp, direct]
    cases thetaOf t.1.1 <;> cases thetaOf t.2.1.1 <;> rfl
  rw [e1, e2]
  have k : ∀ w, w ∉ [SVar.thetaIn, .phiIn, .thetaOut, .phiOut] → s.thetaIn.2.phiIn.2.thetaOut.2.phiOut.2.val w = s.val w := by
    intro w hw
    simp only [List.mem_cons, List.not_mem_nil, or_false, not_or] at hw
    rw [g4.keeps _ (by simp [hw]), g3.keeps _ (by simp [hw]), g2.keeps _ (by simp [hw]), g1.keeps _ (by simp [hw])]
  have i5 := g4.inv.store .dtheta (by rw [k _ (by simp), h1])
  have i6 := i5.store .dphi (by simp only [Memo.store]; rw [if_neg (by simp), k _ (by simp), h2])
  refine ⟨i6, by simp [Memo.store], by simp [Memo.store], ?_, ?_⟩
  · intro w hw
    simp only [Memo.store, List.mem_append, List.mem_singleton] at hw
    rcases hw with (hw | hw) | hw
    · rcases g4.only w hw with hw | hw
      · rcases g3.only w hw with hw | hw
        · rcases g2.only w hw with hw | hw
          · rcases g1.only w hw with hw | hw
            · exact Or.inl hw
            · right; simp_all [needs]
          · right; simp_all [needs]
        · right; simp_all [needs]
      · right; simp_all [needs]
    · right; simp_all [needs]
    · right; simp_all [needs]
  · intro w hw
    simp only [needs, List.mem_cons, List.not_mem_nil, or_false, not_or] at hw
    simp only [Memo.store, if_neg hw.2.2.2.2.2, if_neg hw.2.2.2.2.1]
    exact k w (by simp [hw])

/-- reading a variable -/
theorem get_good {s : Memo} (h : Inv tie zr T unc s) (hp : Paired s) (v : SVar) : Good tie zr T unc s v (needs v) (s.get tie v) := by
  cases v with
  | poca => exact once_good h _ (by simp) (by simp) _ (by rw [h.tracks]; rfl)
  | dxy => exact once_good h _ (by simp) (by simp) _ (by rw [h.tracks]; rfl)
  | thetaIn => exact thetaIn_good h
  | thetaOut => exact thetaOut_good h
  | phiIn => exact phiIn_good h
  | phiOut => exact phiOut_good h
  | total => exact once_good h _ (by simp) (by simp) _ (by rw [h.tracks]; rfl)
  | xyzIn => exact once_good h _ (by simp) (by simp) _ (by rw [h.tracks, h.range]; rfl)
  | xyzOut => exact once_good h _ (by simp) (by simp) _ (by rw [h.tracks, h.range]; rfl)
  | thetaXYIn => exact thetaXYIn_good h
  | thetaXYOut => exact thetaXYOut_good h
  | dtheta =>
    simp only [Memo.get]
    cases hv : s.val .dtheta with
    | some x => exact ⟨h.val _ x hv, h, id, fun w hw => Or.inl hw, fun _ _ => rfl⟩
    | none =>
      have h2 : s.val .dphi = none := by simpa [Paired, hv] using hp.symm
      obtain ⟨a, b, c, d, e⟩ := setDthetaDphi_good h hv h2
      exact ⟨by simp [b], a, fun _ => by simp [Paired, b, c], d, e⟩
  | dphi =>
    simp only [Memo.get]
    cases hv : s.val .dphi with
    | some x => exact ⟨h.val _ x hv, h, id, fun w hw => Or.inl hw, fun _ _ => rfl⟩
    | none =>
      have h2 : s.val .dtheta = none := by simpa [Paired, hv] using hp
      obtain ⟨a, b, c, d, e⟩ := setDthetaDphi_good h h2 hv
      exact ⟨by simp [c], a, fun _ => by simp [Paired, b, c], d, e⟩
  | dthetaXY =>
    simp only [Memo.get]
    cases hv : s.val .dthetaXY with
    | some x => exact ⟨h.val _ x hv, h, id, fun w hw => Or.inl hw, fun _ _ => rfl⟩
    | none =>
      have g1 := thetaXYIn_good h
      have g2 := thetaXYOut_good g1.inv
      simp only
      rw [g1.out, g2.out, zipWith_table dthetaXYRow .thetaXYIn .thetaXYOut .dthetaXY (by
        intro t; simp only [direct]; cases thetaOf t.1.1 <;> cases thetaOf t.2.1.1 <;> rfl)]
      have hn : (s.thetaXYIn.2.thetaXYOut.2).val .dthetaXY = none := by rw [g2.keeps _ (by simp [needs]), g1.keeps _ (by simp [needs]), hv]
      refine ⟨rfl, g2.inv.store _ hn, fun hp => ?_, ?_, ?_⟩
      · have := g2.paired (g1.paired hp)
        simpa [Paired, Memo.store] using this
      · intro w hw
        simp only [Memo.store, List.mem_append, List.mem_singleton] at hw
        rcases hw with hw | hw
        · rcases g2.only w hw with hw | hw
          · rcases g1.only w hw with hw | hw
            · exact Or.inl hw
            · right; simp only [needs, List.mem_cons, List.not_mem_nil, or_false] at hw ⊢; tauto
          · right; simp only [needs, List.mem_cons, List.not_mem_nil, or_false] at hw ⊢; tauto
        · right; simp_all [needs]
      · intro w hw
        simp only [needs, List.mem_cons, List.not_mem_nil, or_false, not_or] at hw
        simp only [Memo.store, if_neg hw.2.2.2.2.2.2]
        rw [g2.keeps _ (by simp [needs, hw]), g1.keeps _ (by simp [needs, hw])]

/-- any request -/
theorem ask_good {s : Memo} (h : Inv tie zr T unc s) (hp : Paired s) (q : Ask) :
    (s.ask tie unc q).1 = answer tie zr T unc q ∧ Inv tie zr T unc (s.ask tie unc q).2 ∧ Paired (s.ask tie unc q).2 ∧
      ∀ w ∈ (s.ask tie unc q).2.log, w ∈ s.log ∨ w ∈ needs (Ask.var q) := by
  cases q with
  | value v =>
    have g := get_good h hp v
    exact ⟨by simp [Memo.ask, answer, g.out], g.inv, g.paired hp, g.only⟩
  | uncertainty v =>
    simp only [Memo.ask, Memo.getUnc]
    cases hu : s.unc v with
    | some u => exact ⟨by simp [answer, h.uncs v u hu], h, hp, fun w hw => Or.inl hw⟩
    | none =>
      have g := get_good h hp v
      simp only
      rw [g.out]
      cases hx : unc v (table tie zr T v) with
      | error e => exact ⟨by simp [answer, hx], g.inv, g.paired hp, g.only⟩
      | ok u =>
        refine ⟨by simp [answer, hx], ⟨g.inv.tracks, g.inv.range, g.inv.val, ?_, g.inv.log, g.inv.logged⟩, g.paired hp, g.only⟩
        intro w u' hw
        simp only at hw
        split at hw
        · rename_i e; subst e; simp at hw; subst hw; exact hx
        · exact g.inv.uncs w u' hw

theorem asks_good : ∀ (qs : List Ask) {s : Memo} (_ : Inv tie zr T unc s) (_ : Paired s),
    (s.asks tie unc qs).1 = qs.map (answer tie zr T unc) ∧ Inv tie zr T unc (s.asks tie unc qs).2 ∧
      ∀ w ∈ (s.asks tie unc qs).2.log, w ∈ s.log ∨ ∃ q ∈ qs, w ∈ needs (Ask.var q)
  | [], s, h, _ => ⟨rfl, h, fun w hw => Or.inl hw⟩
  | q :: qs, s, h, hp => by
    obtain ⟨a1, a2, a3, a4⟩ := ask_good h hp q
    obtain ⟨b1, b2, b3⟩ := asks_good qs a2 a3
    simp only [Memo.asks]
    refine ⟨by simp [a1, b1], b2, ?_⟩
    intro w hw
    rcases b3 w hw with hw | ⟨q', hq, hw⟩
    · rcases a4 w hw with hw | hw
      · exact Or.inl hw
      · exact Or.inr ⟨q, by simp, hw⟩
    · exact Or.inr ⟨q', by simp [hq], hw⟩

/-- **C100.** Whatever a user asks a scatter batch, in whatever order and however often, also if uncertainties raise in between: every answer is the one a fresh
scatter batch would give, no variable is computed twice, and none that no request needs. -/
theorem history_free (tie : Bool) (zr : ℝ × ℝ) (T : List (Track × Track × (ℝ × ℝ × ℝ))) (unc : SVar → Rows → Except Err Rows) (qs : List Ask) :
    ((Memo.fresh T zr).asks tie unc qs).1 = qs.map (answer tie zr T unc) ∧
    (((Memo.fresh T zr).asks tie unc qs).2.log).Nodup ∧
    ∀ w ∈ ((Memo.fresh T zr).asks tie unc qs).2.log, ∃ q ∈ qs, w ∈ needs (Ask.var q) := by
  have h : Inv tie zr T unc (Memo.fresh T zr) := ⟨rfl, rfl, by simp [Memo.fresh], by simp [Memo.fresh], by simp [Memo.fresh], by simp [Memo.fresh]⟩
  obtain ⟨a, b, c⟩ := asks_good qs h (by simp [Paired, Memo.fresh])
  refine ⟨a, b.log, fun w hw => ?_⟩
  rcases c w hw with hw | hw
  · simp [Memo.fresh] at hw
  · exact hw

/-- Non-vacuity: three requests to a scatter batch with one muon that was deflected by 45 degrees, one of which raises. -/
example : ((Memo.fresh [(((0, 0, -1), (0, 0, 4)), ((1, 0, -1), (0, 0, 2)), (2, 0, 0))] (2, 3)).asks true (fun _ _ => .error .attributeError)
    [.value .phiOut, .uncertainty .phiOut, .value .phiOut]).1 = [.ok [[some 0]], .error .attributeError, .ok [[some 0]]] := by
  rw [(history_free _ _ _ _ _).1]
  simp [answer, table, direct, phiOf]

/-! ### A second scatter batch of the same muons -/

/-- **C100, one scatter batch.** Its number of muons is the number of its rows, right after it was made. -/
theorem one (gen : Bool) (V : Volume) (mu mu1 : Batch Row) (o : Obj) (hok : HitsOk mu.muons.length mu.hits) (hne : mu.hits ≠ [])
    (h : construct gen V mu = .ok (mu1, o)) : o.len mu1 = o.rows.length := by
  unfold construct at h
  cases hb : build gen V mu with
  | error e => rw [hb] at h; simp at h
  | ok r =>
    obtain ⟨s, cs⟩ := r
    rw [hb] at h
    simp only [Except.ok.injEq, Prod.mk.injEq] at h
    obtain ⟨rfl, rfl⟩ := h
    unfold build at hb
    obtain ⟨h, hh, hb⟩ := bind_ok hb
    obtain ⟨H, hH, hb⟩ := bind_ok hb
    obtain ⟨lw, hlw, hb⟩ := bind_ok hb
    obtain ⟨zr, hzr, hb⟩ := bind_ok hb
    obtain ⟨ts, hts, hb⟩ := bind_ok hb
    obtain ⟨s', hs', hb⟩ := bind_ok hb
    obtain ⟨cs', hcs, hb⟩ := bind_ok hb
    simp only [Except.ok.injEq, Prod.mk.injEq] at hb
    obtain ⟨rfl, rfl⟩ := hb
    obtain ⟨cs, h1, h2⟩ := C27.batch_never_singular gen lw zr ⟨mu, H, ts⟩ s' ⟨hok, hne, ⟨h, hh, hH⟩, hts⟩ hs'
    rw [hcs] at h1
    simp only [Except.ok.injEq] at h1
    subst h1
    exact h2.symm

/-- **C100, the same scatter batch again.** A second scatter batch of the same kind made from the same muons in the same volume removes nothing, changes nothing about
the muons and has the same rows: the first one remains valid. -/
theorem again (gen : Bool) (V : Volume) (mu mu1 : Batch Row) (o : Obj) (hok : HitsOk mu.muons.length mu.hits) (hne : mu.hits ≠ [])
    (h : construct gen V mu = .ok (mu1, o)) : construct gen V mu1 = .ok (mu1, o) := by
  unfold construct at h
  cases hb : build gen V mu with
  | error e => rw [hb] at h; simp at h
  | ok r =>
    obtain ⟨s, cs⟩ := r
    rw [hb] at h
    simp only [Except.ok.injEq, Prod.mk.injEq] at h
    obtain ⟨rfl, rfl⟩ := h
    unfold build at hb
    obtain ⟨h, hh, hb⟩ := bind_ok hb
    obtain ⟨H, hH, hb⟩ := bind_ok hb
    obtain ⟨lw, hlw, hb⟩ := bind_ok hb
    obtain ⟨zr, hzr, hb⟩ := bind_ok hb
    obtain ⟨ts, hts, hb⟩ := bind_ok hb
    obtain ⟨s', hs', hb⟩ := bind_ok hb
    obtain ⟨cs', hcs, hb⟩ := bind_ok hb
    simp only [Except.ok.injEq, Prod.mk.injEq] at hb
    obtain ⟨rfl, rfl⟩ := hb
    have hc : C32.Consistent gen lw ⟨mu, H, ts⟩ := ⟨hok, hne, ⟨h, hh, hH⟩, hts⟩
    have hn : mu.muons.length ≠ 1 ∨ (keepMask gen lw zr ⟨mu, H, ts⟩).all id = true := by
      by_contra hx
      push Not at hx
      have := C32.single_violated gen lw zr ⟨mu, H, ts⟩ hc hx.1 (by simpa using hx.2)
      rw [hs'] at this
      simp at this
    obtain ⟨_, s'', hf, hc', _, _, _, hk⟩ := C32.filter_spec_partial gen lw zr _ hc hn
    rw [hs'] at hf
    simp only [Except.ok.injEq] at hf
    subst hf
    obtain ⟨_, _, ⟨h', hh', hH'⟩, hts'⟩ := hc'
    have hf : filterScatters gen lw zr ⟨s'.mu, s'.hits, s'.tracks⟩ = .ok s' := by
      unfold filterScatters
      simp only [hk, if_true]
    simp only [construct, build, bind, Except.bind, hh', hH', hlw, hzr, hts', hf, hcs]

/-- two muons, recorded as bent by 45 degrees, truly straight -/
def twins : Batch Row where
  muons := [⟨0, 0.5, 0.5, 0, 5, 0, 0⟩, ⟨1, 0.5, 0.5, 0, 5, 0, 0⟩]
  removed := []
  hist := []
  hits :=
    [("above", [("reco_xyz", [[C32.num3 0.5 0.5 4, C32.num3 0.5 0.5 4], [C32.num3 0.5 0.5 3, C32.num3 0.5 0.5 3]]),
        ("gen_xyz", [[C32.num3 0.5 0.5 4, C32.num3 0.5 0.5 4], [C32.num3 0.5 0.5 3, C32.num3 0.5 0.5 3]]),
        ("unc_xyz", [[C32.num3 1 1 0, C32.num3 1 1 0], [C32.num3 1 1 0, C32.num3 1 1 0]]), ("eff", [[[.num 1], [.num 1]], [[.num 1], [.num 1]]])]),
     ("below", [("reco_xyz", [[C32.num3 0.5 0.5 1, C32.num3 0.5 0.5 1], [C32.num3 1.5 0.5 0, C32.num3 1.5 0.5 0]]),
        ("gen_xyz", [[C32.num3 0.5 0.5 1, C32.num3 0.5 0.5 1], [C32.num3 0.5 0.5 0, C32.num3 0.5 0.5 0]]),
        ("unc_xyz", [[C32.num3 1 1 0, C32.num3 1 1 0], [C32.num3 1 1 0, C32.num3 1 1 0]]), ("eff", [[[.num 1], [.num 1]], [[.num 1], [.num 1]]])])]

def cell : Volume := ⟨[.passive ⟨(1, 1), 3, 1, 1, "pdg", none⟩], none, [], []⟩

/-- the hits of the twins -/
def twinHits : Hits :=
  let r := [(.num 0.5, .num 0.5, .num 4), (.num 0.5, .num 0.5, .num 3), (.num 0.5, .num 0.5, .num 1), (.num 1.5, .num 0.5, .num 0)]
  let g := [(.num 0.5, .num 0.5, .num 4), (.num 0.5, .num 0.5, .num 3), (.num 0.5, .num 0.5, .num 1), (.num 0.5, .num 0.5, .num 0)]
  let u := [(.num 1, .num 1, .num 0), (.num 1, .num 1, .num 0), (.num 1, .num 1, .num 0), (.num 1, .num 1, .num 0)]
  let e := [.num 1, .num 1, .num 1, .num 1]
  ⟨2, 2, [r, r], [g, g], [u, u], [e, e]⟩

theorem twin_hits : ∃ h, twins.getHits none none = .ok h ∧ extract h = .ok twinHits := ⟨_, rfl, rfl⟩

theorem two_points (a0 b0 z0 a1 b1 z1 : ℝ) (h : z0 ≠ z1) :
    trajectory (1, 1) [((.num a0, .num b0, .num z0), (.num 1, .num 1, .num 0)), ((.num a1, .num b1, .num z1), (.num 1, .num 1, .num 0))] =
      .ok (some ((a1 - a0, b1 - b0, z1 - z0), (a0, b0, z0))) := by
  have hz : z1 - z0 ≠ 0 := sub_ne_zero.mpr h.symm
  exact C26.exact_line (1, 1) ((a0, b0, z0), 1, 1) ((a1, b1, z1), 1, 1) [] (by simp) h (a0 - (a1 - a0) / (z1 - z0) * z0) ((a1 - a0) / (z1 - z0))
    (b0 - (b1 - b0) / (z1 - z0) * z0) ((b1 - b0) / (z1 - z0)) (by
      intro m hm
      simp only [List.mem_cons, List.not_mem_nil, or_false] at hm
      rcases hm with rfl | rfl
      · constructor <;> simp
      · constructor <;> field_simp <;> ring)

theorem two_points' (a0 b0 z0 a1 b1 z1 : ℝ) (h : z0 ≠ z1) :
    trajectory (1, 1) [((.num a0, .num b0, .num z0), (.num 1, .num 1, .num 1)), ((.num a1, .num b1, .num z1), (.num 1, .num 1, .num 1))] =
      .ok (some ((a1 - a0, b1 - b0, z1 - z0), (a0, b0, z0))) := by
  have := trajectory_ones (1, 1) [(.num a0, .num b0, .num z0), (.num a1, .num b1, .num z1)]
  simp only [List.map_cons, List.map_nil] at this
  rw [this, two_points _ _ _ _ _ _ h]

def bentTracks : Option Track × Option Track := (some ((0, 0, -1), (0.5, 0.5, 4)), some ((1, 0, -1), (0.5, 0.5, 1)))
def straightTracks : Option Track × Option Track := (some ((0, 0, -1), (0.5, 0.5, 4)), some ((0, 0, -1), (0.5, 0.5, 1)))

theorem twin_reco : computeTracks false (1, 1) twinHits = .ok [bentTracks, bentTracks] := by
  have q : (XF.num 1).div (.num 1) = .num 1 := by simp [XF.div, XF.quot]
  have q0 : (XF.num 0).div (.num 1) = .num 0 := by simp [XF.div, XF.quot]
  simp only [computeTracks, Hits.rows, twinHits, List.zip_cons_cons, List.zip_nil_right, mapE, rowTracks, Bool.false_eq_true, if_false, muonTracks, List.take_succ_cons,
    List.take_zero, List.drop_succ_cons, List.drop_zero, List.zipWith_cons_cons, List.zipWith_nil_right, scaleUnc, q, q0,
    two_points 0.5 0.5 4 0.5 0.5 3 (by norm_num), two_points 0.5 0.5 1 1.5 0.5 0 (by norm_num), bind, Except.bind, bentTracks]
  norm_num

theorem twin_gen : computeTracks true (1, 1) twinHits = .ok [straightTracks, straightTracks] := by
  simp only [computeTracks, Hits.rows, twinHits, List.zip_cons_cons, List.zip_nil_right, mapE, rowTracks, if_true, muonTracksGen, List.take_succ_cons,
    List.take_zero, List.drop_succ_cons, List.drop_zero, List.map_cons, List.map_nil, ones3,
    two_points' 0.5 0.5 4 0.5 0.5 3 (by norm_num), two_points' 0.5 0.5 1 0.5 0.5 0 (by norm_num), bind, Except.bind, straightTracks]
  norm_num

theorem twin_ok (gen : Bool) (t) (h : computeTracks gen (1, 1) twinHits = .ok t) : C32.Consistent gen (1, 1) ⟨twins, twinHits, t⟩ := by
  refine ⟨?_, by simp [twins], twin_hits, h⟩
  intro pv hpv
  simp only [twins, List.mem_cons, List.not_mem_nil, or_false] at hpv
  rcases hpv with rfl | rfl <;> simp [twins]

theorem cell_lw : cell.lw = .ok (1, 1) := rfl
theorem cell_zr : cell.zRange = .ok (2, 3) := by
  have : cell.zRange = .ok (3 - 1, 3) := rfl
  rw [this]; norm_num

theorem bent_usable (u : List X3) (hu : u = [(.num 1, .num 1, .num 0), (.num 1, .num 1, .num 0), (.num 1, .num 1, .num 0), (.num 1, .num 1, .num 0)]) :
    keepMuon (1, 1) (2, 3) bentTracks u = true := by
  rw [C32.kept_iff]
  have hs : sin 1e-5 ≤ 1e-5 := sin_le (by norm_num)
  refine ⟨_, _, rfl, ?_, ?_, ?_, ⟨1, ?_, ?_, ?_⟩, ⟨-1, ?_, ?_, ?_⟩, ?_⟩
  · simp only [C32.Steep, len3]
    norm_num at hs ⊢
    linarith
  · simp only [C32.Steep, len3]
    have : sqrt (1 ^ 2 + 0 ^ 2 + (-1 : ℝ) ^ 2) ≤ 2 := by
      rw [sqrt_le_left (by norm_num)]
      norm_num
    have h0 : 0 ≤ sqrt (1 ^ 2 + 0 ^ 2 + (-1 : ℝ) ^ 2) := sqrt_nonneg _
    have h1 := mul_le_mul hs this h0 (by norm_num)
    norm_num at h1 ⊢
    linarith
  · rintro ⟨c, _, h⟩
    simp [scale3] at h
  · norm_num [Track.point]
  · norm_num [Track.point, abs_lt]
  · norm_num [Track.point, abs_lt]
  · norm_num [Track.point]
  · norm_num [Track.point, abs_lt]
  · norm_num [Track.point, abs_lt]
  · subst hu
    intro u hu
    simp only [List.mem_cons, List.not_mem_nil, or_false, or_self] at hu
    subst hu
    exact ⟨Or.inr ⟨1, rfl, by norm_num⟩, Or.inr ⟨1, rfl, by norm_num⟩⟩

theorem straight_dropped (u : List X3) : keepMuon (1, 1) (2, 3) straightTracks u = false := by
  rw [Bool.eq_false_iff, ne_eq, C32.kept_iff]
  rintro ⟨a, b, h, _, _, hs, _⟩
  simp only [straightTracks, Prod.mk.injEq, Option.some.injEq] at h
  obtain ⟨rfl, rfl⟩ := h
  exact hs ⟨1, one_pos, by simp [scale3]⟩

/-- **C100, two scatter batches (violated).** Making a scatter batch from the true hits of the muons of an existing scatter batch removes muons from the latter: it
then says that it has no muons, although its variables have two rows. -/
theorem second_violated : ∃ mu1 mu2 o1 o2, construct false cell twins = .ok (mu1, o1) ∧ construct true cell mu1 = .ok (mu2, o2) ∧
    o1.rows.length = 2 ∧ o1.len mu1 = 2 ∧ o1.len mu2 = 0 := by
  obtain ⟨h, hh, hH⟩ := twin_hits
  have m1 : keepMask false (1, 1) (2, 3) ⟨twins, twinHits, [bentTracks, bentTracks]⟩ = [true, true] := by
    simp only [keepMask, Hits.rows, twinHits, List.zip_cons_cons, List.zip_nil_right, List.zipWith_cons_cons, List.zipWith_nil_right, rowUnc, Bool.false_eq_true, if_false]
    rw [bent_usable _ rfl]
  have m2 : keepMask true (1, 1) (2, 3) ⟨twins, twinHits, [straightTracks, straightTracks]⟩ = [false, false] := by
    simp only [keepMask, Hits.rows, twinHits, List.zip_cons_cons, List.zip_nil_right, List.zipWith_cons_cons, List.zipWith_nil_right, straight_dropped]
  have c1 := twin_ok false _ twin_reco
  have c2 := twin_ok true _ twin_gen
  have f1 : filterScatters false (1, 1) (2, 3) ⟨twins, twinHits, [bentTracks, bentTracks]⟩ = .ok ⟨twins, twinHits, [bentTracks, bentTracks]⟩ := by
    unfold filterScatters
    simp [m1]
  obtain ⟨cs1, e1, l1⟩ := C27.batch_never_singular false (1, 1) (2, 3) _ _ c1 f1
  obtain ⟨_, s2, f2, _, p2, _⟩ := C32.filter_spec_partial true (1, 1) (2, 3) _ c2 (Or.inl (by simp [twins]))
  obtain ⟨cs2, e2, l2⟩ := C27.batch_never_singular true (1, 1) (2, 3) _ _ c2 f2
  rw [m2] at p2
  refine ⟨twins, s2.mu, ⟨cs1⟩, ⟨cs2⟩, ?_, ?_, l1, rfl, ?_⟩
  · simp only [construct, build, bind, Except.bind, hh, hH, cell_lw, cell_zr, twin_reco, f1, e1]
  · simp only [construct, build, bind, Except.bind, hh, hH, cell_lw, cell_zr, twin_gen, f2, e2]
  · simp only [Obj.len, p2]
    simp [twins, pick]

end C100

end

end Tomopt
