import Verif.Spec.Update
import Verif.Props.C22_25
import Verif.Props.C48_50

/- Lemmas for C127. -/
namespace Tomopt

noncomputable section

namespace Update

open DetCb

theorem look_modify (st : List (ℝ × ℝ)) (a b : Nat) (f : ℝ × ℝ → ℝ × ℝ) (hb : b < st.length) : look (st.modify a f) b = if a = b then f (look st b) else look st b := by
  unfold look
  rw [List.getD_eq_getElem?_getD, List.getD_eq_getElem?_getD, List.getElem?_modify, List.getElem?_eq_getElem hb]
  split <;> simp

theorem look_append (st ex : List (ℝ × ℝ)) (a : Nat) (h : a < st.length) : look (st ++ ex) a = look st a := by
  unfold look
  rw [List.getD_eq_getElem?_getD, List.getD_eq_getElem?_getD, List.getElem?_append_left h]

/-- in-place changes one after another keep the store's length -/
theorem fold_length {β : Type} (ps : List β) (a : β → Nat) (f : β → ℝ × ℝ → ℝ × ℝ) (st : List (ℝ × ℝ)) :
    (ps.foldl (fun st p => st.modify (a p) (f p)) st).length = st.length := by
  induction ps generalizing st with
  | nil => rfl
  | cons p ps ih => rw [List.foldl_cons, ih, List.length_modify]

/-- a position nobody refers to stays -/
theorem fold_other {β : Type} (ps : List β) (a : β → Nat) (f : β → ℝ × ℝ → ℝ × ℝ) (st : List (ℝ × ℝ)) (b : Nat) (hb : b < st.length) (h : ∀ p ∈ ps, a p ≠ b) :
    look (ps.foldl (fun st p => st.modify (a p) (f p)) st) b = look st b := by
  induction ps generalizing st with
  | nil => rfl
  | cons p ps ih =>
    rw [List.foldl_cons, ih _ (by rw [List.length_modify]; exact hb) fun q hq => h q (List.mem_cons_of_mem _ hq), look_modify _ _ _ _ hb,
      if_neg (h p List.mem_cons_self)]

/-- one idempotent change applied by all who refer to a position -/
theorem fold_idem {β : Type} (ps : List β) (a : β → Nat) (f : β → ℝ × ℝ → ℝ × ℝ) (g : ℝ × ℝ → ℝ × ℝ) (hg : ∀ v, g (g v) = g v) (b : Nat)
    (h : ∀ p ∈ ps, a p = b → f p = g) (st : List (ℝ × ℝ)) (hb : b < st.length) (hex : (∃ p ∈ ps, a p = b) ∨ g (look st b) = look st b) :
    look (ps.foldl (fun st p => st.modify (a p) (f p)) st) b = g (look st b) := by
  induction ps generalizing st with
  | nil => rcases hex with ⟨p, hp, _⟩ | h'; · simp at hp
           · exact h'.symm
  | cons p ps ih =>
    rw [List.foldl_cons]
    have h1 : ∀ q ∈ ps, a q = b → f q = g := fun q hq => h q (List.mem_cons_of_mem _ hq)
    have hl : b < (st.modify (a p) (f p)).length := by rw [List.length_modify]; exact hb
    by_cases hp : a p = b
    · have e : look (st.modify (a p) (f p)) b = g (look st b) := by rw [look_modify _ _ _ _ hb, if_pos hp, h p List.mem_cons_self hp]
      rw [ih h1 _ hl (.inr (by rw [e, hg])), e, hg]
    · have e : look (st.modify (a p) (f p)) b = look st b := by rw [look_modify _ _ _ _ hb, if_neg hp]
      rw [ih h1 _ hl ?_, e]
      rw [e]
      rcases hex with ⟨q, hq, hqb⟩ | h'
      · rcases List.mem_cons.mp hq with rfl | hq
        · exact absurd hqb hp
        · exact .inl ⟨q, hq, hqb⟩
      · exact .inr h'

/-- with different addresses each changes its own position -/
theorem fold_own {β : Type} (ps : List β) (a : β → Nat) (f : β → ℝ × ℝ → ℝ × ℝ) (hn : (ps.map a).Nodup) (st : List (ℝ × ℝ)) (hs : ∀ p ∈ ps, a p < st.length)
    (p : β) (hp : p ∈ ps) : look (ps.foldl (fun st p => st.modify (a p) (f p)) st) (a p) = f p (look st (a p)) := by
  induction ps generalizing st with
  | nil => simp at hp
  | cons q ps ih =>
    rw [List.map_cons, List.nodup_cons] at hn
    rw [List.foldl_cons]
    rcases List.mem_cons.mp hp with rfl | hp'
    · rw [fold_other _ _ _ _ _ (by rw [List.length_modify]; exact hs _ List.mem_cons_self) fun r hr e => hn.1 (List.mem_map.mpr ⟨r, hr, e⟩),
        look_modify _ _ _ _ (hs _ List.mem_cons_self), if_pos rfl]
    · rw [ih hn.2 _ (fun r hr => by rw [List.length_modify]; exact hs r (List.mem_cons_of_mem _ hr)) hp',
        look_modify _ _ _ _ (hs p (List.mem_cons_of_mem _ hp')), if_neg]
      intro e
      exact hn.1 (List.mem_map.mpr ⟨p, hp', e.symm⟩)

/- The limiter. -/

theorem limLoop_spec (l : Limits) (st : List (ℝ × ℝ)) (os : List Par) (ps : List PRef) (hl : os.length = ps.length) (hs : ∀ p ∈ ps, p.xy < st.length) :
    (limLoop l st os ps).2.map (par (limLoop l st os ps).1) = List.zipWith (limitPar l) os (ps.map (par st)) ∧
    (limLoop l st os ps).2.map (·.layer) = ps.map (·.layer) ∧
    (∃ ex, (limLoop l st os ps).1 = st ++ ex) ∧
    (∀ p ∈ (limLoop l st os ps).2, p.xy < (limLoop l st os ps).1.length) ∧
    (l.xy = none → (limLoop l st os ps).2.map (·.xy) = ps.map (·.xy)) ∧
    (l.xy ≠ none → (∀ p ∈ (limLoop l st os ps).2, st.length ≤ p.xy) ∧ ((limLoop l st os ps).2.map (·.xy)).Nodup) := by
  induction ps generalizing st os with
  | nil =>
    rcases os with _ | ⟨o, os⟩
    · simp [limLoop]
    · simp at hl
  | cons p ps ih =>
    rcases os with _ | ⟨o, os⟩
    · simp at hl
    have hl' : os.length = ps.length := by simpa using hl
    have hp := hs p List.mem_cons_self
    rcases hx : l.xy with _ | m
    · have e : limOne l st o p = (st, { p with z := (limitPar l o (par st p)).z, span := (limitPar l o (par st p)).span }) := by simp [limOne, hx]
      obtain ⟨i1, i2, ⟨ex, i3⟩, i4, i5, -⟩ := ih st os hl' fun q hq => hs q (List.mem_cons_of_mem _ hq)
      simp only [limLoop, e, List.map_cons, List.zipWith_cons_cons]
      refine ⟨?_, by rw [i2], ⟨ex, i3⟩, ?_, fun _ => by rw [i5 hx], by simp⟩
      · rw [i1]
        congr 1
        simp only [par]
        rw [i3, look_append _ _ _ hp]
        simp [limitPar, hx]
      · intro q hq
        rcases List.mem_cons.mp hq with rfl | hq
        · simp only [i3, List.length_append]; omega
        · exact i4 q hq
    · have e : limOne l st o p = (st ++ [(limitPar l o (par st p)).xy], { p with xy := st.length, z := (limitPar l o (par st p)).z, span := (limitPar l o (par st p)).span }) := by
        simp [limOne, hx]
      obtain ⟨i1, i2, ⟨ex, i3⟩, i4, -, i6⟩ := ih (st ++ [(limitPar l o (par st p)).xy]) os hl' fun q hq => by
        have := hs q (List.mem_cons_of_mem _ hq)
        rw [List.length_append]; omega
      obtain ⟨i6, i7⟩ := i6 (by simp [hx])
      simp only [limLoop, e, List.map_cons, List.zipWith_cons_cons]
      refine ⟨?_, by rw [i2], ⟨[(limitPar l o (par st p)).xy] ++ ex, by rw [i3, List.append_assoc]⟩, ?_, by simp, fun _ => ⟨?_, ?_⟩⟩
      · rw [i1]
        congr 1
        · rw [i3]
          simp [par, look]
        · congr 1
          refine List.map_congr_left fun q hq => ?_
          simp only [par]
          rw [look_append _ _ _ (hs q (List.mem_cons_of_mem _ hq))]
      · intro q hq
        rcases List.mem_cons.mp hq with rfl | hq
        · simp only [i3, List.length_append, List.length_singleton]; omega
        · exact i4 q hq
      · intro q hq
        rcases List.mem_cons.mp hq with rfl | hq
        · exact le_refl _
        · have := i6 q hq
          simp only [List.length_append, List.length_singleton] at this
          omega
      · rw [List.nodup_cons]
        refine ⟨fun hm => ?_, i7⟩
        obtain ⟨q, hq, hqe⟩ := List.mem_map.mp hm
        have := i6 q hq
        simp only [List.length_append, List.length_singleton] at this
        omega

/- What stays the same: layers and the layer of every panel. -/

/-- the same layers with panels in the same layers -/
def Alike (d e : Det) : Prop := e.boxes = d.boxes ∧ e.panels.map (·.layer) = d.panels.map (·.layer)

theorem Alike.trans {d e f : Det} (h : Alike d e) (h' : Alike e f) : Alike d f := ⟨h'.1.trans h.1, h'.2.trans h.2⟩

theorem Alike.length {d e : Det} (h : Alike d e) : e.panels.length = d.panels.length := by simpa using congrArg List.length h.2

theorem step_alike (δ : Nat → Par) (d : Det) : Alike d (d.step δ) := by
  refine ⟨rfl, ?_⟩
  simp only [Det.step, List.map_map]
  rw [show ((fun p : PRef => p.layer) ∘ fun pi : PRef × Nat => ({ pi.1 with z := pi.1.z + (δ pi.2).z, span := (pi.1.span.1 + (δ pi.2).span.1, pi.1.span.2 + (δ pi.2).span.2) } : PRef)) =
    (fun p : PRef => p.layer) ∘ Prod.fst from rfl, ← List.map_map, List.zipIdx_map_fst]

theorem step_wired {δ : Nat → Par} {d : Det} (h : Wired d) : Wired (d.step δ) := by
  have hm : ∀ p ∈ (d.step δ).panels, ∃ q ∈ d.panels, p.xy = q.xy ∧ p.layer = q.layer := by
    intro p hp
    obtain ⟨⟨q, i⟩, hq, rfl⟩ := List.mem_map.mp hp
    exact ⟨q, by have := List.mem_map_of_mem (f := Prod.fst) hq; rwa [List.zipIdx_map_fst] at this, rfl, rfl⟩
  have hl : (d.step δ).store.length = d.store.length := fold_length _ (fun pi : PRef × Nat => pi.1.xy) _ _
  refine ⟨fun p hp => ?_, fun p hp => ?_, fun p hp p' hp' e => ?_⟩
  · obtain ⟨q, hq, e, _⟩ := hm p hp
    rw [hl, e]; exact h.stored q hq
  · obtain ⟨q, hq, _, e⟩ := hm p hp
    rw [e]; exact h.layer q hq
  · obtain ⟨q, hq, e1, e2⟩ := hm p hp
    obtain ⟨q', hq', e1', e2'⟩ := hm p' hp'
    rw [e2, e2']
    exact h.shared q hq q' hq' (by rw [← e1, ← e1', e])

theorem layer_lt {d e : Det} (ha : Alike d e) (h : Wired d) : ∀ p ∈ e.panels, p.layer < e.boxes.length := by
  intro p hp
  have : p.layer ∈ d.panels.map (·.layer) := ha.2 ▸ List.mem_map_of_mem (f := fun p : PRef => p.layer) hp
  obtain ⟨q, hq, e⟩ := List.mem_map.mp this
  rw [← e, ha.1]
  exact h.layer q hq

theorem limit_alike {l : Limits} {old : List Par} {d : Det} (hl : old.length = d.panels.length) (h : Wired d) : Alike d (d.limit l old) :=
  ⟨rfl, (limLoop_spec l d.store old d.panels hl h.stored).2.1⟩

theorem limit_wired {l : Limits} {old : List Par} {d : Det} (hl : old.length = d.panels.length) (h : Wired d) : Wired (d.limit l old) := by
  obtain ⟨-, i2, -, i4, i5, i6⟩ := limLoop_spec l d.store old d.panels hl h.stored
  refine ⟨i4, layer_lt (limit_alike hl h) h, fun p hp q hq e => ?_⟩
  obtain ⟨i, hi, rfl⟩ := List.mem_iff_getElem.mp hp
  obtain ⟨j, hj, rfl⟩ := List.mem_iff_getElem.mp hq
  by_cases hx : l.xy = none
  · have hi' : i < d.panels.length := by rw [← (limit_alike (l := l) hl h).length]; exact hi
    have hj' : j < d.panels.length := by rw [← (limit_alike (l := l) hl h).length]; exact hj
    have key := i5 hx
    have e1 := List.getElem_of_eq key (i := i) (by rw [List.length_map]; exact hi)
    have e2 := List.getElem_of_eq key (i := j) (by rw [List.length_map]; exact hj)
    have e3 := List.getElem_of_eq i2 (i := i) (by rw [List.length_map]; exact hi)
    have e4 := List.getElem_of_eq i2 (i := j) (by rw [List.length_map]; exact hj)
    simp only [List.getElem_map] at e1 e2 e3 e4
    simp only [Det.limit] at e ⊢
    rw [e3, e4]
    exact h.shared _ (List.getElem_mem hi') _ (List.getElem_mem hj') (by rw [← e1, ← e2, e])
  · have := (i6 hx).2
    have hij : i = j := (List.Nodup.getElem_inj_iff this (hi := by rw [List.length_map]; exact hi) (hj := by rw [List.length_map]; exact hj)).mp (by simp only [List.getElem_map]; exact e)
    subst hij; rfl

theorem limit_view {l : Limits} {old : List Par} {d : Det} (hl : old.length = d.panels.length) (h : Wired d) : (d.limit l old).view = List.zipWith (limitPar l) old d.view :=
  (limLoop_spec l d.store old d.panels hl h.stored).1

theorem centre_alike (d : Det) : Alike d d.centre := ⟨rfl, by simp [Det.centre, Function.comp_def]⟩

theorem centre_wired {d : Det} (h : Wired d) : Wired d.centre := by
  have hm : ∀ p ∈ d.centre.panels, ∃ q ∈ d.panels, p.xy = d.store.length + q.layer ∧ p.layer = q.layer := by
    intro p hp
    obtain ⟨q, hq, rfl⟩ := List.mem_map.mp hp
    exact ⟨q, hq, rfl, rfl⟩
  refine ⟨fun p hp => ?_, layer_lt (centre_alike d) h, fun p hp p' hp' e => ?_⟩
  · obtain ⟨q, hq, e, _⟩ := hm p hp
    have := h.layer q hq
    simp only [Det.centre, List.length_append, List.length_map, List.length_range]
    omega
  · obtain ⟨q, hq, e1, e2⟩ := hm p hp
    obtain ⟨q', hq', e1', e2'⟩ := hm p' hp'
    omega

theorem centre_look {d : Det} (h : Wired d) (q : PRef) (hq : q ∈ d.panels) : look d.centre.store (d.store.length + q.layer) = meanXY (d.xys q.layer) := by
  have := h.layer q hq
  simp [look, Det.centre, this]

theorem conform_alike (eps : Nat → ℝ) (d : Det) : Alike d (d.conform eps) := by
  refine ⟨rfl, ?_⟩
  apply List.ext_getElem
  · simp [Det.conform]
  · intro i h1 h2
    simp [Det.conform]

theorem conform_mem {eps : Nat → ℝ} {d : Det} : ∀ p ∈ (d.conform eps).panels, ∃ q ∈ d.panels, p.xy = q.xy ∧ p.layer = q.layer := by
  intro p hp
  obtain ⟨⟨q, i⟩, hq, rfl⟩ := List.mem_map.mp hp
  exact ⟨q, by have := List.mem_map_of_mem (f := Prod.fst) hq; rwa [List.zipIdx_map_fst] at this, rfl, rfl⟩

theorem conform_wired {eps : Nat → ℝ} {d : Det} (h : Wired d) : Wired (d.conform eps) := by
  have hl : (d.conform eps).store.length = d.store.length := fold_length _ (fun p : PRef => p.xy) _ _
  refine ⟨fun p hp => ?_, layer_lt (conform_alike eps d) h, fun p hp p' hp' e => ?_⟩
  · obtain ⟨q, hq, e, _⟩ := conform_mem p hp
    rw [hl, e]; exact h.stored q hq
  · obtain ⟨q, hq, e1, e2⟩ := conform_mem p hp
    obtain ⟨q', hq', e1', e2'⟩ := conform_mem p' hp'
    rw [e2, e2']
    exact h.shared q hq q' hq' (by rw [← e1, ← e1', e])

theorem clampXY_idem (b : Box) (v : ℝ × ℝ) : clampXY b (clampXY b v) = clampXY b v := by simp [clampXY, C22.clamp_idem]

theorem conform_look {eps : Nat → ℝ} {d : Det} (h : Wired d) (q : PRef) (hq : q ∈ d.panels) : look (d.conform eps).store q.xy = clampXY (d.box q) (look d.store q.xy) := by
  refine fold_idem d.panels (fun p : PRef => p.xy) (fun p => clampXY (d.box p)) _ (clampXY_idem _) q.xy ?_ d.store (h.stored q hq) (.inl ⟨q, hq, rfl⟩)
  intro p hp e
  simp only [Det.box, h.shared p hp q hq e]

/-- what conforming does to the parameters of one panel -/
def conformPar (b : Box) (eps : ℝ) (p : Par) : Par :=
  ⟨clampXY b p.xy, clampR p.z (b.z - b.size + eps) (b.z - eps), (clampR p.span.1 (b.lw.1 / 20) (10 * b.lw.1), clampR p.span.2 (b.lw.2 / 20) (10 * b.lw.2))⟩

theorem conform_get {eps : Nat → ℝ} {d : Det} (h : Wired d) (i : Nat) (p : PRef) (hp : d.panels[i]? = some p) :
    (d.conform eps).view[i]? = some (conformPar (d.box p) (eps i) (par d.store p)) := by
  have hm := List.mem_of_getElem? hp
  simp only [Det.view]
  rw [List.getElem?_map]
  rw [show (d.conform eps).panels[i]? = some { p with
        z := clampR p.z ((d.box p).z - (d.box p).size + eps i) ((d.box p).z - eps i)
        span := (clampR p.span.1 ((d.box p).lw.1 / 20) (10 * (d.box p).lw.1), clampR p.span.2 ((d.box p).lw.2 / 20) (10 * (d.box p).lw.2)) } from by
    simp [Det.conform, List.getElem?_zipIdx, hp]]
  simp only [Option.map_some, par, conformPar]
  rw [conform_look h p hm]

theorem runCbs_alike {old : List Par} (cbs : List Cb) {d : Det} (hl : old.length = d.panels.length) (h : Wired d) : Alike d (runCbs old cbs d) ∧ Wired (runCbs old cbs d) := by
  induction cbs generalizing d with
  | nil => exact ⟨⟨rfl, rfl⟩, h⟩
  | cons c cs ih =>
    cases c with
    | limiter l =>
      have := ih (d := d.limit l old) (by rw [(limit_alike hl h).length]; exact hl) (limit_wired hl h)
      exact ⟨(limit_alike hl h).trans this.1, this.2⟩
    | centring =>
      have := ih (d := d.centre) (by rw [(centre_alike d).length]; exact hl) (centre_wired h)
      exact ⟨(centre_alike d).trans this.1, this.2⟩

theorem runCbs_append (old : List Par) (cs cs' : List Cb) (d : Det) : runCbs old (cs ++ cs') d = runCbs old cs' (runCbs old cs d) := by
  induction cs generalizing d with
  | nil => rfl
  | cons c cs ih => cases c <;> exact ih _

/-- the detector after the optimisers -/
def stepped (δ : Option (Nat → Par)) (d : Det) : Det := match δ with
  | none => d
  | some δ => d.step δ

theorem update_eq (cbs : List Cb) (δ : Option (Nat → Par)) (eps : Nat → ℝ) (d : Det) : d.update cbs δ eps = (runCbs d.view cbs (stepped δ d)).conform eps := rfl

theorem stepped_alike (δ : Option (Nat → Par)) {d : Det} (h : Wired d) : Alike d (stepped δ d) ∧ Wired (stepped δ d) := by
  cases δ with
  | none => exact ⟨⟨rfl, rfl⟩, h⟩
  | some δ => exact ⟨step_alike δ d, step_wired h⟩

theorem before_conform (cbs : List Cb) (δ : Option (Nat → Par)) {d : Det} (h : Wired d) :
    Alike d (runCbs d.view cbs (stepped δ d)) ∧ Wired (runCbs d.view cbs (stepped δ d)) := by
  have h1 := stepped_alike δ h
  have h2 := runCbs_alike (old := d.view) cbs (d := stepped δ d) (by rw [h1.1.length]; simp [Det.view]) h1.2
  exact ⟨h1.1.trans h2.1, h2.2⟩

theorem box_alike {d e : Det} (h : Alike d e) (i : Nat) (p q : PRef) (hp : d.panels[i]? = some p) (hq : e.panels[i]? = some q) : e.box q = d.box p := by
  have := congrArg (·[i]?) h.2
  simp only [List.getElem?_map, hp, hq, Option.map_some, Option.some.injEq] at this
  simp only [Det.box, this, h.1]

theorem box_good {d : Det} (hg : GoodBoxes d) (h : Wired d) (p : PRef) (hp : p ∈ d.panels) : 0 ≤ (d.box p).lw.1 ∧ 0 ≤ (d.box p).lw.2 ∧ 2e-3 ≤ (d.box p).size := by
  have hl := h.layer p hp
  have : d.box p = d.boxes[p.layer] := by simp [Det.box, hl]
  rw [this]
  exact hg _ (List.getElem_mem hl)

end Update

end

end Tomopt
