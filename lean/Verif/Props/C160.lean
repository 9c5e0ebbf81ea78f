import Verif.Spec.Load
import Verif.Model.Geometry
import Mathlib.Tactic.NormNum

/- C160: loading a configuration replaces the one before.  Property theorems. -/
namespace Tomopt

noncomputable section

namespace C160

open Load Passives

/-! ### Helper lemmas -/

theorem loop_shape (f : Layout) : ∀ ls : List AnyLayer, (loop f ls).1.map shape = ls.map shape
  | [] => rfl
  | .detector D :: ls => by simp only [loop, List.map_cons, loop_shape f ls]
  | .passive L :: ls => by
    simp only [loop]
    cases f L.z L.lw L.size with
    | error e => rfl
    | ok x => simp only [List.map_cons, loop_shape f ls, shape]

/-- layers of the same shape load alike -/
theorem loop_congr (f : Layout) : ∀ ls ms : List AnyLayer, ls.map shape = ms.map shape → (loop f ls).2 = (loop f ms).2 ∧ ((loop f ls).2 = .ok () → (loop f ls).1 = (loop f ms).1)
  | [], [], _ => ⟨rfl, fun _ => rfl⟩
  | [], _ :: _, h => by simp at h
  | _ :: _, [], h => by simp at h
  | l :: ls, m :: ms, h => by
    simp only [List.map_cons, List.cons.injEq] at h
    obtain ⟨h1, h2⟩ := h
    obtain ⟨i1, i2⟩ := loop_congr f ls ms h2
    cases l with
    | detector D =>
      cases m with
      | detector D' =>
        simp only [shape, AnyLayer.detector.injEq] at h1
        subst h1
        simp only [loop]
        exact ⟨i1, fun h => by rw [i2 h]⟩
      | passive L => simp [shape] at h1
    | passive L =>
      cases m with
      | detector D => simp [shape] at h1
      | passive M =>
        obtain ⟨a, b, c, d, g, e⟩ := L
        obtain ⟨a', b', c', d', g', e'⟩ := M
        simp only [shape, AnyLayer.passive.injEq, PassiveLayer.mk.injEq] at h1
        obtain ⟨rfl, rfl, rfl, rfl, rfl, -⟩ := h1
        simp only [loop]
        cases f _ _ _ with
        | error e => exact ⟨rfl, fun h => by simp at h⟩
        | ok x => exact ⟨i1, fun h => congrArg (List.cons _) (i2 h)⟩

theorem history_shape {τ : Type} : ∀ (h : List (Layout × Option τ)) (s : St τ),
    (history h s).volume.layers.map shape = s.volume.layers.map shape ∧ { (history h s).volume with layers := [] } = { s.volume with layers := [] }
  | [], _ => ⟨rfl, rfl⟩
  | (f, t) :: h, s => by
    obtain ⟨h1, h2⟩ := history_shape h (load s f t).1
    exact ⟨h1.trans (loop_shape f _), h2⟩

theorem loop_filled (f : Layout) : ∀ ls : List AnyLayer, (loop f ls).2 = .ok () → List.Forall₂ (Filled f) ls (loop f ls).1
  | [], _ => .nil
  | .detector D :: ls, h => by
    simp only [loop] at h ⊢
    exact .cons rfl (loop_filled f ls h)
  | .passive L :: ls, h => by
    simp only [loop] at h ⊢
    cases e : f L.z L.lw L.size with
    | error _ => rw [e] at h; simp at h
    | ok x =>
      rw [e] at h
      exact .cons ⟨x, e, rfl⟩ (loop_filled f ls h)

theorem loop_ok (f : Layout) : ∀ ls : List AnyLayer, (loop f ls).2 = .ok () ↔ ∀ L, AnyLayer.passive L ∈ ls → ∃ x, f L.z L.lw L.size = .ok x
  | [] => by simp [loop]
  | .detector D :: ls => by simp [loop, loop_ok f ls]
  | .passive L :: ls => by
    simp only [loop]
    cases e : f L.z L.lw L.size with
    | error _ =>
      simp only [reduceCtorEq, List.mem_cons, false_iff]
      intro h
      obtain ⟨x, hx⟩ := h L (.inl rfl)
      rw [e] at hx
      simp at hx
    | ok x =>
      simp only [List.mem_cons, AnyLayer.passive.injEq, forall_eq_or_imp, loop_ok f ls, e, Except.ok.injEq, exists_eq', true_and]

theorem passives_eq (V : Volume) : V.passives = passivesOf V.layers := by
  unfold Volume.passives
  induction V.layers with
  | nil => rfl
  | cons l ls ih =>
    cases l with
    | detector D => simpa [passivesOf] using ih
    | passive L => simpa [passivesOf] using ih

theorem passivesOf_append : ∀ ls ms : List AnyLayer, passivesOf (ls ++ ms) = passivesOf ls ++ passivesOf ms
  | [], _ => rfl
  | .detector D :: ls, ms => passivesOf_append ls ms
  | .passive L :: ls, ms => congrArg (List.cons L) (passivesOf_append ls ms)

theorem mem_passivesOf : ∀ {ls : List AnyLayer} {L : PassiveLayer}, AnyLayer.passive L ∈ ls → L ∈ passivesOf ls
  | .detector D :: ls, L, h => by
    simp only [List.mem_cons, reduceCtorEq, false_or] at h
    exact mem_passivesOf (ls := ls) h
  | .passive M :: ls, L, h => by
    simp only [List.mem_cons, AnyLayer.passive.injEq] at h
    exact h.elim (fun h => h ▸ List.mem_cons_self) fun h => List.mem_cons_of_mem _ (mem_passivesOf (ls := ls) h)

theorem filled_passives (f : Layout) {ls ms : List AnyLayer} (h : List.Forall₂ (Filled f) ls ms) :
    List.Forall₂ (fun L M => ∃ x, f L.z L.lw L.size = .ok x ∧ M = { L with radLength := some x })
      (passivesOf ls) (passivesOf ms) := by
  induction h with
  | nil => exact .nil
  | @cons l m ls ms h _ ih =>
    cases l with
    | detector D =>
      have h : m = .detector D := h
      subst h
      exact ih
    | passive L =>
      obtain ⟨x, hx, rfl⟩ := h
      exact .cons ⟨x, hx, rfl⟩ ih

theorem answers_of (f : Layout) {ls ms : List PassiveLayer} (h : List.Forall₂ (fun L M => ∃ x, f L.z L.lw L.size = .ok x ∧ M = { L with radLength := some x }) ls ms) :
    List.Forall₂ (fun (L : PassiveLayer) x => f L.z L.lw L.size = .ok x) ls (ms.filterMap (·.radLength)) := by
  induction h with
  | nil => exact .nil
  | cons h _ ih =>
    obtain ⟨x, hx, rfl⟩ := h
    exact .cons hx ih

/-! ### Properties -/

/-- **C160: replaced.** After any loads, successful or broken off, loading a configuration succeeds or fails just as in the volume as it was made; and if it succeeds volume and target are exactly what they would be if nothing had been loaded
before. -/
theorem replaced {τ : Type} (h : List (Layout × Option τ)) (s : St τ) (f : Layout) (t : Option τ) :
    (load (history h s) f t).2 = (load s f t).2 ∧ ((load s f t).2 = .ok () → (load (history h s) f t).1 = (load s f t).1) := by
  obtain ⟨h1, h2⟩ := history_shape h s
  obtain ⟨i1, i2⟩ := loop_congr f _ _ h1
  refine ⟨i1, fun hs => ?_⟩
  have e := i2 (i1.trans hs)
  simp only [Volume.mk.injEq, true_and] at h2
  obtain ⟨k1, k2, k3⟩ := h2
  simp only [load, e, k1, k2, k3]

/-- **C160: filled.** A load succeeds exactly if the layout answers for every passive layer. Every passive layer then holds the answer for it and is otherwise as before; detectors, order of layers and budget are as before, and the target is the
one given, or none if none was. -/
theorem filled {τ : Type} (s : St τ) (f : Layout) (t : Option τ) :
    ((load s f t).2 = .ok () ↔ ∀ L, AnyLayer.passive L ∈ s.volume.layers → ∃ x, f L.z L.lw L.size = .ok x) ∧
    ((load s f t).2 = .ok () → List.Forall₂ (Filled f) s.volume.layers (load s f t).1.volume.layers ∧ { (load s f t).1.volume with layers := s.volume.layers } = s.volume ∧ (load s f t).1.target = t) :=
  ⟨loop_ok f _, fun h => ⟨loop_filled f _ h, rfl, rfl⟩⟩

/-- **C160: geometry.** No history of loads, successful or broken off, changes anything but the materials of passive layers. -/
theorem geometry {τ : Type} (h : List (Layout × Option τ)) (s : St τ) :
    (history h s).volume.layers.map shape = s.volume.layers.map shape ∧ { (history h s).volume with layers := s.volume.layers } = s.volume := by
  obtain ⟨h1, h2⟩ := history_shape h s
  simp only [Volume.mk.injEq, true_and] at h2
  obtain ⟨k1, k2, k3⟩ := h2
  exact ⟨h1, by simp only [k1, k2, k3]⟩

/-- **C160, violated: broken off.** A load that fails is not undone: the layers above the one for which the layout raised hold the new materials, this layer and all below it the old ones, and the target is the new one. -/
theorem broken_violated {τ : Type} (s : St τ) (f : Layout) (t : Option τ) (pre post : List AnyLayer) (L : PassiveLayer) (e : Err) (hs : s.volume.layers = pre ++ .passive L :: post)
    (hp : ∀ M, AnyLayer.passive M ∈ pre → ∃ x, f M.z M.lw M.size = .ok x) (hL : f L.z L.lw L.size = .error e) :
    (load s f t).2 = .error e ∧ (load s f t).1.target = t ∧ ∃ new, (load s f t).1.volume.layers = new ++ .passive L :: post ∧ List.Forall₂ (Filled f) pre new := by
  have key : ∀ pre : List AnyLayer, (∀ M, AnyLayer.passive M ∈ pre → ∃ x, f M.z M.lw M.size = .ok x) →
      (loop f (pre ++ .passive L :: post)).2 = .error e ∧ ∃ new, (loop f (pre ++ .passive L :: post)).1 = new ++ .passive L :: post ∧ List.Forall₂ (Filled f) pre new := by
    intro pre
    induction pre with
    | nil =>
      intro _
      simp only [List.nil_append, loop, hL]
      exact ⟨trivial, [], rfl, .nil⟩
    | cons l pre ih =>
      intro hp
      obtain ⟨i1, new, i2, i3⟩ := ih fun M hM => hp M (List.mem_cons_of_mem _ hM)
      cases l with
      | detector D =>
        simp only [List.cons_append, loop]
        exact ⟨i1, .detector D :: new, by rw [i2]; rfl, .cons rfl i3⟩
      | passive M =>
        obtain ⟨x, hx⟩ := hp M List.mem_cons_self
        simp only [List.cons_append, loop, hx]
        exact ⟨i1, .passive { M with radLength := some x } :: new, by rw [i2]; rfl, .cons ⟨x, hx, rfl⟩ i3⟩
  obtain ⟨k1, new, k2, k3⟩ := key pre hp
  simp only [load, hs]
  exact ⟨k1, trivial, new, k2, k3⟩

/-- **C160: the same load.** With the state forgotten when it fails, this is the load the other properties are about. -/
theorem agrees {τ : Type} (s : St τ) (f : Layout) (t : Option τ) : s.volume.load f = (load s f t).2.map fun _ => (load s f t).1.volume := by
  have key : ∀ ls : List AnyLayer, Volume.loadLayers f ls = (loop f ls).2.map fun _ => (loop f ls).1 := by
    intro ls
    induction ls with
    | nil => rfl
    | cons l ls ih =>
      cases l with
      | detector D =>
        simp only [Volume.loadLayers, loop, ih]
        cases (loop f ls).2 <;> rfl
      | passive L =>
        simp only [Volume.loadLayers, loop, PassiveLayer.load, ih]
        cases f L.z L.lw L.size with
        | error e => rfl
        | ok x => cases (loop f ls).2 <;> rfl
  simp only [Volume.load, load, key]
  cases (loop f s.volume.layers).2 <;> rfl

/-- **C160: the cube.** After a successful load the cube of materials holds the answers of the layout for all passive layers, lowest first. -/
theorem cube {τ : Type} (s : St τ) (f : Layout) (t : Option τ) (hs : (load s f t).2 = .ok ()) (hp : s.volume.passives ≠ []) :
    ∃ xs, (load s f t).1.volume.radCube = .ok xs ∧ List.Forall₂ (fun (L : PassiveLayer) x => f L.z L.lw L.size = .ok x) s.volume.passives.reverse xs := by
  have h := List.rel_reverse (filled_passives f (loop_filled f _ hs))
  change List.Forall₂ _ _ (passivesOf (load s f t).1.volume.layers).reverse at h
  rw [← passives_eq, ← passives_eq] at h
  have ha := answers_of f h
  refine ⟨_, ?_, ha⟩
  have hl := h.length_eq
  have hl' := ha.length_eq
  have hn : 0 < s.volume.passives.reverse.length := by
    rw [List.length_reverse]
    exact List.length_pos_of_ne_nil hp
  unfold Volume.radCube
  change (if ((load s f t).1.volume.passives.reverse).length = 0 then _ else _) = _
  rw [if_neg, if_pos]
  · exact lt_of_lt_of_eq hn hl'
  · exact fun h0 => absurd (hl.trans h0) hn.ne'

/-- **C160, violated: the cube.** If the first load of a volume breaks off, the cube of materials is given without complaint, but lacks the layer at which it broke off and all below: the first entry of the cube, which is to be the lowest
layer, is the lowest of those that were loaded. -/
theorem cube_violated {τ : Type} (s : St τ) (f : Layout) (t : Option τ) (pre post : List AnyLayer) (L : PassiveLayer) (e : Err) (hs : s.volume.layers = pre ++ .passive L :: post)
    (hp : ∀ M, AnyLayer.passive M ∈ pre → ∃ x, f M.z M.lw M.size = .ok x) (hL : f L.z L.lw L.size = .error e) (hnew : ∀ M ∈ s.volume.passives, M.radLength = none)
    (hpre : ∃ M, AnyLayer.passive M ∈ pre) :
    ∃ xs, (load s f t).1.volume.radCube = .ok xs ∧
      List.Forall₂ (fun (L : PassiveLayer) x => f L.z L.lw L.size = .ok x) (passivesOf pre).reverse xs ∧
      xs.length < s.volume.passives.length := by
  obtain ⟨-, -, new, h1, h2⟩ := broken_violated s f t pre post L e hs hp hL
  have h := List.rel_reverse (filled_passives f h2)
  have ha := answers_of f h
  have hsp : s.volume.passives = (passivesOf pre) ++ L :: (passivesOf post) := by
    rw [passives_eq, hs, passivesOf_append]; rfl
  have hlp : (load s f t).1.volume.passives = (passivesOf new) ++ L :: (passivesOf post) := by
    rw [passives_eq, h1, passivesOf_append]; rfl
  have hpost : (L :: passivesOf post).reverse.filterMap (·.radLength) = [] := by
    rw [List.filterMap_eq_nil_iff]
    intro M hM
    exact hnew M (by rw [hsp]; exact List.mem_append_right _ (List.mem_reverse.1 hM))
  refine ⟨_, ?_, ha, ?_⟩
  · have hn : 0 < (passivesOf pre).reverse.length := by
      obtain ⟨M, hM⟩ := hpre
      rw [List.length_reverse]
      exact List.length_pos_of_mem (mem_passivesOf hM)
    have hl := ha.length_eq
    unfold Volume.radCube
    simp only [hlp, List.reverse_append, List.filterMap_append, hpost, List.nil_append]
    rw [if_neg, if_pos]
    · exact lt_of_lt_of_eq hn hl
    · simp
  · rw [← ha.length_eq, hsp, List.length_reverse, List.length_append, List.length_cons]
    omega

/-! ### Examples -/

/-- two layers of one voxel, holding 1 and 2, with target 7 -/
def two : St ℝ := ⟨⟨[.passive ⟨(1, 1), 2, 1, 0.01, "pdg", some [[1]]⟩, .passive ⟨(1, 1), 1, 1, 0.01, "pdg", some [[2]]⟩], none, [], []⟩, some 7⟩

open Classical in
/-- a layout that knows only the upper layer -/
def upper : Layout := fun z _ _ => if z = 2 then .ok [[5]] else .error .valueError

/-- a layout that knows all layers -/
def all : Layout := fun _ _ _ => .ok [[6]]

/-- After a broken load the volume is half of the one and half of the other configuration, with the target of the new one; the next load is as if it had not happened. -/
example : (load two upper (some 8)).2 = .error .valueError ∧ (load two upper (some 8)).1 = ⟨⟨[.passive ⟨(1, 1), 2, 1, 0.01, "pdg", some [[5]]⟩, .passive ⟨(1, 1), 1, 1, 0.01, "pdg", some [[2]]⟩], none, [], []⟩, some 8⟩ ∧
    (load two all none).2 = .ok () ∧ (load (history [(upper, some 8)] two) all none).1 = (load two all none).1 := by
  have h1 : ¬ (1 : ℝ) = 2 := by norm_num
  refine ⟨?_, ?_, rfl, (replaced [(upper, some 8)] two all none).2 rfl⟩
  · simp [load, two, loop, upper]
  · simp [load, two, loop, upper]

/-- two layers of one voxel without material -/
def bare : St ℝ := ⟨⟨[.passive ⟨(1, 1), 2, 1, 0.01, "pdg", none⟩, .passive ⟨(1, 1), 1, 1, 0.01, "pdg", none⟩], none, [], []⟩, none⟩

/-- The cube of a volume of two layers has one layer, and this is the upper one. -/
example : (load bare upper none).1.volume.radCube = .ok [[[5]]] := by
  have h1 : ¬ (1 : ℝ) = 2 := by norm_num
  simp [load, bare, loop, upper, Volume.radCube, Volume.passives]

/-- The hypotheses are met. -/
example : ∃ xs, (load bare upper none).1.volume.radCube = .ok xs ∧ xs.length < 2 := by
  obtain ⟨xs, h, -, hl⟩ := cube_violated bare upper none [.passive ⟨(1, 1), 2, 1, 0.01, "pdg", none⟩] [] ⟨(1, 1), 1, 1, 0.01, "pdg", none⟩ .valueError rfl (fun M hM => by simp at hM; subst hM; exact ⟨[[5]], by simp [upper]⟩)
    (by simp [upper]) (fun M hM => by simp [bare, Volume.passives] at hM; rcases hM with rfl | rfl <;> rfl) ⟨_, List.mem_cons_self⟩
  exact ⟨xs, h, hl⟩

end C160

end

end Tomopt
