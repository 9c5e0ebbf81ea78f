import Verif.Spec.Reopen
import Verif.Lemmas.Budget
import Verif.Lemmas.SaveLoad
import Mathlib.Data.List.Forall2

/- Lemmas on opening saved detectors. -/
namespace Tomopt

noncomputable section

namespace Reopen

theorem flat_length (l : List (ℝ × ℝ)) : (flat l).length = 2 * l.length := by
  induction l with
  | nil => rfl
  | cons a l ih => simp [flat, ih]; omega

theorem unflat_flat (l : List (ℝ × ℝ)) : unflat (flat l) = l := by
  induction l with
  | nil => rfl
  | cons a l ih => simp [flat, unflat, ih]

/-- one panel -/
theorem loadDet_reopen (g : String → Option (List ℝ)) (p q : AnyPanel) (h : AlikeP p q) (hg : ∀ f, g f = fields p f) : loadDet g q = reopen p q := by
  cases h with
  | gauss p q h1 h2 => simp [loadDet, loadPanel, reopen, hg, fields, panelFields, pair, num, h1, h2]
  | sigmoid p q s t h1 h2 => simp [loadDet, loadPanel, reopen, hg, fields, panelFields, pair, num, h1, h2]
  | heat h g' h1 h2 => simp [loadDet, loadHeat, reopen, hg, fields, heatFields, pair, num, pairs, flat_length, unflat_flat, h1, h2]

theorem loadDets_get (g : Nat → String → Option (List ℝ)) (ps : List AnyPanel) : ∀ (j k : Nat), (loadDets g j ps)[k]? = (ps[k]?).map (loadDet (g (j + k))) := by
  induction ps with
  | nil => intro j k; simp [loadDets]
  | cons p ps ih =>
    intro j k
    cases k with
    | zero => simp [loadDets]
    | succ k =>
      simp only [loadDets, List.getElem?_cons_succ, ih]
      rw [show j + 1 + k = j + (k + 1) by omega]

theorem loadDets_length (g : Nat → String → Option (List ℝ)) (ps : List AnyPanel) : ∀ j, (loadDets g j ps).length = ps.length := by
  induction ps with
  | nil => intro j; rfl
  | cons p ps ih => intro j; simp [loadDets, ih]

/-- one layer -/
def loadLayer (file : File) (i : Nat) : AnyLayer → AnyLayer
  | .passive L => .passive L
  | .detector D => .detector { D with panels := loadDets (fun j f => file (.part i j f)) 0 D.panels }

theorem loadLayers_get (file : File) (ls : List AnyLayer) : ∀ (i k : Nat), (loadLayers file i ls)[k]? = (ls[k]?).map (loadLayer file (i + k)) := by
  induction ls with
  | nil => intro i k; simp [loadLayers]
  | cons l ls ih =>
    intro i k
    cases k with
    | zero => cases l <;> simp [loadLayers, loadLayer]
    | succ k =>
      rw [show i + (k + 1) = i + 1 + k by omega]
      cases l <;> simp only [loadLayers, List.getElem?_cons_succ, ih]

theorem panelAt_load (file : File) (W : Volume) (i j : Nat) : panelAt (loadVol file W).2 i j = (panelAt W i j).map (loadDet fun f => file (.part i j f)) := by
  simp only [panelAt, loadVol, loadLayers_get, Nat.zero_add]
  cases W.layers[i]? with
  | none => rfl
  | some l =>
    cases l with
    | passive L => simp [loadLayer, dets]
    | detector D => simp [loadLayer, dets, loadDets_get]

theorem stateDict_part (V : Volume) (i j : Nat) (f : String) : stateDict V (.part i j f) = (panelAt V i j).bind fun p => fields p f := by
  simp only [stateDict, panelAt]
  cases V.layers[i]? with
  | none => rfl
  | some l =>
    simp only [Option.bind_some]
    cases (dets l)[j]? <;> rfl

/-- panels alike have entries of the same sizes, and conversely -/
theorem alike_iff (p q : AnyPanel) : AlikeP p q ↔ ∀ f, (fields p f).map List.length = (fields q f).map List.length := by
  constructor
  · intro h f
    cases h with
    | gauss p q h1 h2 =>
      simp only [fields, panelFields, h1, h2]
      repeat' split
      all_goals rfl
    | sigmoid p q s t h1 h2 =>
      simp only [fields, panelFields, h1, h2]
      repeat' split
      all_goals rfl
    | heat h g h1 h2 =>
      simp only [fields, heatFields]
      repeat' split
      all_goals simp [flat_length, h1, h2]
  · intro h
    cases p with
    | panel p =>
      cases q with
      | panel q =>
        have h1 := h "_smooth"
        simp only [fields, panelFields] at h1
        cases hp : p.kind with
        | gauss =>
          cases hq : q.kind with
          | gauss => exact .gauss p q hp hq
          | sigmoid t => simp [hp, hq] at h1
        | sigmoid s =>
          cases hq : q.kind with
          | gauss => simp [hp, hq] at h1
          | sigmoid t => exact .sigmoid p q s t hp hq
      | heatmap g =>
        have h1 := h "xy"
        simp [fields, panelFields, heatFields] at h1
    | heatmap g =>
      cases q with
      | panel q =>
        have h1 := h "xy"
        simp [fields, panelFields, heatFields] at h1
      | heatmap g' =>
        have h1 := h "mu"
        have h2 := h "sig"
        simp [fields, heatFields, flat_length] at h1 h2
        exact .heat g g' h1.symm h2.symm

theorem fields_z (p : AnyPanel) : (fields p "z").map List.length = some 1 := by
  cases p <;> simp [fields, panelFields, heatFields]

theorem sizes_iff (V W : Volume) : sizes (stateDict V) = sizes (stateDict W) ↔ Alike V W := by
  constructor
  · intro h
    have hp : ∀ i j f, ((panelAt V i j).bind fun p => fields p f).map List.length = ((panelAt W i j).bind fun p => fields p f).map List.length := by
      intro i j f
      have := congrFun h (.part i j f)
      simpa only [sizes, stateDict_part] using this
    have hb := congrFun h .budget
    simp only [sizes, stateDict] at hb
    refine ⟨?_, ?_, ?_⟩
    · intro i j
      have h1 := hp i j
      cases hv : panelAt V i j with
      | none =>
        cases hw : panelAt W i j with
        | none => exact .inl ⟨rfl, rfl⟩
        | some q =>
          have h2 := h1 "z"
          rw [hv, hw] at h2
          simp [fields_z] at h2
      | some p =>
        cases hw : panelAt W i j with
        | none =>
          have h2 := h1 "z"
          rw [hv, hw] at h2
          simp at h2
          have h3 := fields_z p
          rw [h2] at h3
          simp at h3
        | some q =>
          refine .inr ⟨p, q, rfl, rfl, (alike_iff p q).mpr fun f => ?_⟩
          have h2 := h1 f
          rw [hv, hw] at h2
          simpa using h2
    · cases hv : V.budget <;> cases hw : W.budget <;> simp [hv, hw] at hb ⊢
    · intro hs
      cases hv : V.budget <;> cases hw : W.budget <;> simp [hv, hw] at hb hs ⊢
      exact hb
  · intro h
    funext k
    cases k with
    | part i j f =>
      simp only [sizes, stateDict_part]
      rcases h.panels i j with ⟨h1, h2⟩ | ⟨p, q, h1, h2, h3⟩
      · rw [h1, h2]
      · rw [h1, h2]
        exact (alike_iff p q).mp h3 f
    | budget =>
      simp only [sizes, stateDict]
      have h1 := h.budget
      have h2 := h.weights
      cases hv : V.budget <;> cases hw : W.budget <;> simp [hv, hw] at h1 h2 ⊢
      exact h2

/- the same volume up to scales -/

/-- equal, but for the scale of a budget -/
inductive UpToP (c : Prop) : AnyPanel → AnyPanel → Prop
  | panel (p : Panel) (s : ℝ) : (c → s = p.budgetScale) → UpToP c (.panel p) (.panel { p with budgetScale := s })
  | heat (h : Heatmap) : UpToP c (.heatmap h) (.heatmap h)

inductive UpToL (c : Prop) : AnyLayer → AnyLayer → Prop
  | passive (L : PassiveLayer) : UpToL c (.passive L) (.passive L)
  | detector (D : DetLayer) (ps : List AnyPanel) : List.Forall₂ (UpToP c) D.panels ps → UpToL c (.detector D) (.detector { D with panels := ps })

theorem reopen_built {c : Prop} {p q : AnyPanel} (h : BuiltP c p q) : UpToP c p (reopen p q) := by
  cases h with
  | panel p q h1 h2 h3 h4 =>
    simp only [reopen, h2, h3]
    exact .panel p _ h4
  | heat h g h1 h2 h3 h4 =>
    simp only [reopen, h2, h3, h4]
    exact .heat h

theorem built_alike {c : Prop} {p q : AnyPanel} (h : BuiltP c p q) : AlikeP p q := by cases h <;> assumption

theorem loadDets_built {c : Prop} {ps qs : List AnyPanel} (h : List.Forall₂ (BuiltP c) ps qs) : ∀ (g : Nat → String → Option (List ℝ)) (j : Nat),
    (∀ k p, ps[k]? = some p → ∀ f, g (j + k) f = fields p f) → List.Forall₂ (UpToP c) ps (loadDets g j qs) := by
  induction h with
  | nil => intro g j _; exact .nil
  | @cons p q ps qs h hs ih =>
    intro g j hg
    refine .cons ?_ (ih g (j + 1) fun k p hk f => ?_)
    · rw [loadDet_reopen (g j) p q (built_alike h) (hg 0 p rfl)]
      exact reopen_built h
    · rw [show j + 1 + k = j + (k + 1) by omega]
      exact hg (k + 1) p hk f

theorem loadLayers_built {c : Prop} {ls ms : List AnyLayer} (h : List.Forall₂ (BuiltL c) ls ms) : ∀ (file : File) (i : Nat),
    (∀ k l, ls[k]? = some l → ∀ j p, (dets l)[j]? = some p → ∀ f, file (.part (i + k) j f) = fields p f) → List.Forall₂ (UpToL c) ls (loadLayers file i ms) := by
  induction h with
  | nil => intro file i _; exact .nil
  | @cons l m ls ms h hs ih =>
    intro file i hf
    have ih' := ih file (i + 1) fun k l hk j p hp f => by
      rw [show i + 1 + k = i + (k + 1) by omega]
      exact hf (k + 1) l hk j p hp f
    cases h with
    | passive L => exact .cons (.passive L) ih'
    | detector D E h1 h2 h3 h4 h5 =>
      refine .cons ?_ ih'
      have hd := loadDets_built h5 (fun j f => file (.part i j f)) 0 fun k p hk f => by
        rw [Nat.zero_add]
        exact hf 0 _ rfl k p hk f
      have := UpToL.detector (c := c) D _ hd
      rw [h1, h2, h3, h4]
      exact this

theorem upto_eq {ps qs : List AnyPanel} {c : Prop} (hc : c) (h : List.Forall₂ (UpToP c) ps qs) : ps = qs := by
  induction h with
  | nil => rfl
  | cons h _ ih =>
    rw [ih]
    cases h with
    | panel p s h => rw [h hc]
    | heat h => rfl

theorem uptoL_eq {ls ms : List AnyLayer} {c : Prop} (hc : c) (h : List.Forall₂ (UpToL c) ls ms) : ls = ms := by
  induction h with
  | nil => rfl
  | cons h _ ih =>
    rw [ih]
    cases h with
    | passive L => rfl
    | detector D ps h => rw [← upto_eq hc h]

theorem upto_z {c : Prop} {ps qs : List AnyPanel} (h : List.Forall₂ (UpToP c) ps qs) : qs.map AnyPanel.z = ps.map AnyPanel.z := by
  induction h with
  | nil => rfl
  | cons h _ ih =>
    rw [List.map_cons, List.map_cons, ih]
    cases h <;> rfl

/-- assigning shares forgets the old scales -/
theorem assignLoop_upto {c : Prop} (shares : List ℝ) : ∀ (js : List Nat) (i : Nat) (ps qs : List AnyPanel), List.Forall₂ (UpToP c) ps qs → (∀ j, j ∉ js → ps[j]? = qs[j]?) →
    DetLayer.assignLoop shares js i ps = DetLayer.assignLoop shares js i qs := by
  intro js
  induction js with
  | nil =>
    intro i ps qs h hj
    have : ps = qs := List.ext_getElem? fun j => hj j (by simp)
    rw [this]
  | cons j js ih =>
    intro i ps qs h hj
    unfold DetLayer.assignLoop
    by_cases hlt : j < ps.length
    · have hlt' : j < qs.length := h.length_eq ▸ hlt
      have hr := (List.forall₂_iff_get.mp h).2 j hlt hlt'
      simp only [List.get_eq_getElem] at hr
      rw [List.getElem?_eq_getElem hlt, List.getElem?_eq_getElem hlt']
      cases hv : shares[i]? with
      | none => rfl
      | some v =>
        have step : ∀ p', DetLayer.assignLoop shares js (i + 1) (ps.set j p') = DetLayer.assignLoop shares js (i + 1) (qs.set j p') ∨ ¬ UpToP c p' p' := by
          intro p'
          by_cases hp' : UpToP c p' p'
          · left
            refine ih (i + 1) _ _ ?_ ?_
            · rw [List.forall₂_iff_get]
              refine ⟨by simp [h.length_eq], fun k hk hk' => ?_⟩
              simp only [List.get_eq_getElem, List.getElem_set]
              split
              · exact hp'
              · exact (List.forall₂_iff_get.mp h).2 k (by simpa using hk) (by simpa using hk')
            · intro k hk
              by_cases e : j = k
              · subst e
                rw [List.getElem?_set_self hlt, List.getElem?_set_self hlt']
              · rw [List.getElem?_set_ne e, List.getElem?_set_ne e]
                exact hj k (by simp only [List.mem_cons, not_or]; exact ⟨fun h => e h.symm, hk⟩)
          · exact .inr hp'
        generalize ps[j] = a at hr
        generalize qs[j] = b at hr
        cases hr with
        | panel p s hs =>
          simp only [AnyPanel.assignBudget, Panel.assignBudget]
          rcases step (.panel (p.assignBudget (some v))) with h1 | h1
          · exact h1
          · exact absurd (.panel _ _ fun _ => rfl) h1
        | heat g => rfl
    · have h1 : ps[j]? = none := List.getElem?_eq_none (not_lt.mp hlt)
      have h2 : qs[j]? = none := List.getElem?_eq_none (by rw [← h.length_eq]; exact not_lt.mp hlt)
      rw [h1, h2]

theorem assignBudget_upto {c : Prop} {argsort : List ℝ → List Nat} (ha : IsArgsort argsort) (D : DetLayer) (ps : List AnyPanel) (h : List.Forall₂ (UpToP c) D.panels ps) (shares : List ℝ) :
    ({ D with panels := ps } : DetLayer).assignBudget argsort (some shares) = D.assignBudget argsort (some shares) := by
  have hz : ({ D with panels := ps } : DetLayer).zorder argsort = D.zorder argsort := by simp only [DetLayer.zorder, upto_z h]
  simp only [DetLayer.assignBudget, hz]
  rw [assignLoop_upto shares (D.zorder argsort) 0 D.panels ps h fun j hj => ?_]
  have hn : ¬ j < D.panels.length := fun hlt => hj ((zorder_perm ha D).mem_iff.mpr (List.mem_range.mpr hlt))
  rw [List.getElem?_eq_none (not_lt.mp hn), List.getElem?_eq_none (by rw [← h.length_eq]; exact not_lt.mp hn)]

theorem assignLayers_upto {c : Prop} {argsort : List ℝ → List Nat} (ha : IsArgsort argsort) (shares : List ℝ) (nCosts : List Nat) {ls ms : List AnyLayer} (h : List.Forall₂ (UpToL c) ls ms) :
    ∀ bi li, Volume.assignLoop argsort shares nCosts bi li ms = Volume.assignLoop argsort shares nCosts bi li ls := by
  induction h with
  | nil => intro bi li; rfl
  | cons h _ ih =>
    intro bi li
    cases h with
    | passive L => simp only [Volume.assignLoop, ih]
    | detector D ps h => simp only [Volume.assignLoop, ih, assignBudget_upto ha D ps h]

/- the places of panels -/

/-- the same place, and panels alike -/
def SamePlace (x y : Nat × Nat × AnyPanel) : Prop := x.1 = y.1 ∧ x.2.1 = y.2.1 ∧ AlikeP x.2.2 y.2.2

theorem zipIdx_rel {α β : Type} {R : α → β → Prop} {l : List α} {m : List β} (h : List.Forall₂ R l m) : ∀ n, List.Forall₂ (fun x y => x.2 = y.2 ∧ R x.1 y.1) (l.zipIdx n) (m.zipIdx n) := by
  induction h with
  | nil => intro n; exact .nil
  | cons h _ ih => intro n; exact .cons ⟨rfl, h⟩ (ih (n + 1))

theorem flatMap_rel {α β γ δ : Type} {R : α → β → Prop} {Q : γ → δ → Prop} (f : α → List γ) (g : β → List δ) (hfg : ∀ a b, R a b → List.Forall₂ Q (f a) (g b)) {l : List α} {m : List β} (h : List.Forall₂ R l m) :
    List.Forall₂ Q (l.flatMap f) (m.flatMap g) := by
  induction h with
  | nil => exact .nil
  | cons h _ ih => exact List.rel_append (hfg _ _ h) ih

theorem alike_layers (V W : Volume) (h : Alike V W) (hl : V.layers.length = W.layers.length) : List.Forall₂ (fun l m => List.Forall₂ AlikeP (dets l) (dets m)) V.layers W.layers := by
  rw [List.forall₂_iff_get]
  refine ⟨hl, fun i hi hi' => ?_⟩
  have hp := h.panels i
  simp only [panelAt, List.getElem?_eq_getElem hi, List.getElem?_eq_getElem hi', Option.bind_some] at hp
  simp only [List.get_eq_getElem]
  have hlen : (dets V.layers[i]).length = (dets W.layers[i]).length := by
    rcases lt_trichotomy (dets V.layers[i]).length (dets W.layers[i]).length with h1 | h1 | h1
    · rcases hp (dets V.layers[i]).length with ⟨-, h3⟩ | ⟨p, q, h2, -, -⟩
      · rw [List.getElem?_eq_none_iff] at h3
        omega
      · rw [List.getElem?_eq_none (le_refl _)] at h2
        simp at h2
    · exact h1
    · rcases hp (dets W.layers[i]).length with ⟨h3, -⟩ | ⟨p, q, -, h2, -⟩
      · rw [List.getElem?_eq_none_iff] at h3
        omega
      · rw [List.getElem?_eq_none (le_refl _)] at h2
        simp at h2
  rw [List.forall₂_iff_get]
  refine ⟨hlen, fun j hj hj' => ?_⟩
  simp only [List.get_eq_getElem]
  rcases hp j with ⟨h1, -⟩ | ⟨p, q, h1, h2, h3⟩
  · rw [List.getElem?_eq_getElem hj] at h1
    simp at h1
  · rw [List.getElem?_eq_getElem hj] at h1
    rw [List.getElem?_eq_getElem hj'] at h2
    rw [Option.some.inj h1, Option.some.inj h2]
    exact h3

theorem places_rel (V W : Volume) (h : Alike V W) (hl : V.layers.length = W.layers.length) : List.Forall₂ SamePlace (places V) (places W) := by
  refine flatMap_rel _ _ ?_ (zipIdx_rel (alike_layers V W h hl) 0)
  rintro ⟨l, i⟩ ⟨m, i'⟩ ⟨rfl, hlm⟩
  have := zipIdx_rel hlm 0
  simp only
  rw [List.forall₂_map_left_iff, List.forall₂_map_right_iff]
  exact this.imp fun a b hab => ⟨rfl, hab.1, hab.2⟩

theorem field_rel (V W : Volume) (h : Alike V W) (hl : V.layers.length = W.layers.length) (f : String) (heat : Bool) : field f heat V = field f heat W := by
  unfold field
  have := places_rel V W h hl
  generalize places V = a at this
  generalize places W = b at this
  induction this with
  | nil => rfl
  | @cons x y a b hxy _ ih =>
    obtain ⟨i, j, p⟩ := x
    obtain ⟨i', j', q⟩ := y
    obtain ⟨rfl, rfl, hpq⟩ := hxy
    simp only at hpq
    simp only [mapE, ih]
    cases hpq <;> cases heat <;> rfl

theorem heights_rel (V W : Volume) (h : Alike V W) (hl : V.layers.length = W.layers.length) : heights V = heights W := by
  unfold heights
  have := places_rel V W h hl
  generalize places V = a at this
  generalize places W = b at this
  congr 1
  induction this with
  | nil => rfl
  | @cons x y a b hxy _ ih =>
    obtain ⟨i, j, p⟩ := x
    obtain ⟨i', j', q⟩ := y
    obtain ⟨rfl, rfl, hpq⟩ := hxy
    simp only [List.map_cons, ih]

/- optimisers -/

variable {S : Type}

/-- optimisers made from the same parameters with other settings -/
theorem newOpts_rel (l m : List (String × Dict String Optims.Hyper × Except Err (List Key))) (h : List.Forall₂ (fun x y => x.1 = y.1 ∧ x.2.2 = y.2.2) l m) : ∀ a : Dict String (Opt S), newOpts l = .ok a →
    ∃ b : Dict String (Opt S), newOpts m = .ok b ∧ SameParams a b ∧ a.map (·.1) = l.map (·.1) := by
  induction h with
  | nil =>
    intro a ha
    simp only [newOpts, Except.ok.injEq] at ha
    subst ha
    exact ⟨[], rfl, .nil, rfl⟩
  | @cons x y l m hxy _ ih =>
    intro a ha
    obtain ⟨k, d, ks⟩ := x
    obtain ⟨k', d', ks'⟩ := y
    obtain ⟨rfl, h2⟩ := hxy
    simp only at h2
    subst h2
    cases ks with
    | error e => simp [newOpts, newOpt] at ha
    | ok ks =>
      cases ks with
      | nil => simp [newOpts, newOpt] at ha
      | cons k0 ks =>
        simp only [newOpts, newOpt] at ha ⊢
        cases hl : newOpts (S := S) l with
        | error e => rw [hl] at ha; simp at ha
        | ok a' =>
          rw [hl] at ha
          simp only [Except.ok.injEq] at ha
          obtain ⟨b', h1, h2, h3⟩ := ih a' hl
          rw [h1]
          subst ha
          refine ⟨_, rfl, .cons ⟨rfl, rfl⟩ h2, ?_⟩
          simp [h3]

theorem SameParams.trans' {a b c : Dict String (Opt S)} (h1 : SameParams a b) (h2 : SameParams a c) : SameParams b c := by
  unfold SameParams at *
  induction h1 generalizing c with
  | nil => cases h2; exact .nil
  | cons h _ ih =>
    cases h2 with
    | cons h' hs => exact .cons ⟨h.1.symm.trans h'.1, h.2.symm.trans h'.2⟩ (ih hs)

theorem SameParams.names {a b : Dict String (Opt S)} (h : SameParams a b) : a.map (·.1) = b.map (·.1) := by
  unfold SameParams at h
  induction h with
  | nil => rfl
  | cons h _ ih => simp only [List.map_cons, ih, h.1]

/-- a file with an optimiser that is not there is refused -/
theorem loadOpts_missing (k : String) (hk : SaveLoad.isOpt k = true) : ∀ (d : Dict String (SavedOpt S)) (o : Dict String (Opt S)), k ∈ d.map (·.1) → o.get? k = none → ∃ e, loadOpts d o = .error e := by
  intro d
  induction d with
  | nil => intro o h; simp at h
  | cons x d ih =>
    intro o h ho
    obtain ⟨k', s⟩ := x
    simp only [loadOpts]
    by_cases e : k' = k
    · subst e
      rw [if_pos hk, ho]
      exact ⟨_, rfl⟩
    · have hm : k ∈ d.map (·.1) := by
        simp only [List.map_cons, List.mem_cons] at h
        exact h.resolve_left fun h => e h.symm
      split
      · cases hx : o.get? k' with
        | none => exact ⟨_, rfl⟩
        | some x =>
          dsimp only
          cases hy : loadOpt s x with
          | error e => exact ⟨_, rfl⟩
          | ok y =>
            dsimp only
            refine ih (o.set k' y) hm ?_
            have : (o.set k' y).get? k = if k' = k then some y else o.get? k := SaveLoad.get?_set o k' k y
            rw [this, if_neg e, ho]
      · exact ih o hm ho

theorem mapZip (gs hs : List Group) (h : gs.map (·.params) = hs.map (·.params)) : (hs.zip (gs.map fun g => (g.params.length, g.hyper))).map (fun x => (⟨x.1.params, x.2.2⟩ : Group)) = gs := by
  induction gs generalizing hs with
  | nil => simp at h; simp [h]
  | cons g gs ih =>
    cases hs with
    | nil => simp at h
    | cons h0 hs =>
      simp only [List.map_cons, List.cons.injEq] at h
      simp only [List.map_cons, List.zip_cons_cons, ih hs h.2, ← h.1]

theorem loadOpt_save (a b : Opt S) (ha : Proper a) (h : a.groups.map (·.params) = b.groups.map (·.params)) : loadOpt (saveOpt a) b = .ok a := by
  have hp : b.params = a.params := by
    simp only [Opt.params, List.flatMap_def, h]
  have hl : (saveOpt a).groups.map (·.1) = b.groups.map (·.params.length) := by
    have := congrArg (List.map List.length) h
    simpa [saveOpt, List.map_map, Function.comp_def] using this
  rw [loadOpt, if_pos hl]
  have hst : (fun k => if k ∈ b.params then ((saveOpt a).state[b.params.idxOf k]?).join else none) = a.state := by
    funext k
    rw [hp]
    by_cases hk : k ∈ a.params
    · rw [if_pos hk]
      simp only [saveOpt, List.getElem?_map]
      rw [List.getElem?_idxOf hk]
      rfl
    · rw [if_neg hk, ha.2 k hk]
  rw [hst]
  simp only [saveOpt, mapZip _ _ h]

theorem get_append (pre : Dict String (Opt S)) (k : String) (x : Opt S) (post : Dict String (Opt S)) (h : k ∉ pre.map (·.1)) : Dict.get? (pre ++ (k, x) :: post) k = some x := by
  induction pre with
  | nil => simp [Dict.get?]
  | cons a pre ih =>
    simp only [List.map_cons, List.mem_cons, not_or] at h
    simp only [List.cons_append, Dict.get?]
    rw [if_neg fun e => h.1 e.symm, ih h.2]

theorem set_append (pre : Dict String (Opt S)) (k : String) (x y : Opt S) (post : Dict String (Opt S)) (h : k ∉ pre.map (·.1)) : Dict.set (pre ++ (k, x) :: post) k y = pre ++ (k, y) :: post := by
  induction pre with
  | nil => simp [Dict.set, Dict.modify]
  | cons a pre ih =>
    simp only [List.map_cons, List.mem_cons, not_or] at h
    have := ih h.2
    simp only [Dict.set] at this ⊢
    simp only [List.cons_append, Dict.modify]
    rw [if_neg fun e => h.1 e.symm, this]

theorem loadOpts_save (a b : Dict String (Opt S)) (h : SameParams a b) (hp : ∀ x ∈ a, Proper x.2) (ho : ∀ x ∈ a, SaveLoad.isOpt x.1 = true) : ∀ pre : Dict String (Opt S), ((pre ++ a).map (·.1)).Nodup →
    loadOpts (a.mapVals saveOpt) (pre ++ b) = .ok (pre ++ a) := by
  induction h with
  | nil => intro pre _; rfl
  | @cons x y a b hxy _ ih =>
    intro pre hn
    obtain ⟨k, u⟩ := x
    obtain ⟨k', v⟩ := y
    obtain ⟨rfl, h2⟩ := hxy
    have hk : k ∉ pre.map (·.1) := by
      simp only [List.map_append, List.map_cons, List.nodup_append] at hn
      intro hk
      exact hn.2.2 k hk k (by simp) rfl
    simp only [Dict.mapVals, List.map_cons, loadOpts]
    rw [if_pos (ho (k, u) (by simp)), get_append pre k v b hk]
    simp only
    rw [loadOpt_save u v (hp (k, u) (by simp)) h2]
    simp only
    rw [set_append pre k v u b hk]
    have := ih (fun x hx => hp x (List.mem_cons_of_mem _ hx)) (fun x hx => ho x (List.mem_cons_of_mem _ hx)) (pre ++ [(k, u)]) (by simpa using hn)
    simpa [Dict.mapVals] using this

theorem place_at (V : Volume) (x : Nat × Nat × AnyPanel) (hx : x ∈ places V) : panelAt V x.1 x.2.1 = some x.2.2 := by
  obtain ⟨⟨l, i⟩, hl, hx⟩ := List.mem_flatMap.mp hx
  obtain ⟨⟨p, j⟩, hp, rfl⟩ := List.mem_map.mp hx
  have h1 := List.mem_zipIdx_iff_getElem?.mp hl
  have h2 := List.mem_zipIdx_iff_getElem?.mp hp
  simp only at h1 h2
  simp only [panelAt, h1, Option.bind_some, h2]

end Reopen

end

end Tomopt
