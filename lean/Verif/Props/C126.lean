import Verif.Lemmas.Shared
import Verif.Lemmas.Access
import Verif.Props.C34_36
import Verif.Props.C100

/- C126: what an inferrer answers is fixed by the scatters it was given. -/
namespace Tomopt

noncomputable section

namespace C126

open Infer Shared

variable {α : Type}

theorem cat_length (v : Var) (bs : List ScVars) : (catVals v bs).length = (bs.map fun b => (b.vals v).length).sum := by
  simp [catVals, List.length_flatMap]

theorem now_get {mus : List (Batch α)} {i : Nat} {b : Batch α} (own : ScVars) (h : mus[i]? = some b) : (Held.now mus ⟨own, i⟩).vals .mom = moms b := by
  simp [Held.now, h]

theorem now_poca (mus : List (Batch α)) (h : Held) : (h.now mus).vals .poca = h.own.vals .poca := rfl

theorem fresh_now {mus : List (Batch α)} {h : Held} (hf : Fresh mus h.mu h.own) : ((h.now mus).vals .mom).length = ((h.now mus).vals .poca).length := by
  obtain ⟨b, hb, hl⟩ := hf
  rw [show h = ⟨h.own, h.mu⟩ from rfl, now_get h.own hb, moms_length, now_poca]
  exact (hl .poca (by decide)).symm

theorem fresh_clash {mus : List (Batch α)} {held : List Held} (hf : ∀ h ∈ held, Fresh mus h.mu h.own) : clash (held.map (·.now mus)) = none := by
  have : (catVals .mom (held.map (·.now mus))).length = (catVals .poca (held.map (·.now mus))).length := by
    rw [cat_length, cat_length, List.map_map, List.map_map]
    congr 1
    exact List.map_congr_left fun h hh => fresh_now (hf h hh)
  simp [clash, this]

/-- the scatter batches of a program see what they saw when they were added -/
structure Steady (s : Shared.St α) (used : List Nat) : Prop where
  batches : s.held.map (·.now s.mus) = s.memo.batches
  fresh : ∀ h ∈ s.held, Fresh s.mus h.mu h.own
  used : ∀ h ∈ s.held, h.mu ∈ used

theorem now_ext {mus mus' : List (Batch α)} {h : Held} (hm : mus'[h.mu]?.map moms = mus[h.mu]?.map moms) : h.now mus' = h.now mus := by
  simp only [Held.now, hm]

theorem fresh_ext {mus mus' : List (Batch α)} {h : Held} (hm : mus'[h.mu]?.map moms = mus[h.mu]?.map moms) (hf : Fresh mus h.mu h.own) : Fresh mus' h.mu h.own := by
  obtain ⟨b, hb, hl⟩ := hf
  rw [hb] at hm
  rcases hb' : mus'[h.mu]? with _ | b'
  · rw [hb'] at hm; simp at hm
  · rw [hb'] at hm
    simp only [Option.map_some, Option.some.injEq] at hm
    refine ⟨b', hb', fun v hv => (hl v hv).trans ?_⟩
    have := congrArg List.length hm
    rw [moms_length, moms_length] at this
    exact this.symm

theorem modify_get (mus : List (Batch α)) (i j : Nat) (f : Batch α → Batch α) (hf : i = j → ∀ b, mus[j]? = some b → moms (f b) = moms b) :
    (mus.modify i f)[j]?.map moms = mus[j]?.map moms := by
  rw [List.getElem?_modify]
  by_cases hij : i = j
  · rcases hb : mus[j]? with _ | b
    · rfl
    · simp [hij, hf hij b hb]
  · rcases hb : mus[j]? with _ | b <;> simp [hij]

theorem steady_ext {s : Shared.St α} {used : List Nat} (h : Steady s used) (mus' : List (Batch α)) (hm : ∀ x ∈ s.held, mus'[x.mu]?.map moms = s.mus[x.mu]?.map moms) :
    Steady { s with mus := mus' } used :=
  ⟨(List.map_congr_left fun x hx => now_ext (hm x hx)).trans h.batches, fun x hx => fresh_ext (hm x hx) (h.fresh x hx), h.used⟩

theorem same_of (c : Conf) (es : List (Event α)) : ∀ (s : Shared.St α) (used : List Nat), Steady s used → AllFresh s.mus es → Undisturbed s.mus used es →
    Shared.run c s es = Infer.run c s.memo (copied s.mus es) := by
  induction es with
  | nil => intro s used _ _ _; rfl
  | cons e es ih =>
    intro s used hs hf hu
    cases e with
    | call i op =>
      have := ih { s with mus := s.mus.modify i fun b => (b.exec op).1 } used (steady_ext hs _ fun x hx => modify_get _ _ _ _ fun hi b hb => by
        have hl := hu.1 (hi ▸ hs.used x hx) b (hi ▸ hb)
        exact (exec_moms b op).eq_of_length (by rw [moms_length, moms_length, hl])) hf hu.2
      simpa only [Shared.run, Shared.step, Option.toList, List.nil_append, copied, after] using this
    | momenta i v =>
      have := ih { s with mus := s.mus.modify i fun b => if v.length = b.muons.length then setMoms b v else b } used
        (steady_ext hs _ fun x hx => modify_get _ _ _ _ fun hi b hb => absurd (hi ▸ hs.used x hx) hu.1) hf hu.2
      simpa only [Shared.run, Shared.step, Option.toList, List.nil_append, copied, after] using this
    | add i own =>
      have hst : Steady (Shared.step c s (.add i own)).1 (i :: used) := by
        refine ⟨?_, ?_, ?_⟩
        · simp [Shared.step, addScatters]
        · intro h hh
          simp only [Shared.step, List.mem_append, List.mem_singleton] at hh
          rcases hh with hh | rfl
          · exact hs.fresh h hh
          · exact hf.1
        · intro h hh
          simp only [Shared.step, List.mem_append, List.mem_singleton] at hh
          rcases hh with hh | rfl
          · exact List.mem_cons_of_mem _ (hs.used h hh)
          · exact List.mem_cons_self
      have hm : (Shared.step c s (.add i own)).1.memo = (Infer.step c s.memo (.add (Held.now s.mus ⟨own, i⟩))).1 := by
        simp only [Shared.step, Infer.step, addScatters, hs.batches]
      have := ih _ _ hst hf.2 hu
      rw [hm] at this
      simp only [Shared.run, copied, Infer.run]
      rw [this]
      rfl
    | ask q =>
      have ha : ask c s q = ({ s with memo := (Infer.step c s.memo q.op).1 }, (Infer.step c s.memo q.op).2) := by
        unfold ask
        rcases hv : s.memo.vars with _ | v
        · have hc := fresh_clash hs.fresh
          simp only [hs.batches] at hc ⊢
          simp only [hc]
        · rfl
      have hst : Steady { s with memo := (Infer.step c s.memo q.op).1 } used := ⟨hs.batches.trans (step_ext c s.memo q).1.batches.symm, hs.fresh, hs.used⟩
      have := ih _ _ hst hf hu
      simp only [Shared.run, Shared.step, ha, Option.toList, copied, Infer.run, List.singleton_append]
      rw [this]

/-- **C126: answers come from the scatters as they were added.** In every program that, after it added scatters of a muon batch, neither removes muons of that batch nor
writes their momenta, all answers of the inferrer are those from copies of the scatter batches made when they were added. In particular, the muons may be moved,
scattered (unless they would be removed), recorded and measured again. -/
theorem same (c : Conf) (mus : List (Batch α)) (es : List (Event α)) (hf : AllFresh mus es) (hu : Undisturbed mus [] es) :
    Shared.run c (Shared.St.init mus) es = Infer.run c Infer.St.init (copied mus es) :=
  same_of c es (Shared.St.init mus) [] ⟨rfl, fun _ h => by simp [Shared.St.init] at h, fun _ h => by simp [Shared.St.init] at h⟩ hf hu

/-- **C126, what the answers are.** If the efficiencies can be computed, every answer of such a program is the one computed from all batches added so far, as they were
when they were added. -/
theorem answers (c : Conf) (mus : List (Batch α)) (es : List (Event α)) (hf : AllFresh mus es) (hu : Undisturbed mus [] es) (he : C35.EffOk c (copied mus es)) :
    Shared.run c (Shared.St.init mus) es = C35.wantRun c [] (copied mus es) :=
  (same c mus es hf hu).trans (C35.history c _ he)

/-! ### Muons lost -/

theorem fail_failed (e : Err) (q : Ask) : Failed (q.fail e) := by cases q <;> exact ⟨e, rfl⟩

/-- how many momenta, and how many rows of the other variables, the scatter batches have together -/
def momTotal (s : Shared.St α) : Nat := (catVals .mom (s.held.map (·.now s.mus))).length
def rowTotal (s : Shared.St α) : Nat := (catVals .poca (s.held.map (·.now s.mus))).length

theorem momTotal_eq (s : Shared.St α) : momTotal s = (s.held.map fun h => ((h.now s.mus).vals .mom).length).sum := by
  rw [momTotal, cat_length, List.map_map]; rfl
theorem rowTotal_eq (s : Shared.St α) : rowTotal s = (s.held.map fun h => (h.own.vals .poca).length).sum := by
  rw [rowTotal, cat_length, List.map_map]; rfl

theorem after_le (mus : List (Batch α)) (e : Event α) (h : Held) : ((h.now (after mus e)).vals .mom).length ≤ ((h.now mus).vals .mom).length := by
  have key : ∀ (i : Nat) (f : Batch α → Batch α), (∀ b, (f b).muons.length ≤ b.muons.length) →
      ((h.now (mus.modify i f)).vals .mom).length ≤ ((h.now mus).vals .mom).length := by
    intro i f hf
    simp only [Held.now, List.getElem?_modify]
    rcases hb : mus[h.mu]? with _ | b
    · simp
    · by_cases hi : i = h.mu
      · simp [hi, moms_length, hf b]
      · simp [hi]
  cases e with
  | call i op => exact key i _ fun b => exec_le b op
  | momenta i v =>
    refine key i _ fun b => ?_
    split
    · rename_i hv; exact (setMoms_length b v hv).le
    · exact le_refl _
  | add i own => exact le_refl _
  | ask q => exact le_refl _

theorem step_mus (c : Conf) (s : Shared.St α) (e : Event α) : (Shared.step c s e).1.mus = after s.mus e := by
  cases e with
  | ask q =>
    simp only [Shared.step, after, ask]
    split
    · rfl
    · split <;> rfl
  | _ => rfl

theorem step_held (c : Conf) (s : Shared.St α) (e : Event α) (he : ∀ i own, e ≠ .add i own) : (Shared.step c s e).1.held = s.held := by
  cases e with
  | ask q =>
    simp only [Shared.step, ask]
    split
    · rfl
    · split <;> rfl
  | add i own => exact absurd rfl (he i own)
  | _ => rfl

theorem sum_le {β : Type} (l : List β) (f g : β → Nat) (h : ∀ x ∈ l, f x ≤ g x) : (l.map f).sum ≤ (l.map g).sum := by
  induction l with
  | nil => simp
  | cons x l ih =>
    simp only [List.map_cons, List.sum_cons]
    exact Nat.add_le_add (h x (by simp)) (ih fun y hy => h y (by simp [hy]))

theorem sum_lt {β : Type} (l : List β) (f g : β → Nat) (h : ∀ x ∈ l, f x ≤ g x) {y : β} (hy : y ∈ l) (hl : f y < g y) : (l.map f).sum < (l.map g).sum := by
  induction l with
  | nil => simp at hy
  | cons x l ih =>
    simp only [List.map_cons, List.sum_cons]
    rcases List.mem_cons.mp hy with rfl | hy
    · exact Nat.add_lt_add_of_lt_of_le hl (sum_le l f g fun z hz => h z (by simp [hz]))
    · exact Nat.add_lt_add_of_le_of_lt (h x (by simp)) (ih (fun z hz => h z (by simp [hz])) hy)

theorem short_clash {s : Shared.St α} (h : momTotal s < rowTotal s) : ∃ e, clash (s.held.map (·.now s.mus)) = some e := by
  unfold momTotal rowTotal at h
  unfold clash
  simp only [h.ne, if_false]
  split
  · exact ⟨_, rfl⟩
  · exact ⟨_, rfl⟩

theorem short_ask (c : Conf) {s : Shared.St α} (hv : s.memo.vars = none) (h : momTotal s < rowTotal s) (q : Ask) : ∃ e, ask c s q = (s, q.fail e) := by
  obtain ⟨e, he⟩ := short_clash h
  exact ⟨e, by simp only [ask, hv, he]⟩

theorem allFresh_cons {mus : List (Batch α)} {e : Event α} {es : List (Event α)} (h : AllFresh mus (e :: es)) : AllFresh (after mus e) es := by
  cases e with
  | add i own => exact h.2
  | _ => exact h

theorem lost_of (c : Conf) (es : List (Event α)) : ∀ s : Shared.St α, s.memo.vars = none → momTotal s < rowTotal s → AllFresh s.mus es →
    ∀ a ∈ Shared.run c s es, a = .done ∨ Failed a := by
  induction es with
  | nil => intro s _ _ _ a ha; simp [Shared.run] at ha
  | cons e es ih =>
    intro s hv hl hf a ha
    have hf' := allFresh_cons hf
    rw [← step_mus c s e] at hf'
    simp only [Shared.run, List.mem_append] at ha
    have cont : (Shared.step c s e).1.memo.vars = none → momTotal (Shared.step c s e).1 < rowTotal (Shared.step c s e).1 →
        ((Shared.step c s e).2 = none ∨ ∃ x, (Shared.step c s e).2 = some x ∧ (x = .done ∨ Failed x)) → a = .done ∨ Failed a := by
      intro h1 h2 h3
      rcases ha with ha | ha
      · rcases h3 with h3 | ⟨x, h3, hx⟩
        · rw [h3] at ha; simp at ha
        · rw [h3] at ha
          simp only [Option.toList, List.mem_singleton] at ha
          rw [ha]; exact hx
      · exact ih _ h1 h2 hf' a ha
    have shrink : (∀ i own, e ≠ .add i own) → momTotal (Shared.step c s e).1 < rowTotal (Shared.step c s e).1 := by
      intro hne
      rw [rowTotal_eq, momTotal_eq, step_held c s e hne, step_mus]
      rw [rowTotal_eq, momTotal_eq] at hl
      exact (sum_le _ _ _ fun h _ => after_le s.mus e h).trans_lt hl
    cases e with
    | call i op => exact cont hv (shrink (by simp)) (.inl rfl)
    | momenta i v => exact cont hv (shrink (by simp)) (.inl rfl)
    | ask q =>
      obtain ⟨x, hx⟩ := short_ask c hv hl q
      have hs : Shared.step c s (.ask q) = (s, some (q.fail x)) := by simp only [Shared.step, hx]
      rw [hs] at cont
      exact cont hv hl (.inr ⟨_, rfl, .inr (fail_failed x q)⟩)
    | add i own =>
      refine cont rfl ?_ (.inr ⟨_, rfl, .inl rfl⟩)
      have hn := fresh_now (h := ⟨own, i⟩) hf.1
      rw [rowTotal_eq, momTotal_eq] at hl ⊢
      simp only [Shared.step, List.map_append, List.map_cons, List.map_nil, List.sum_append, List.sum_cons, List.sum_nil]
      rw [now_poca] at hn
      simp only at hn
      omega

/-- every scatter batch has at most as many muons left as it has rows -/
def Shrunk (s : Shared.St α) : Prop := ∀ h ∈ s.held, ((h.now s.mus).vals .mom).length ≤ (h.own.vals .poca).length

theorem shrunk_step (c : Conf) (s : Shared.St α) (e : Event α) (h : Shrunk s) (es : List (Event α)) (hf : AllFresh s.mus (e :: es)) : Shrunk (Shared.step c s e).1 := by
  intro x hx
  rw [step_mus]
  by_cases ha : ∃ i own, e = .add i own
  · obtain ⟨i, own, rfl⟩ := ha
    simp only [Shared.step, List.mem_append, List.mem_singleton] at hx
    rcases hx with hx | rfl
    · exact h x hx
    · exact (fresh_now (h := ⟨own, i⟩) hf.1).le
  · rw [step_held c s e fun i own he => ha ⟨i, own, he⟩] at hx
    exact (after_le s.mus e x).trans (h x hx)

theorem final_facts (c : Conf) (es es2 : List (Event α)) : ∀ s : Shared.St α, Shrunk s → AllFresh s.mus (es ++ es2) →
    Shrunk (final c s es) ∧ AllFresh (final c s es).mus es2 := by
  induction es with
  | nil => intro s h hf; exact ⟨h, hf⟩
  | cons e es ih =>
    intro s h hf
    have h1 := shrunk_step c s e h _ hf
    have h2 := allFresh_cons hf
    rw [← step_mus c s e] at h2
    exact ih _ h1 h2

theorem final_append (c : Conf) (es es' : List (Event α)) : ∀ s : Shared.St α, final c s (es ++ es') = final c (final c s es) es' := by
  induction es with
  | nil => intro s; rfl
  | cons e es ih => intro s; exact ih _

theorem quiet (c : Conf) (es : List (Event α)) : ∀ s : Shared.St α, s.memo.vars = none → (∀ e ∈ es, e.isAsk = false) → (final c s es).memo.vars = none := by
  induction es with
  | nil => intro s h _; exact h
  | cons e es ih =>
    intro s h hq
    refine ih _ ?_ fun x hx => hq x (by simp [hx])
    have := hq e (by simp)
    cases e with
    | ask q => simp [Event.isAsk] at this
    | add i own => rfl
    | _ => exact h

/-- **C126, muons lost.** If a scatter batch has lost muons before the first question after the last addition, then from then on every question fails, whatever the
program does: there is no way back to a prediction with this inferrer. -/
theorem lost (c : Conf) (mus : List (Batch α)) (es0 : List (Event α)) (i : Nat) (own : ScVars) (es1 es2 : List (Event α))
    (hf : AllFresh mus ((es0 ++ .add i own :: es1) ++ es2)) (hq : ∀ e ∈ es1, e.isAsk = false) (s : Shared.St α)
    (hs : s = final c (Shared.St.init mus) (es0 ++ .add i own :: es1))
    (hl : ∃ h ∈ s.held, ∃ b, s.mus[h.mu]? = some b ∧ b.muons.length < (h.own.vals .poca).length) :
    (∀ a ∈ Shared.run c s es2, a = .done ∨ Failed a) ∧ ∀ q, (ask c s q).1 = s := by
  obtain ⟨h1, h2⟩ := final_facts c (es0 ++ .add i own :: es1) es2 (Shared.St.init mus) (by intro h hh; simp [Shared.St.init] at hh) hf
  rw [← hs] at h1 h2
  have hv : s.memo.vars = none := by
    rw [hs, final_append]
    exact quiet c es1 _ rfl hq
  have hlt : momTotal s < rowTotal s := by
    obtain ⟨h, hh, b, hb, hn⟩ := hl
    rw [rowTotal_eq, momTotal_eq]
    refine sum_lt _ _ _ h1 hh ?_
    rw [show h = ⟨h.own, h.mu⟩ from rfl, now_get h.own hb, moms_length]
    exact hn
  refine ⟨lost_of c es2 s hv hlt h2, fun q => ?_⟩
  obtain ⟨e, he⟩ := short_ask c hv hlt q
  rw [he]

/-! ### Once answered -/

theorem tidy_step (c : Conf) (s : Shared.St α) (e : Event α) (h : Tidy s.memo) : Tidy (Shared.step c s e).1.memo := by
  cases e with
  | add i own => exact .inr ⟨rfl, rfl, rfl⟩
  | call i op => exact h
  | momenta i v => exact h
  | ask q =>
    simp only [Shared.step, ask]
    rcases hv : s.memo.vars with _ | v
    · simp only
      have ht : Tidy { s.memo with batches := s.held.map (·.now s.mus) } := h
      split
      · exact h
      · by_cases h0 : (s.held.map (·.now s.mus)).length = 0
        · have := step_empty c { s.memo with batches := s.held.map (·.now s.mus) } hv ht h0 q
          simp only [hv] at this ht ⊢
          rw [this]; exact ht
        · have := (step_ext c { s.memo with batches := s.held.map (·.now s.mus) } q).2 ht h0
          simp only [hv] at this
          exact .inl this
    · exact .inl ((step_ext c s.memo q).1.vars (by simp [hv]))

theorem tidy_final (c : Conf) (es : List (Event α)) : ∀ s : Shared.St α, Tidy s.memo → Tidy (final c s es).memo := by
  induction es with
  | nil => intro s h; exact h
  | cons e es ih => intro s h; exact ih _ (tidy_step c s e h)

/-- the answers when the combined tensors are stored do not depend on the muon batches -/
theorem stored (c : Conf) (es : List (Event α)) (ha : ∀ i own, .add i own ∉ es) : ∀ s s' : Shared.St α, s.memo = s'.memo → s.memo.vars.isSome →
    Shared.run c s es = Shared.run c s' (es.filter Event.isAsk) := by
  induction es with
  | nil => intro s s' _ _; rfl
  | cons e es ih =>
    intro s s' hm hv
    have ih := ih fun i own h => ha i own (by simp [h])
    cases e with
    | call i op =>
      simp only [Shared.run, Shared.step, Option.toList, List.nil_append, List.filter_cons, Event.isAsk, Bool.false_eq_true, if_false]
      exact ih _ s' hm hv
    | momenta i v =>
      simp only [Shared.run, Shared.step, Option.toList, List.nil_append, List.filter_cons, Event.isAsk, Bool.false_eq_true, if_false]
      exact ih _ s' hm hv
    | add i own => exact absurd (by simp) (ha i own)
    | ask q =>
      obtain ⟨v, hx⟩ := Option.isSome_iff_exists.mp hv
      have h1 : ask c s q = ({ s with memo := (Infer.step c s.memo q.op).1 }, (Infer.step c s.memo q.op).2) := by simp only [ask, hx]
      have h2 : ask c s' q = ({ s' with memo := (Infer.step c s.memo q.op).1 }, (Infer.step c s.memo q.op).2) := by simp only [ask, ← hm, hx]
      simp only [Shared.run, Shared.step, Option.toList, List.filter_cons, Event.isAsk, if_true, h1, h2]
      congr 1
      exact ih _ _ rfl ((step_ext c s.memo q).1.vars hv)

/-- **C126: once answered, nothing changes.** After a question that was answered, calls on the muon batches and new momenta have no effect on the inferrer until scatters
are added: the answers are those of the same questions alone. -/
theorem settled (c : Conf) (mus : List (Batch α)) (es0 : List (Event α)) (q : Ask) (es : List (Event α)) (s : Shared.St α)
    (hs : s = final c (Shared.St.init mus) es0) (h0 : s.held ≠ []) (ha : ¬Failed (ask c s q).2) (hna : ∀ i own, .add i own ∉ es) :
    Shared.run c (ask c s q).1 es = Shared.run c (ask c s q).1 (es.filter Event.isAsk) := by
  refine stored c es hna _ _ rfl ?_
  have ht : Tidy s.memo := hs ▸ tidy_final c es0 (Shared.St.init mus) (.inr ⟨rfl, rfl, rfl⟩)
  unfold ask at ha ⊢
  rcases hv : s.memo.vars with _ | v
  · simp only [hv] at ha ⊢
    split
    · rename_i e he
      simp only [he] at ha
      exact absurd (fail_failed e q) ha
    · have := (step_ext c { s.memo with batches := s.held.map (·.now s.mus) } q).2 ht (by simpa using h0)
      simp only [hv] at this
      exact this
  · exact (step_ext c s.memo q).1.vars (by simp [hv])

/-! ### What the code lets happen -/

/-- **C126, two scatter batches of the same muons (violated).** Making a scatter batch from the true hits of the muons of an existing scatter batch breaks the first one:
an inferrer that holds it answered before and raises afterwards. -/
theorem second_violated : ∃ mu1 mu2 o1 o2, Scatter.construct false C100.cell C100.twins = .ok (mu1, o1) ∧ Scatter.construct true C100.cell mu1 = .ok (mu2, o2) ∧
    ∀ (c : Conf) (own : ScVars), (own.vals .poca).length = o1.rows.length → ∀ q : Ask,
      (ask c ⟨[mu1], [⟨own, 0⟩], Infer.St.init⟩ q).2 = (Infer.step c ⟨[Held.now [mu1] ⟨own, 0⟩], none, none, none, none, none⟩ q.op).2 ∧
      (ask c ⟨[mu2], [⟨own, 0⟩], Infer.St.init⟩ q).2 = q.fail .runtimeError := by
  obtain ⟨mu1, mu2, o1, o2, h1, h2, h3, h4, h5⟩ := C100.second_violated
  refine ⟨mu1, mu2, o1, o2, h1, h2, fun c own hl q => ?_⟩
  rw [h3] at hl
  simp only [Scatter.Obj.len] at h4 h5
  refine ⟨?_, ?_⟩ <;>
    simp [ask, Infer.St.init, clash, catVals, Held.now, moms_length, hl, h4, h5]

/-- one muon of momentum `p` -/
def lone (p : ℝ) : Batch Row := ⟨[⟨0, 0, 0, 0, p, 0, 0⟩], [], [], []⟩

/-- one voxel; efficiencies of panels -/
def vox (cdf : ℝ → ℝ → ℝ → ℝ) (big : ℝ) : Conf := ⟨cdf, big, 1, [(0, 0, 0)], (1, 1, 1), panelEff⟩

theorem rms_one {x w : ℝ} (hx : 0 ≤ x) (hw : w ≠ 0) : weightedRms [x] [w] = some x := by
  simp only [weightedRms, List.sum_cons, List.sum_nil, add_zero, hw, if_false, List.zipWith_cons_cons, List.zipWith_nil_right]
  rw [mul_div_cancel_right₀ _ hw, Real.sqrt_sq hx]

/-- what the inferrer sees of the scatters of that muon -/
def seen (p : ℝ) : ScVars := Held.now [lone p] ⟨C36.b1, 0⟩

theorem seen_eff (p : ℝ) : combineEff panelEff [seen p] = .ok [1] := by
  have h1 : groupEff [1, 1] = .ok 1 := by
    rw [groupEff_eq _ (by simp)]
    norm_num [pTwo, pNone]
  have h2 : panelEff (seen p) = .ok [1] := by
    simp [panelEff, seen, Held.now, C36.b1, mapE, h1, bind, Except.bind]
  simp only [combineEff, mapE, h2, bind, Except.bind]
  rfl

theorem seen_vars (p : ℝ) : combineVars [seen p] = ([[.num 1, .num 2, .num 3, .num 1, .num 1, .num 1, .num p]], [[.num 1, .num 1, .num 1, .num 1, .num 1, .num 1, .num 0]]) := by
  simp [combineVars, combineMask, varOrder, catVals, catUncs, finiteRows, pick, catCols, seen, Held.now, lone, moms, C36.b1, XF.isFinite]

def seenRow (p : ℝ) : MuRow := ⟨(1, 2, 3), (1, 1, 1), 1, 1, 1, 1, 1, 1, p, 0⟩

theorem seen_probs (cdf : ℝ → ℝ → ℝ → ℝ) (p : ℝ) :
    muonProbs cdf 1 [(0, 0, 0)] (1, 1, 1) (seenRow p) = .ok [[[voxelProb cdf 1 (seenRow p) (0, 0, 0) + 1e-15]]] := by
  simp [muonProbs, reshape3, bind, Except.bind, permuteZXY]

theorem seen_pos (cdf : ℝ → ℝ → ℝ → ℝ) (hm : ∀ m s, Monotone (cdf m s)) (p : ℝ) : 0 < voxelProb cdf 1 (seenRow p) (0, 0, 0) + 1e-15 := by
  have h : ∀ m s, 0 ≤ cdf m s (0 + 1) - cdf m s 0 := fun m s => sub_nonneg.mpr (hm m s (by norm_num))
  have : 0 ≤ voxelProb cdf 1 (seenRow p) (0, 0, 0) := mul_nonneg (mul_nonneg (h _ _) (h _ _)) (h _ _)
  positivity

theorem seen_voxel (big p w : ℝ) (hp : 0 < p) (hw : 0 < w) :
    voxelX0 big 1 [seenRow p] [1] [w] = .num (2 * scatterCoefA ^ 2 / (p ^ 2 * Real.cos 1)) := by
  have hq : XF.quot w 4 = .num (w / 4) := by simp [XF.quot]
  have hq1 : XF.quot w 1 = .num w := by simp [XF.quot]
  have hc : 0 < Real.cos 1 := Real.cos_one_pos
  have hs : (Real.sqrt 2) ^ 2 = 2 := Real.sq_sqrt (by norm_num)
  have h4 : w / 4 ≠ 0 := by positivity
  simp only [voxelX0, seenRow, sqVar, List.map_cons, List.map_nil, List.zipWith_cons_cons, List.zipWith_nil_right, one_mul, mul_one, mul_zero, ne_eq, OfNat.ofNat_ne_zero,
    not_false_eq_true, zero_pow, List.all_cons, List.all_nil, decide_true, Bool.and_self, if_true]
  norm_num only [hq, hq1, nanToNum]
  rw [rms_one zero_le_one h4, rms_one hp.le hw.ne']
  simp only [x0FromScatters, XF.quot, hp.ne', ne_eq, not_false_eq_true, if_true, xsq, xmulR, XF.div]
  have hd : (1 / Real.sqrt 2) ^ 2 * ((Real.cos 1 + Real.cos 1) / 2) = Real.cos 1 / 2 := by
    rw [div_pow, hs]; ring
  rw [hd]
  have : Real.cos 1 / 2 ≠ 0 := by positivity
  simp only [this, not_false_eq_true, if_true]
  congr 1
  field_simp

theorem lone_pred (cdf : ℝ → ℝ → ℝ → ℝ) (hm : ∀ m s, Monotone (cdf m s)) (big p : ℝ) (hp : 0 < p) :
    C35.wantPrediction (vox cdf big) [seen p] = .ok (some [[[.num (2 * scatterCoefA ^ 2 / (p ^ 2 * Real.cos 1))]]]) := by
  have hr : parseRows (combineVars [seen p]).1 (combineVars [seen p]).2 = .ok [seenRow p] := by
    rw [seen_vars]
    simp [parseRows, parseRow, seenRow, bind, Except.bind]
  have hv := seen_voxel big p _ hp (seen_pos cdf hm p)
  simp only [C35.wantPrediction, C35.wantPreds, C35.wantProbs, List.length_cons, List.length_nil, zero_add, one_ne_zero, if_false, vox, seen_eff, hr, bind, Except.bind, mapE,
    seen_probs]
  simp [voxelPreds, at3, hv, isNan, Except.map]

theorem lone_ask (cdf : ℝ → ℝ → ℝ → ℝ) (hm : ∀ m s, Monotone (cdf m s)) (big p : ℝ) (hp : 0 < p) (m0 : Infer.St)
    (h0 : m0.vars = none ∧ m0.eff = none ∧ m0.nMu = none ∧ m0.probs = none ∧ m0.preds = none) :
    (ask (vox cdf big) ⟨[lone p], [⟨C36.b1, 0⟩], m0⟩ .prediction).2 = .pred (.ok (some [[[.num (2 * scatterCoefA ^ 2 / (p ^ 2 * Real.cos 1))]]])) := by
  have hc : clash ([⟨C36.b1, 0⟩].map (Held.now [lone p])) = none := by simp [clash, catVals, Held.now, moms, lone, C36.b1]
  obtain ⟨s', h1, _⟩ := C35.step_spec (vox cdf big) ⟨[seen p], none, none, none, none, none⟩ [1] ⟨seen_eff p, .inl rfl, .inl rfl, .inl rfl⟩ .prediction (by simp)
  have hb : ({ m0 with batches := [⟨C36.b1, 0⟩].map (Held.now [lone p]) } : Infer.St) = ⟨[seen p], none, none, none, none, none⟩ := by
    simp [h0, seen]
  simp only [ask, h0.1, hc]
  have hb' : ({ m0 with batches := [⟨C36.b1, 0⟩].map (Held.now [lone p]), vars := none } : Infer.St) = ⟨[seen p], none, none, none, none, none⟩ := by
    simp [h0, seen]
  simp only [Ask.op]
  rw [hb', h1]
  simp only [C35.want, lone_pred cdf hm big p hp]

/-- **C126, momenta (violated).** Doubling the momentum of a muon in place after its scatters were added, and before the first question, divides the prediction by four. -/
theorem momenta_violated (cdf : ℝ → ℝ → ℝ → ℝ) (hm : ∀ m s, Monotone (cdf m s)) (big : ℝ) : ∃ x : ℝ, x ≠ 0 ∧
    Shared.run (vox cdf big) (Shared.St.init [lone 1]) [.add 0 C36.b1, .ask .prediction] = [.done, .pred (.ok (some [[[.num x]]]))] ∧
    Shared.run (vox cdf big) (Shared.St.init [lone 1]) [.add 0 C36.b1, .momenta 0 [2], .ask .prediction] = [.done, .pred (.ok (some [[[.num (x / 4)]]]))] := by
  refine ⟨2 * scatterCoefA ^ 2 / (1 ^ 2 * Real.cos 1), ?_, ?_, ?_⟩
  · have := Real.cos_one_pos
    unfold scatterCoefA
    positivity
  · have := lone_ask cdf hm big 1 one_pos (addScatters ⟨[], none, none, none, none, none⟩ (Held.now [lone 1] ⟨C36.b1, 0⟩)) ⟨rfl, rfl, rfl, rfl, rfl⟩
    simp only [Shared.run, Shared.step, Shared.St.init, List.nil_append, List.map_nil, Option.toList, this, List.append_nil, List.singleton_append]
  · have := lone_ask cdf hm big 2 two_pos (addScatters ⟨[], none, none, none, none, none⟩ (Held.now [lone 1] ⟨C36.b1, 0⟩)) ⟨rfl, rfl, rfl, rfl, rfl⟩
    have hl : ([lone 1].modify 0 fun b => if [(2 : ℝ)].length = b.muons.length then setMoms b [2] else b) = [lone 2] := by
      simp [lone, setMoms]
    simp only [Shared.run, Shared.step, Shared.St.init, List.nil_append, List.map_nil, Option.toList, hl, this, List.append_nil, List.singleton_append]
    have : (2 * scatterCoefA ^ 2 / (2 ^ 2 * Real.cos 1)) = 2 * scatterCoefA ^ 2 / (1 ^ 2 * Real.cos 1) / 4 := by
      have := Real.cos_one_pos
      field_simp; ring
    rw [this]

/-! Non-vacuity: a muon that is moved and measured again after its scatters were added; a muon that is removed. -/

theorem lone_fresh (p : ℝ) : Fresh [lone p] 0 C36.b1 := ⟨lone p, rfl, fun v hv => by cases v <;> first | rfl | exact absurd rfl hv⟩

theorem fresh_one {b : Batch Row} (hb : b.muons.length = 1) : Fresh [b] 0 C36.b1 :=
  ⟨b, rfl, fun v hv => by cases v <;> first | exact hb.symm | exact absurd rfl hv⟩

/-- moving the muon, and recording a hit, keep it -/
theorem moved_one {b : Batch Row} (hb : b.muons.length = 1) (r : Row) :
    (b.exec (.propDz (.scalar 1) none)).1.muons.length = 1 ∧ (b.exec (.append [("reco_xy", [r])] "above")).1.muons.length = 1 := by
  refine ⟨?_, hb⟩
  simp only [Batch.exec, Batch.propExec]
  split
  · exact hb
  · split
    · exact hb
    · simpa using hb

example (r : Row) : let es : List (Event Row) := [.add 0 C36.b1, .ask .prediction, .call 0 (.propDz (.scalar 1) none), .call 0 (.append [("reco_xy", [r])] "above"), .add 0 C36.b1,
      .ask .prediction]
    AllFresh [lone 1] es ∧ Undisturbed [lone 1] [] es := by
  have h1 := (moved_one (b := lone 1) rfl r).1
  have h2 := (moved_one h1 r).2
  refine ⟨⟨lone_fresh 1, fresh_one h2, trivial⟩, fun _ b hb => ?_, fun _ b hb => rfl, trivial⟩
  have hb : b = lone 1 := (Option.some.inj hb).symm
  rw [hb]; exact h1

example (c : Conf) : let es : List (Event Row) := [.call 0 (.filter [false])]
    AllFresh [lone 1] (([] ++ .add 0 C36.b1 :: es) ++ [.ask .prediction]) ∧ (∀ e ∈ es, e.isAsk = false) ∧
    ∃ h ∈ (final c (Shared.St.init [lone 1]) ([] ++ .add 0 C36.b1 :: es)).held, ∃ b, (final c (Shared.St.init [lone 1]) ([] ++ .add 0 C36.b1 :: es)).mus[h.mu]? = some b ∧
      b.muons.length < (h.own.vals .poca).length := by
  refine ⟨⟨lone_fresh 1, trivial⟩, by simp [Event.isAsk], ⟨C36.b1, 0⟩, ?_, ((lone 1).exec (.filter [false])).1, rfl, ?_⟩
  · simp [final, Shared.step, Shared.St.init]
  · simp [Batch.exec, Batch.filterExec, lone, countTrue, pick, C36.b1]

/-- the question of `settled` is answered -/
example (cdf : ℝ → ℝ → ℝ → ℝ) (hm : ∀ m s, Monotone (cdf m s)) (big : ℝ) :
    let s := final (vox cdf big) (Shared.St.init [lone 1]) [.add 0 C36.b1]
    s.held ≠ [] ∧ ¬Failed (ask (vox cdf big) s .prediction).2 := by
  refine ⟨by simp [final, Shared.step, Shared.St.init], ?_⟩
  have := lone_ask cdf hm big 1 one_pos (addScatters ⟨[], none, none, none, none, none⟩ (Held.now [lone 1] ⟨C36.b1, 0⟩)) ⟨rfl, rfl, rfl, rfl, rfl⟩
  simp only [final, Shared.step, Shared.St.init, List.nil_append, List.map_nil, this]
  rintro ⟨e, he⟩
  simp at he

end C126

end

end Tomopt
