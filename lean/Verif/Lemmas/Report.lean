import Verif.Spec.Report
import Verif.Props.C51

/- Lemmas for C153. -/
namespace Tomopt

noncomputable section

namespace Report

open Fit

theorem flatMap_get {β γ : Type} (f : β → List γ) (n : Nat) : ∀ (l : List β), (∀ b ∈ l, (f b).length = n) → (l.flatMap f).length = l.length * n ∧
    ∀ (e : Nat) (b : β), l[e]? = some b → ∀ j < n, (l.flatMap f)[e * n + j]? = (f b)[j]?
  | [], _ => by simp
  | a :: l, h => by
    obtain ⟨h1, h2⟩ := flatMap_get f n l fun b hb => h b (by simp [hb])
    have ha := h a (by simp)
    refine ⟨by rw [List.flatMap_cons, List.length_append, h1, ha, List.length_cons]; ring, fun e b hb j hj => ?_⟩
    rw [List.flatMap_cons]
    cases e with
    | zero =>
      simp only [List.getElem?_cons_zero, Option.some.injEq] at hb
      subst hb
      rw [Nat.zero_mul, Nat.zero_add, List.getElem?_append_left (by omega)]
    | succ e =>
      rw [List.getElem?_append_right (by rw [ha]; nlinarith), ha]
      have : (e + 1) * n + j - n = e * n + j := by
        rw [Nat.succ_mul]; omega
      rw [this]
      exact h2 e b (by simpa using hb) j hj

theorem readAll_ok {Img : Type} (fs : EpochSave.Files Img) : ∀ (l : List String) (is : List Img), List.Forall₂ (fun p i => fs p = some i) l is → Gif.readAll fs l = .ok is
  | _, _, .nil => rfl
  | _, _, .cons h t => by
    rw [Gif.readAll, h]
    simp only [readAll_ok fs _ _ t]

theorem temp_inj {folder : String} {a b : Nat} (h : temp folder a = temp folder b) : a = b := by
  unfold temp at h
  rw [String.append_left_inj, String.append_right_inj] at h
  have h2 : (toString a).toList = (toString b).toList := by rw [h]
  have e : ∀ n : Nat, (toString n).toList = Nat.toDigits 10 n := fun n => Nat.toList_repr
  rw [e, e] at h2
  rw [← Nat.ofDigitChars_toDigits (b := 10) (n := a) (by omega) (by omega), h2, Nat.ofDigitChars_toDigits (by omega) (by omega)]

/-- the pictures taken so far -/
structure Taken {Img : Type} (folder : String) (pics : List Img) (s : Gif.St Img) : Prop where
  buffer : s.buffer = (List.range pics.length).map (temp folder)
  files : ∀ (i : Nat) (x : Img), pics[i]? = some x → s.files (temp folder i) = some x

theorem taken_snapshot {Img : Type} {folder : String} {pics : List Img} {s : Gif.St Img} (h : Taken folder pics s) (img : Img) : Taken folder (pics ++ [img]) (snapshot folder img s) := by
  have hl : s.buffer.length = pics.length := by rw [h.buffer]; simp
  constructor
  · simp only [snapshot, hl, List.length_append, List.length_singleton, List.range_succ, List.map_append, List.map_cons, List.map_nil, h.buffer]
    simp
  · intro i x hx
    simp only [snapshot, hl, EpochSave.write]
    by_cases hi : i < pics.length
    · rw [List.getElem?_append_left hi] at hx
      rw [if_neg fun heq => by have := temp_inj heq; omega]
      exact h.files i x hx
    · rw [List.getElem?_append_right (by omega)] at hx
      have : i = pics.length := by
        have := (List.getElem?_eq_some_iff.mp hx).1
        simp at this
        omega
      subst this
      simp at hx
      rw [if_pos rfl, hx]

theorem taken_read {Img : Type} {folder : String} {pics : List Img} {s : Gif.St Img} (h : Taken folder pics s) : Gif.readAll s.files s.buffer = .ok pics := by
  refine readAll_ok _ _ _ ?_
  rw [h.buffer, List.forall₂_iff_get]
  refine ⟨by simp, fun i h1 h2 => ?_⟩
  simp only [List.get_eq_getElem, List.getElem_map, List.getElem_range]
  exact h.files i _ (List.getElem?_eq_getElem h2)

theorem acts_append {Img : Type} (folder : String) : ∀ (l m : List (Ev × Mode × Img)) (s s' : Gif.St Img), acts folder l s = .ok s' → acts folder (l ++ m) s = acts folder m s'
  | [], _, _, _, h => by cases h; rfl
  | (e, md, img) :: l, m, s, s', h => by
    rw [List.cons_append, acts]
    rw [acts] at h
    cases hs : act folder e md img s with
    | error e => rw [hs] at h; cases h
    | ok t => rw [hs] at h; exact acts_append folder l m t s' h

theorem acts_mid {Img : Type} (folder : String) : ∀ (mid : List (Ev × Mode × Img)) (pics : List Img) (s : Gif.St Img), (∀ x ∈ mid, x.1 ≠ .trainBegin ∧ x.1 ≠ .trainEnd) → Taken folder pics s →
    ∃ s', acts folder mid s = .ok s' ∧ Taken folder (pics ++ C153.pictures mid) s'
  | [], pics, s, _, h => ⟨s, rfl, by simpa [C153.pictures] using h⟩
  | (e, m, img) :: mid, pics, s, hne, h => by
    have hx := hne (e, m, img) (by simp)
    have key : ∃ t, act folder e m img s = .ok t ∧ Taken folder (pics ++ if e = .epochBegin ∧ m = .train then [img] else []) t := by
      by_cases he : e = .epochBegin
      · subst he
        by_cases hm : m = .train
        · exact ⟨snapshot folder img s, by simp only [act, hm, if_true], by simpa [hm] using taken_snapshot h img⟩
        · exact ⟨s, by simp only [act, if_neg hm], by simpa [hm] using h⟩
      · refine ⟨s, ?_, by simpa [he] using h⟩
        cases e <;> simp_all [act]
    obtain ⟨t, h1, h2⟩ := key
    obtain ⟨s', h3, h4⟩ := acts_mid folder mid _ t (fun x hx => hne x (by simp [hx])) h2
    refine ⟨s', by rw [acts, h1]; exact h3, ?_⟩
    have : C153.pictures ((e, m, img) :: mid) = (if e = .epochBegin ∧ m = .train then [img] else []) ++ C153.pictures mid := by
      simp only [C153.pictures, List.filterMap_cons]
      split <;> simp_all
    rw [this, ← List.append_assoc]
    exact h4

theorem npMin_spec : ∀ (xs : List ℝ) (x : ℝ), xs.foldl min x ∈ x :: xs ∧ ∀ y ∈ x :: xs, xs.foldl min x ≤ y
  | [], x => by simp
  | a :: xs, x => by
    obtain ⟨h1, h2⟩ := npMin_spec xs (min x a)
    rw [List.foldl_cons]
    have hm := h2 (min x a) (by simp)
    refine ⟨?_, fun y hy => ?_⟩
    · rcases List.mem_cons.mp h1 with h | h
      · rw [h]
        rcases min_choice x a with e | e <;> rw [e] <;> simp
      · simp [h]
    · rcases List.mem_cons.mp hy with rfl | hy
      · exact hm.trans (min_le_left _ _)
      rcases List.mem_cons.mp hy with rfl | hy
      · exact hm.trans (min_le_right _ _)
      · exact h2 y (by simp [hy])

theorem npMax_spec : ∀ (xs : List ℝ) (x : ℝ), xs.foldl max x ∈ x :: xs ∧ ∀ y ∈ x :: xs, y ≤ xs.foldl max x
  | [], x => by simp
  | a :: xs, x => by
    obtain ⟨h1, h2⟩ := npMax_spec xs (max x a)
    rw [List.foldl_cons]
    have hm := h2 (max x a) (by simp)
    refine ⟨?_, fun y hy => ?_⟩
    · rcases List.mem_cons.mp h1 with h | h
      · rw [h]
        rcases max_choice x a with e | e <;> rw [e] <;> simp
      · simp [h]
    · rcases List.mem_cons.mp hy with rfl | hy
      · exact (le_max_left _ _).trans hm
      rcases List.mem_cons.mp hy with rfl | hy
      · exact (le_max_right _ _).trans hm
      · exact h2 y (by simp [hy])

theorem lastMetrics_ok : ∀ (ms : List Metric) (vs : List (List ℝ)), ms.length = vs.length → (∀ v ∈ vs, v ≠ []) → ∃ r, lastMetrics ms vs = .ok r ∧ r.map (·.1) = ms.map (·.name) ∧
    r.map (fun x => some x.2) = vs.map (·.getLast?)
  | [], [], _, _ => ⟨[], rfl, rfl, rfl⟩
  | [], _ :: _, h, _ => by simp at h
  | _ :: _, [], h, _ => by simp at h
  | m :: ms, v :: vs, h, hv => by
    obtain ⟨r, h1, h2, h3⟩ := lastMetrics_ok ms vs (by simpa using h) fun v' h' => hv v' (by simp [h'])
    have hne := hv v (by simp)
    refine ⟨(m.name, v.getLast hne) :: r, by simp only [lastMetrics, List.getLast?_eq_some_getLast hne, h1], by simp [h2], by simp [h3, List.getLast?_eq_some_getLast hne]⟩

end Report

end

end Tomopt
