import Verif.Model.SaveLoad
import Mathlib.Data.List.Basic
import Mathlib.Tactic.Linarith

/- Dictionaries with string keys, and what a saved file contains. -/
namespace Tomopt

namespace SaveLoad

variable {Pm Sc Os : Type}

theorem get?_set {v : Type} (d : Dict String v) (k k' : String) (x : v) : (d.set k x).get? k' = if k = k' then some x else d.get? k' := by
  unfold Dict.set
  induction d with
  | nil => simp [Dict.modify, Dict.get?]
  | cons e d ih =>
    obtain ⟨a, y⟩ := e
    unfold Dict.modify
    by_cases h : a = k
    · subst h
      simp only [if_true, Dict.get?]
      split <;> rfl
    · rw [if_neg h]
      simp only [Dict.get?]
      by_cases h2 : a = k'
      · subst h2
        rw [if_pos rfl, if_pos rfl, if_neg (fun h3 => h h3.symm)]
      · rw [if_neg h2, if_neg h2]
        exact ih

/-- what is looked up in the file: an optimiser of that name if there is one, else whatever was there before -/
theorem saved_get (opts : Dict String Os) (hnd : (opts.map (·.1)).Nodup) (d : Dict String (Blob Pm Os)) (k : String) :
    (opts.foldl (fun d kv => Dict.set d kv.1 (.opt kv.2)) d).get? k = match opts.get? k with
      | some s => some (.opt s)
      | none => d.get? k := by
  induction opts generalizing d with
  | nil => rfl
  | cons e opts ih =>
    obtain ⟨a, s⟩ := e
    simp only [List.map_cons, List.nodup_cons] at hnd
    rw [List.foldl_cons, ih hnd.2, get?_set]
    simp only [Dict.get?]
    by_cases h : a = k
    · subst h
      have : Dict.get? opts a = none := by
        cases hg : Dict.get? opts a with
        | none => rfl
        | some s' =>
          exfalso; apply hnd.1
          clear ih hnd
          induction opts with
          | nil => simp [Dict.get?] at hg
          | cons e opts ih =>
            obtain ⟨b, t⟩ := e
            simp only [Dict.get?] at hg
            by_cases hb : b = a
            · simp [hb]
            · rw [if_neg hb] at hg
              simp [ih hg]
      rw [this, if_pos rfl, if_pos rfl]
    · rw [if_neg h, if_neg h]

/-- every entry of a saved file is the volume or an optimiser's -/
theorem saved_mem (opts : Dict String Os) (d : Dict String (Blob Pm Os)) (k : String) (b : Blob Pm Os)
    (h : (k, b) ∈ opts.foldl (fun d kv => Dict.set d kv.1 (.opt kv.2)) d) : (k, b) ∈ d ∨ ∃ s, (k, s) ∈ opts ∧ b = .opt s := by
  induction opts generalizing d with
  | nil => exact .inl h
  | cons e opts ih =>
    obtain ⟨a, s⟩ := e
    rw [List.foldl_cons] at h
    rcases ih _ h with h | ⟨t, h1, h2⟩
    · have : ∀ d : Dict String (Blob Pm Os), (k, b) ∈ Dict.set d a (.opt s) → (k, b) ∈ d ∨ (k, b) = (a, .opt s) := by
        intro d hd
        unfold Dict.set at hd
        induction d with
        | nil => simp [Dict.modify] at hd; right; simp [hd]
        | cons e d ihd =>
          obtain ⟨c, y⟩ := e
          unfold Dict.modify at hd
          by_cases hc : c = a
          · rw [if_pos hc] at hd
            rcases List.mem_cons.mp hd with h | h
            · right; rw [h, hc]
            · left; exact List.mem_cons_of_mem _ h
          · rw [if_neg hc] at hd
            rcases List.mem_cons.mp hd with h | h
            · left; rw [h]; exact List.mem_cons_self
            · rcases ihd h with h | h
              · exact .inl (List.mem_cons_of_mem _ h)
              · exact .inr h
      rcases this _ h with h | h
      · exact .inl h
      · obtain ⟨rfl, rfl⟩ := Prod.mk.inj h
        exact .inr ⟨s, List.mem_cons_self, rfl⟩
    · exact .inr ⟨t, List.mem_cons_of_mem _ h1, h2⟩

/-- the keys of a saved file are distinct -/
theorem saved_nodup (opts : Dict String Os) (d : Dict String (Blob Pm Os)) (h : (d.map (·.1)).Nodup) :
    ((opts.foldl (fun d kv => Dict.set d kv.1 (.opt kv.2)) d).map (·.1)).Nodup := by
  induction opts generalizing d with
  | nil => exact h
  | cons e opts ih =>
    rw [List.foldl_cons]
    apply ih
    obtain ⟨a, s⟩ := e
    have keys : ∀ d : Dict String (Blob Pm Os), (Dict.set d a (.opt s)).map (·.1) = if a ∈ d.map (·.1) then d.map (·.1) else d.map (·.1) ++ [a] := by
      intro d
      unfold Dict.set
      induction d with
      | nil => simp [Dict.modify]
      | cons e d ihd =>
        obtain ⟨c, y⟩ := e
        unfold Dict.modify
        by_cases hc : c = a
        · simp [hc]
        · rw [if_neg hc]
          simp only [List.map_cons, ihd]
          by_cases hm : a ∈ d.map (·.1)
          · rw [if_pos hm, if_pos (List.mem_cons_of_mem _ hm)]
          · rw [if_neg hm, if_neg (by simp only [List.mem_cons, not_or]; exact ⟨fun h => hc h.symm, hm⟩)]
            rfl
    show ((Dict.set d a (.opt s)).map (·.1)).Nodup
    rw [keys]
    split
    · exact h
    · rename_i hm
      rw [List.nodup_append]
      exact ⟨h, by simp, by rintro x hx y hy; simp at hy; subst hy; exact fun e => hm (e ▸ hx)⟩

theorem get?_of_mem {v : Type} (d : Dict String v) (hnd : (d.map (·.1)).Nodup) (k : String) (x : v) (h : (k, x) ∈ d) : d.get? k = some x := by
  induction d with
  | nil => simp at h
  | cons e d ih =>
    obtain ⟨a, y⟩ := e
    simp only [List.map_cons, List.nodup_cons] at hnd
    simp only [Dict.get?]
    rcases List.mem_cons.mp h with h | h
    · obtain ⟨rfl, rfl⟩ := Prod.mk.inj h; rw [if_pos rfl]
    · rw [if_neg, ih hnd.2 h]
      rintro rfl
      exact hnd.1 (List.mem_map_of_mem (f := (·.1)) h)

theorem mem_of_get? {v : Type} (d : Dict String v) (k : String) (x : v) (h : d.get? k = some x) : (k, x) ∈ d := by
  induction d with
  | nil => simp [Dict.get?] at h
  | cons e d ih =>
    obtain ⟨a, y⟩ := e
    simp only [Dict.get?] at h
    by_cases ha : a = k
    · rw [if_pos ha] at h
      obtain rfl := Option.some.inj h
      rw [ha]; exact List.mem_cons_self
    · rw [if_neg ha] at h
      exact List.mem_cons_of_mem _ (ih h)

/-- loading the optimisers of a good file -/
theorem loadOpts_spec (d : Dict String (Blob Pm Os)) (hnd : (d.map (·.1)).Nodup) (w : Wrap Pm Sc Os)
    (hok : ∀ k b, (k, b) ∈ d → isOpt k = true → (∃ s, b = .opt s) ∧ (w.opts.get? k).isSome) :
    ∃ w', loadOpts d w = (.ok (), w') ∧ w'.params = w.params ∧ w'.scale = w.scale ∧
      ∀ k, w'.opts.get? k = if isOpt k = true then (match d.get? k with | some (.opt s) => some s | _ => w.opts.get? k) else w.opts.get? k := by
  induction d generalizing w with
  | nil => exact ⟨w, rfl, rfl, rfl, fun k => by simp [Dict.get?]⟩
  | cons e d ih =>
    obtain ⟨a, b⟩ := e
    simp only [List.map_cons, List.nodup_cons] at hnd
    have hd0 : ∀ k, (k, b) = (k, b) → k = a → Dict.get? d k = none := by
      rintro k - rfl
      cases hg : Dict.get? d k with
      | none => rfl
      | some x => exact absurd (List.mem_map_of_mem (f := (·.1)) (mem_of_get? d k x hg)) hnd.1
    by_cases ha : isOpt a = true
    · obtain ⟨⟨s, rfl⟩, hs⟩ := hok a b List.mem_cons_self ha
      obtain ⟨x, hx⟩ := Option.isSome_iff_exists.mp hs
      obtain ⟨w', h1, h2, h3, h4⟩ := ih hnd.2 { w with opts := w.opts.set a s } (by
        intro k b hb hk
        obtain ⟨h5, h6⟩ := hok k b (List.mem_cons_of_mem _ hb) hk
        refine ⟨h5, ?_⟩
        simp only [get?_set]
        split
        · rfl
        · exact h6)
      refine ⟨w', by unfold loadOpts; rw [if_pos ha]; simp only [hx]; exact h1, h2, h3, ?_⟩
      intro k
      rw [h4 k]
      simp only [get?_set, Dict.get?]
      by_cases hk : isOpt k = true
      · rw [if_pos hk, if_pos hk]
        by_cases hak : a = k
        · subst hak
          simp only [hd0 a rfl rfl, if_true]
        · rw [if_neg hak, if_neg hak]
      · rw [if_neg hk, if_neg hk, if_neg]
        rintro rfl
        exact hk ha
    · obtain ⟨w', h1, h2, h3, h4⟩ := ih hnd.2 w (fun k b hb hk => hok k b (List.mem_cons_of_mem _ hb) hk)
      refine ⟨w', by unfold loadOpts; rw [if_neg ha]; exact h1, h2, h3, ?_⟩
      intro k
      rw [h4 k]
      by_cases hk : isOpt k = true
      · rw [if_pos hk, if_pos hk]
        simp only [Dict.get?]
        rw [if_neg]
        rintro rfl
        exact ha hk
      · rw [if_neg hk, if_neg hk]

end SaveLoad

end Tomopt
