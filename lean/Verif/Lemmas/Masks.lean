import Verif.Model.Muon

/- Helper lemmas about boolean masks, masked updates and dictionaries. -/
namespace Tomopt

variable {β γ δ : Type}

@[simp] theorem pick_nil_right (m : List Bool) : pick m ([] : List β) = [] := by
  cases m with
  | nil => rfl
  | cons b m => cases b <;> rfl

@[simp] theorem pick_nil_left (xs : List β) : pick [] xs = [] := by
  cases xs <;> rfl

@[simp] theorem pick_true (m : List Bool) (x : β) (xs : List β) :
    pick (true :: m) (x :: xs) = x :: pick m xs := rfl

@[simp] theorem pick_false (m : List Bool) (x : β) (xs : List β) :
    pick (false :: m) (x :: xs) = pick m xs := rfl

@[simp] theorem countTrue_nil : countTrue [] = 0 := rfl
@[simp] theorem countTrue_true (m : List Bool) : countTrue (true :: m) = countTrue m + 1 := by
  simp [countTrue]
@[simp] theorem countTrue_false (m : List Bool) : countTrue (false :: m) = countTrue m := by
  simp [countTrue]

theorem countTrue_le (m : List Bool) : countTrue m ≤ m.length := List.length_filter_le _ _

theorem countTrue_replicate (n : Nat) : countTrue (List.replicate n true) = n := by
  simp [countTrue]

theorem pick_length : ∀ (m : List Bool) (xs : List β), m.length = xs.length →
    (pick m xs).length = countTrue m
  | [], [], _ => rfl
  | true :: m, x :: xs, h => by simp [pick_length m xs (by simpa using h)]
  | false :: m, x :: xs, h => by simp [pick_length m xs (by simpa using h)]

theorem pick_map (f : β → γ) : ∀ (m : List Bool) (xs : List β),
    pick m (xs.map f) = (pick m xs).map f
  | [], xs => by simp
  | _ :: _, [] => by simp
  | true :: m, x :: xs => by simp [pick_map f m xs]
  | false :: m, x :: xs => by simp [pick_map f m xs]

theorem pick_sublist : ∀ (m : List Bool) (xs : List β), (pick m xs).Sublist xs
  | [], xs => by simp
  | _ :: _, [] => by simp
  | true :: m, x :: xs => by simpa using pick_sublist m xs
  | false :: m, x :: xs => by simpa using (pick_sublist m xs).cons x

theorem pick_replicate_true : ∀ (xs : List β), pick (List.replicate xs.length true) xs = xs
  | [] => rfl
  | x :: xs => by simp [List.replicate_succ, pick_replicate_true xs]

theorem all_true_of_count : ∀ (m : List Bool), ¬ countTrue m < m.length → m = List.replicate m.length true
  | [], _ => rfl
  | true :: m, h => by
      have := all_true_of_count m (by simpa using h)
      simp only [List.length_cons, List.replicate_succ]
      rw [← this]
  | false :: m, h => by
      have := countTrue_le m
      simp at h; omega

/-- selecting by a predicate's mask is filtering -/
theorem pick_map_filter (p : β → Bool) : ∀ (xs : List β), pick (xs.map p) xs = xs.filter p
  | [] => rfl
  | x :: xs => by
      cases h : p x <;> simp [h, pick_map_filter p xs]

theorem pick_inv_map_filter (p : β → Bool) : ∀ (xs : List β),
    pick (inv (xs.map p)) xs = xs.filter (fun x => !p x)
  | [] => rfl
  | x :: xs => by
      have ih := pick_inv_map_filter p xs
      simp only [inv, List.map_map] at ih
      cases h : p x <;> simp [h, inv, ih]

theorem pick_append_inv_perm : ∀ (m : List Bool) (xs : List β), m.length = xs.length →
    (pick m xs ++ pick (inv m) xs).Perm xs
  | [], [], _ => by simp
  | true :: m, x :: xs, h => by
      simpa [inv] using pick_append_inv_perm m xs (by simpa using h)
  | false :: m, x :: xs, h => by
      have ih := pick_append_inv_perm m xs (by simpa using h)
      simp only [inv, List.map_cons, Bool.not_false, pick_false, pick_true] at *
      exact (List.perm_middle).trans (ih.cons x)

theorem inv_length (m : List Bool) : (inv m).length = m.length := by simp [inv]

@[simp] theorem put_length : ∀ (m : List Bool) (xs vs : List β), (put m xs vs).length = xs.length
  | [], xs, vs => by simp [put]
  | true :: m, [], vs => by simp [put]
  | false :: m, [], vs => by simp [put]
  | true :: m, x :: xs, [] => by simp [put, put_length m xs []]
  | true :: m, x :: xs, v :: vs => by simp [put, put_length m xs vs]
  | false :: m, x :: xs, vs => by simp [put, put_length m xs vs]

@[simp] theorem maskedUpd_length (m : List Bool) (xs : List β) (as : List γ) (f : β → γ → β) :
    (maskedUpd m xs as f).length = xs.length := by simp [maskedUpd]

theorem put_nil : ∀ (m : List Bool) (xs : List β), put m xs [] = xs
  | [], xs => by simp [put]
  | true :: m, [] => by simp [put]
  | false :: m, [] => by simp [put]
  | true :: m, x :: xs => by simp [put, put_nil m xs]
  | false :: m, x :: xs => by simp [put, put_nil m xs]

@[simp] theorem maskedUpd_nil_args (m : List Bool) (xs : List β) (f : β → γ → β) :
    maskedUpd m xs [] f = xs := by simp [maskedUpd, put_nil]

@[simp] theorem maskedUpd_nil_rows (m : List Bool) (as : List γ) (f : β → γ → β) :
    maskedUpd m [] as f = [] := by
  simp [maskedUpd]; cases m with
  | nil => rfl
  | cons b m => cases b <;> rfl

@[simp] theorem maskedUpd_nil_mask (xs : List β) (as : List γ) (f : β → γ → β) :
    maskedUpd [] xs as f = xs := by simp [maskedUpd, put]

@[simp] theorem maskedUpd_true (m : List Bool) (x : β) (xs : List β) (a : γ) (as : List γ) (f : β → γ → β) :
    maskedUpd (true :: m) (x :: xs) (a :: as) f = f x a :: maskedUpd m xs as f := by
  simp [maskedUpd, put]

@[simp] theorem maskedUpd_false (m : List Bool) (x : β) (xs : List β) (as : List γ) (f : β → γ → β) :
    maskedUpd (false :: m) (x :: xs) as f = x :: maskedUpd m xs as f := by
  simp [maskedUpd, put]

/-- A masked update that does not touch the observation `g` leaves it alone. -/
theorem maskedUpd_map_eq (g : β → δ) (f : β → γ → β) (hf : ∀ x a, g (f x a) = g x) :
    ∀ (m : List Bool) (xs : List β) (as : List γ), (maskedUpd m xs as f).map g = xs.map g
  | [], xs, as => by simp
  | _ :: _, [], as => by simp
  | b :: m, x :: xs, [] => by simp
  | true :: m, x :: xs, a :: as => by simp [hf, maskedUpd_map_eq g f hf m xs as]
  | false :: m, x :: xs, a :: as => by simp [maskedUpd_map_eq g f hf m xs (a :: as)]

/-- A masked update preserves a predicate that each single update preserves. -/
theorem maskedUpd_forall (P : β → Prop) (f : β → γ → β) (hf : ∀ x a, P x → P (f x a)) :
    ∀ (m : List Bool) (xs : List β) (as : List γ), (∀ x ∈ xs, P x) → ∀ x ∈ maskedUpd m xs as f, P x
  | [], xs, as, h => by simpa using h
  | _ :: _, [], as, h => by simp
  | b :: m, x :: xs, [], h => by simpa using h
  | true :: m, x :: xs, a :: as, h => by
      have ih := maskedUpd_forall P f hf m xs as (fun y hy => h y (by simp [hy]))
      intro y hy
      simp only [maskedUpd_true, List.mem_cons] at hy
      rcases hy with rfl | hy
      · exact hf _ _ (h x (by simp))
      · exact ih y hy
  | false :: m, x :: xs, a :: as, h => by
      have ih := maskedUpd_forall P f hf m xs (a :: as) (fun y hy => h y (by simp [hy]))
      intro y hy
      simp only [maskedUpd_false, List.mem_cons] at hy
      rcases hy with rfl | hy
      · exact h _ (by simp)
      · exact ih y hy

/-- Entry `i` of a masked update with one argument per selected row:
an unselected row is unchanged, a selected row is updated with the argument whose rank is the number of
selected rows before it. -/
theorem maskedUpd_get (f : β → γ → β) :
    ∀ (m : List Bool) (xs : List β) (as : List γ), m.length = xs.length → as.length = countTrue m →
      ∀ (i : Nat) (x : β), xs[i]? = some x →
        (m[i]? = some false → (maskedUpd m xs as f)[i]? = some x) ∧
        (m[i]? = some true → ∃ a, as[countTrue (m.take i)]? = some a ∧
            (maskedUpd m xs as f)[i]? = some (f x a))
  | [], [], as, _, _, i, x, h => by simp at h
  | true :: m, y :: xs, [], _, h, i, x, _ => by simp at h
  | true :: m, y :: xs, a :: as, h1, h2, 0, x, hx => by
      simp at hx; subst hx; simp
  | true :: m, y :: xs, a :: as, h1, h2, i + 1, x, hx => by
      simpa using maskedUpd_get f m xs as (by simpa using h1) (by simpa using h2) i x (by simpa using hx)
  | false :: m, y :: xs, as, h1, h2, 0, x, hx => by
      simp at hx; subst hx; simp
  | false :: m, y :: xs, as, h1, h2, i + 1, x, hx => by
      simpa using maskedUpd_get f m xs as (by simpa using h1) (by simpa using h2) i x (by simpa using hx)

/-- With all rows selected and a constant argument a masked update is a map. -/
theorem maskedUpd_all (f : β → γ → β) (a : γ) : ∀ (xs : List β),
    maskedUpd (List.replicate xs.length true) xs (List.replicate xs.length a) f = xs.map (f · a)
  | [] => by simp
  | x :: xs => by simp [List.replicate_succ, maskedUpd_all f a xs]

theorem maskedUpd_all_zip (f : β → γ → β) : ∀ (xs : List β) (as : List γ), as.length = xs.length →
    maskedUpd (List.replicate xs.length true) xs as f = xs.zipWith f as
  | [], [], _ => by simp
  | x :: xs, a :: as, h => by
      simp [List.replicate_succ, maskedUpd_all_zip f xs as (by simpa using h)]

/-! Dictionaries -/

namespace Dict
variable {κ v w : Type} [DecidableEq κ]

theorem get?_modify_self (d : Dict κ v) (k : κ) (df : v) (f : v → v) :
    (d.modify k df f).get? k = some (f ((d.get? k).getD df)) := by
  induction d with
  | nil => simp [modify, get?]
  | cons h d ih =>
    obtain ⟨k', x⟩ := h
    by_cases hk : k' = k
    · simp [modify, get?, hk]
    · simp [modify, get?, hk, ih]

theorem get?_modify_ne (d : Dict κ v) (k k2 : κ) (df : v) (f : v → v) (h : k ≠ k2) :
    (d.modify k df f).get? k2 = d.get? k2 := by
  induction d with
  | nil => simp [modify, get?, h]
  | cons hd d ih =>
    obtain ⟨k', x⟩ := hd
    by_cases hk : k' = k
    · subst hk; simp [modify, get?, h]
    · simp [modify, get?, hk, ih]

theorem mem_of_get? {d : Dict κ v} {k : κ} {x : v} (h : d.get? k = some x) : (k, x) ∈ d := by
  induction d with
  | nil => simp [get?] at h
  | cons hd d ih =>
    obtain ⟨k', v'⟩ := hd
    simp only [get?] at h
    split at h
    · rename_i hk; simp at h; subst h; simp [hk]
    · simp [ih h]

theorem get?_mapVals (d : Dict κ v) (f : v → w) (k : κ) :
    (d.mapVals f).get? k = (d.get? k).map f := by
  induction d with
  | nil => rfl
  | cons h d ih =>
    obtain ⟨k', x⟩ := h
    by_cases hk : k' = k
    · simp [mapVals, get?, hk]
    · simp only [mapVals, List.map_cons, get?, hk, if_false] at *
      simpa [mapVals] using ih

end Dict

end Tomopt
