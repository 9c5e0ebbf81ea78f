import Verif.Model.Classifier
import Verif.Lemmas.Weighted
import Verif.Lemmas.Budget
import Mathlib.Tactic.NormNum

/- Helper lemmas about pooling windows and the classifiers. -/
namespace Tomopt

noncomputable section
open Real Classify

theorem mem_window {β : Type} {l : List β} {i : Nat} {x : β} (h : x ∈ window l i) : x ∈ l :=
  List.mem_of_mem_take (List.mem_of_mem_drop h)

theorem window_length {β : Type} (l : List β) (i : Nat) : (window l i).length = min (i + 2) l.length - (i - 1) := by
  simp [window]

theorem window_ne_nil {β : Type} {l : List β} {i : Nat} (h : i < l.length) : window l i ≠ [] := by
  intro hn
  have := window_length l i
  rw [hn] at this
  simp at this; omega

theorem window_map {β γ : Type} (f : β → γ) (l : List β) (i : Nat) : window (l.map f) i = (window l i).map f := by
  simp [window, List.map_drop, List.map_take]

theorem mean_scale (k : ℝ) (l : List ℝ) : mean (l.map (k * ·)) = k * mean l := by
  unfold mean; rw [sum_scale, List.length_map, mul_div_assoc]

theorem mean_const {c : ℝ} {l : List ℝ} (hne : l ≠ []) (h : ∀ x ∈ l, x = c) : mean l = c := by
  have hl : l = List.replicate l.length c := List.eq_replicate_iff.2 ⟨rfl, h⟩
  have hp : (l.length : ℝ) ≠ 0 := by
    have := List.length_pos_iff.2 hne
    exact_mod_cast this.ne'
  unfold mean
  conv_lhs => rw [hl]
  rw [List.sum_replicate, List.length_replicate, nsmul_eq_mul]
  field_simp

theorem sum_bounds {lo hi : ℝ} : ∀ l : List ℝ, (∀ x ∈ l, lo ≤ x ∧ x ≤ hi) → lo * l.length ≤ l.sum ∧ l.sum ≤ hi * l.length
  | [], _ => by simp
  | x :: l, h => by
    obtain ⟨h1, h2⟩ := sum_bounds l fun y hy => h y (by simp [hy])
    obtain ⟨h3, h4⟩ := h x (by simp)
    simp only [List.sum_cons, List.length_cons, Nat.cast_add, Nat.cast_one]
    constructor <;> linarith

theorem mean_bounds {lo hi : ℝ} {l : List ℝ} (hne : l ≠ []) (h : ∀ x ∈ l, lo ≤ x ∧ x ≤ hi) : lo ≤ mean l ∧ mean l ≤ hi := by
  obtain ⟨h1, h2⟩ := sum_bounds l h
  have hp : (0 : ℝ) < l.length := by exact_mod_cast List.length_pos_iff.2 hne
  unfold mean
  exact ⟨by rwa [le_div_iff₀ hp], by rwa [div_le_iff₀ hp]⟩

theorem mean_pos {l : List ℝ} (hne : l ≠ []) (h : ∀ x ∈ l, 0 < x) : 0 < mean l := by
  have hp : (0 : ℝ) < l.length := by exact_mod_cast List.length_pos_iff.2 hne
  exact div_pos (sum_pos' l hne h) hp

/-- entries of a volume -/
def Entry (x : Vol) (v : ℝ) : Prop := ∃ p ∈ x, ∃ r ∈ p, v ∈ r

theorem mem_window3 {x : Vol} {i j k : Nat} {v : ℝ} (h : v ∈ window3 x i j k) : Entry x v := by
  simp only [window3, List.mem_flatMap] at h
  obtain ⟨p, hp, r, hr, hv⟩ := h
  exact ⟨p, mem_window hp, r, mem_window hr, mem_window hv⟩

theorem getElem_mem_window {β : Type} {l : List β} {i : Nat} (h : i < l.length) : l[i] ∈ window l i := by
  unfold window
  rw [List.mem_iff_getElem]
  refine ⟨i - (i - 1), by simp; omega, ?_⟩
  simp only [List.getElem_drop, List.getElem_take]
  congr 1; omega

theorem window3_ne_nil {x : Vol} {i j k : Nat} (hi : i < x.length) (hj : j < x[i].length) (hk : k < x[i][j].length) : window3 x i j k ≠ [] := by
  have : x[i][j][k] ∈ window3 x i j k := by
    simp only [window3, List.mem_flatMap]
    exact ⟨x[i], getElem_mem_window hi, x[i][j], getElem_mem_window hj, getElem_mem_window hk⟩
  intro hn; rw [hn] at this; simp at this

/-- entries of a pooled volume are means over windows of the volume -/
theorem entry_avgPool3 {x : Vol} {v : ℝ} (h : Entry (avgPool3 x) v) : ∃ l : List ℝ, l ≠ [] ∧ (∀ y ∈ l, Entry x y) ∧ v = mean l := by
  obtain ⟨p, hp, r, hr, hv⟩ := h
  simp only [avgPool3, List.mem_mapIdx] at hp
  obtain ⟨i, hi, rfl⟩ := hp
  simp only [List.mem_mapIdx] at hr
  obtain ⟨j, hj, rfl⟩ := hr
  simp only [List.mem_mapIdx] at hv
  obtain ⟨k, hk, rfl⟩ := hv
  exact ⟨_, window3_ne_nil hi hj hk, fun y hy => mem_window3 hy, rfl⟩

theorem avgPool3_length (x : Vol) : (avgPool3 x).length = x.length := by simp [avgPool3]

/-- no layer and no row is empty -/
def Solid (x : Vol) : Prop := ∀ p ∈ x, p ≠ [] ∧ ∀ r ∈ p, r ≠ []

theorem solid_flatten {x : Vol} (h : Solid x) {p : List (List ℝ)} (hp : p ∈ x) : p.flatten ≠ [] := by
  obtain ⟨h1, h2⟩ := h p hp
  cases p with
  | nil => exact absurd rfl h1
  | cons r p =>
    have := h2 r (by simp)
    cases r with
    | nil => exact absurd rfl this
    | cons a r => simp

theorem solid_avgPool3 {x : Vol} (h : Solid x) : Solid (avgPool3 x) := by
  intro p hp
  simp only [avgPool3, List.mem_mapIdx] at hp
  obtain ⟨i, hi, rfl⟩ := hp
  obtain ⟨h1, h2⟩ := h x[i] (List.getElem_mem _)
  refine ⟨by simpa using h1, ?_⟩
  intro r hr
  simp only [List.mem_mapIdx] at hr
  obtain ⟨j, hj, rfl⟩ := hr
  have := h2 x[i][j] (List.getElem_mem _)
  simpa using this

theorem foldl_max_mem (l : List ℝ) : ∀ a, l.foldl max a ∈ a :: l := by
  induction l with
  | nil => intro a; simp
  | cons b l ih =>
    intro a
    have := ih (max a b)
    simp only [List.foldl_cons, List.mem_cons] at this ⊢
    rcases this with h | h
    · rcases max_choice a b with h' | h'
      · left; rw [h, h']
      · right; left; rw [h, h']
    · right; right; exact h

theorem foldl_min_mem (l : List ℝ) : ∀ a, l.foldl min a ∈ a :: l := by
  induction l with
  | nil => intro a; simp
  | cons b l ih =>
    intro a
    have := ih (min a b)
    simp only [List.foldl_cons, List.mem_cons] at this ⊢
    rcases this with h | h
    · rcases min_choice a b with h' | h'
      · left; rw [h, h']
      · right; left; rw [h, h']
    · right; right; exact h

theorem maxOf_mem {l : List ℝ} (h : l ≠ []) : maxOf l ∈ l := by
  cases l with
  | nil => exact absurd rfl h
  | cons a l => exact foldl_max_mem l a

theorem minOf_mem {l : List ℝ} (h : l ≠ []) : minOf l ∈ l := by
  cases l with
  | nil => exact absurd rfl h
  | cons a l => exact foldl_min_mem l a

theorem foldl_max_scale {k : ℝ} (hk : 0 ≤ k) (l : List ℝ) : ∀ a, (l.map (k * ·)).foldl max (k * a) = k * l.foldl max a := by
  induction l with
  | nil => intro a; rfl
  | cons b l ih => intro a; simp only [List.map_cons, List.foldl_cons, ← ih, mul_max_of_nonneg _ _ hk]

theorem foldl_min_scale {k : ℝ} (hk : 0 ≤ k) (l : List ℝ) : ∀ a, (l.map (k * ·)).foldl min (k * a) = k * l.foldl min a := by
  induction l with
  | nil => intro a; rfl
  | cons b l ih => intro a; simp only [List.map_cons, List.foldl_cons, ← ih, mul_min_of_nonneg _ _ hk]

theorem maxOf_scale {k : ℝ} (hk : 0 ≤ k) (l : List ℝ) : maxOf (l.map (k * ·)) = k * maxOf l := by
  cases l with
  | nil => simp [maxOf]
  | cons a l => exact foldl_max_scale hk l a

theorem minOf_scale {k : ℝ} (hk : 0 ≤ k) (l : List ℝ) : minOf (l.map (k * ·)) = k * minOf l := by
  cases l with
  | nil => simp [minOf]
  | cons a l => exact foldl_min_scale hk l a

theorem mapIdx_map' {β γ δ : Type} (f : Nat → γ → δ) (g : β → γ) (l : List β) : (l.map g).mapIdx f = l.mapIdx fun i x => f i (g x) := by
  apply List.ext_getElem <;> simp

theorem map_mapIdx' {β γ δ : Type} (f : γ → δ) (g : Nat → β → γ) (l : List β) : (l.mapIdx g).map f = l.mapIdx fun i x => f (g i x) := by
  apply List.ext_getElem <;> simp

/-- scaling every entry of a volume -/
def scaleV (k : ℝ) (x : Vol) : Vol := x.map fun p => p.map fun r => r.map (k * ·)

theorem window3_scale (k : ℝ) (x : Vol) (i j l : Nat) : window3 (scaleV k x) i j l = (window3 x i j l).map (k * ·) := by
  simp only [window3, scaleV, window_map, List.flatMap_map, List.map_flatMap]

theorem avgPool3_scale (k : ℝ) (x : Vol) : avgPool3 (scaleV k x) = scaleV k (avgPool3 x) := by
  unfold avgPool3
  simp only [window3_scale, mean_scale]
  unfold scaleV
  simp only [mapIdx_map', map_mapIdx']

theorem avg1_scale (k : ℝ) (x : List ℝ) : avg1 (x.map (k * ·)) = (avg1 x).map (k * ·) := by
  unfold avg1
  simp only [window_map, mean_scale, mapIdx_map', map_mapIdx']

theorem getD_scale (k : ℝ) (x : List ℝ) (i : Nat) : (x.map (k * ·)).getD i 0 = k * x.getD i 0 := by
  simp only [List.getD_eq_getElem?_getD, List.getElem?_map]
  cases x[i]? <;> simp

theorem edgeDet_scale (a b c k : ℝ) (x : List ℝ) : edgeDet a b c (x.map (k * ·)) = (edgeDet a b c x).map (k * ·) := by
  unfold edgeDet
  simp only [getD_scale, mapIdx_map', map_mapIdx', List.length_map]
  congr 1
  funext i v
  ring

theorem max1_scale {k : ℝ} (hk : 0 ≤ k) (x : List ℝ) : max1 (x.map (k * ·)) = (max1 x).map (k * ·) := by
  unfold max1
  simp only [window_map, maxOf_scale hk, mapIdx_map', map_mapIdx']

theorem min1_scale {k : ℝ} (hk : 0 ≤ k) (x : List ℝ) : min1 (x.map (k * ·)) = (min1 x).map (k * ·) := by
  unfold min1
  simp only [window_map, minOf_scale hk, mapIdx_map', map_mapIdx']

theorem argmax_go_lt (l : List ℝ) : ∀ bi b i, bi < i → argmax.go bi b i l < i + l.length := by
  induction l with
  | nil => intro bi b i h; simpa [argmax.go] using h
  | cons a l ih =>
    intro bi b i h
    unfold argmax.go
    split
    · have := ih i a (i + 1) (by omega); simp only [List.length_cons]; omega
    · have := ih bi b (i + 1) (by omega); simp only [List.length_cons]; omega

theorem argmax_lt {l : List ℝ} (h : l ≠ []) : argmax l < l.length := by
  cases l with
  | nil => exact absurd rfl h
  | cons a l => have := argmax_go_lt l 0 a 1 (by omega); simp only [argmax, List.length_cons]; omega

/-- the index found by `argmax` holds a largest entry, and earlier entries are smaller -/
theorem argmax_go_spec (l : List ℝ) : ∀ (pre : List ℝ) (bi : Nat) (b : ℝ), pre[bi]? = some b → (∀ (j : Nat) (x : ℝ), pre[j]? = some x → x ≤ b) →
    (∀ (j : Nat) (x : ℝ), j < bi → pre[j]? = some x → x < b) →
    ∃ v, (pre ++ l)[argmax.go bi b pre.length l]? = some v ∧ (∀ x ∈ pre ++ l, x ≤ v) ∧
      ∀ (j : Nat) (x : ℝ), j < argmax.go bi b pre.length l → (pre ++ l)[j]? = some x → x < v := by
  induction l with
  | nil =>
    intro pre bi b h1 h2 h3
    refine ⟨b, by simpa [argmax.go] using h1, ?_, ?_⟩
    · intro x hx
      rw [List.append_nil] at hx
      obtain ⟨j, hj, rfl⟩ := List.mem_iff_getElem.1 hx
      exact h2 j _ (List.getElem?_eq_getElem hj)
    · intro j x hj hx; rw [List.append_nil] at hx; exact h3 j x (by simpa [argmax.go] using hj) hx
  | cons a l ih =>
    intro pre bi b h1 h2 h3
    have hbi : bi < pre.length := (List.getElem?_eq_some_iff.1 h1).1
    unfold argmax.go
    have e : pre ++ a :: l = (pre ++ [a]) ++ l := by simp
    have hl : (pre ++ [a]).length = pre.length + 1 := by simp
    rw [e]
    split
    · next hlt =>
      rw [← hl]
      apply ih
      · simp
      · intro j x hx
        by_cases hj : j < pre.length
        · rw [List.getElem?_append_left hj] at hx; exact (h2 j x hx).trans hlt.le
        · have hj' : j = pre.length := by have := (List.getElem?_eq_some_iff.1 hx).1; simp at this; omega
          subst hj'; simp at hx; exact hx.ge
      · intro j x hj hx
        rw [List.getElem?_append_left hj] at hx
        exact (h2 j x hx).trans_lt hlt
    · next hle =>
      rw [← hl]
      apply ih
      · rw [List.getElem?_append_left hbi]; exact h1
      · intro j x hx
        by_cases hj : j < pre.length
        · rw [List.getElem?_append_left hj] at hx; exact h2 j x hx
        · have hj' : j = pre.length := by have := (List.getElem?_eq_some_iff.1 hx).1; simp at this; omega
          subst hj'; simp at hx; exact hx ▸ not_lt.1 hle
      · intro j x hj hx
        rw [List.getElem?_append_left (by omega)] at hx
        exact h3 j x hj hx

theorem argmax_spec {l : List ℝ} (h : l ≠ []) : ∃ v, l[argmax l]? = some v ∧ (∀ x ∈ l, x ≤ v) ∧ ∀ (j : Nat) (x : ℝ), j < argmax l → l[j]? = some x → x < v := by
  cases l with
  | nil => exact absurd rfl h
  | cons a l =>
    have := argmax_go_spec l [a] 0 a (by simp) (by
      intro j x hx
      cases j with
      | zero => simp at hx; exact hx.ge
      | succ j => simp at hx) (by omega)
    simpa [argmax] using this

/-- an index with a strictly larger entry than all others is the one found -/
theorem argmax_unique {l : List ℝ} {i : Nat} {v : ℝ} (hi : l[i]? = some v) (h : ∀ (j : Nat) (x : ℝ), j ≠ i → l[j]? = some x → x < v) : argmax l = i := by
  have hne : l ≠ [] := by rintro rfl; simp at hi
  obtain ⟨w, h1, h2, _⟩ := argmax_spec hne
  by_contra hc
  have := h _ w hc h1
  have := h2 v (List.mem_of_getElem? hi)
  linarith

end

end Tomopt
