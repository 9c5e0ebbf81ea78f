import Verif.Model.MonitorNan
import Verif.Props.C51

/-
Property theorems: C142, results of a fit in which losses or metrics were NaN or infinite.
-/
namespace Tomopt

noncomputable section

namespace C142

open Fit

/-- `a` is not NaN, and at most `b` unless `b` is NaN -/
def Better (a b : XF) : Prop := isNan a = false ∧ (isNan b = false → ordered ⊤ a ≤ ordered ⊤ b)

/-- `a` is not NaN, and below `b` unless `b` is NaN -/
def Below (a b : XF) : Prop := isNan a = false ∧ (isNan b = false → ordered ⊤ a < ordered ⊤ b)

/-- loss and metrics of epoch `i` -/
def At (ms : List Metric) (losses : List XF) (vals : List (List XF)) (i : Nat) (r : XF × List (String × XF)) : Prop :=
  losses[i]? = some r.1 ∧ r.2.map (·.1) = ms.map (·.name) ∧ ∀ (j : Nat) v, vals[j]? = some v → (r.2[j]?).map (·.2) = v[i]?

/-! ### Helpers -/

theorem ordered_val {x : XF} (h : isNan x = false) (a b : EReal) : ordered a x = ordered b x := by
  cases x <;> simp [isNan, ordered] at h ⊢

theorem firstMinFrom_spec (ys : List EReal) (all : List EReal) (b i : Nat) (x : EReal) (hdrop : all.drop i = ys) (hb : b < i) (hbx : all[b]? = some x)
    (hmin : ∀ j y, j < i → all[j]? = some y → x ≤ y ∧ (j < b → x < y)) :
    ∃ m, all[firstMinFrom b x i ys]? = some m ∧ ∀ j y, all[j]? = some y → m ≤ y ∧ (j < firstMinFrom b x i ys → m < y) := by
  induction ys generalizing b i x with
  | nil =>
    have hlen : all.length ≤ i := by
      have := congrArg List.length hdrop
      simp at this
      omega
    refine ⟨x, hbx, fun j y hj => hmin j y ?_ hj⟩
    have := (List.getElem?_eq_some_iff.mp hj).1
    omega
  | cons y ys ih =>
    have hi : all[i]? = some y := by
      have : (all.drop i)[0]? = some y := by rw [hdrop]; rfl
      simpa using this
    have hdrop' : all.drop (i + 1) = ys := by
      rw [← List.drop_drop, hdrop]
      rfl
    unfold firstMinFrom
    split
    · rename_i hlt
      refine ih i (i + 1) y hdrop' (by omega) hi ?_
      intro j z hj hz
      by_cases hji : j = i
      · subst hji
        rw [hi, Option.some.injEq] at hz
        subst hz
        exact ⟨le_rfl, fun h => absurd h (by omega)⟩
      · have := hmin j z (by omega) hz
        exact ⟨le_trans hlt.le this.1, fun _ => lt_of_lt_of_le hlt this.1⟩
    · rename_i hlt
      refine ih b (i + 1) x hdrop' (by omega) hbx ?_
      intro j z hj hz
      by_cases hji : j = i
      · subst hji
        rw [hi, Option.some.injEq] at hz
        subst hz
        exact ⟨not_lt.mp hlt, fun h => absurd h (by omega)⟩
      · exact hmin j z (by omega) hz

theorem firstMin_spec (xs : List EReal) (hne : xs ≠ []) : ∃ i m, firstMin xs = .ok i ∧ xs[i]? = some m ∧ ∀ j y, xs[j]? = some y → m ≤ y ∧ (j < i → m < y) := by
  obtain ⟨x, xs, rfl⟩ := List.exists_cons_of_ne_nil hne
  obtain ⟨m, h1, h2⟩ := firstMinFrom_spec xs (x :: xs) 0 1 x rfl (by omega) rfl (by
    intro j y hj hy
    have : j = 0 := by omega
    subst this
    simp only [List.getElem?_cons_zero, Option.some.injEq] at hy
    subst hy
    exact ⟨le_rfl, fun h => absurd h (by omega)⟩)
  exact ⟨_, m, rfl, h1, h2⟩

/-- the first smallest value, if some value is not NaN and below plus infinity -/
theorem nanargmin_spec (xs : List XF) (h : ∃ x ∈ xs, isNan x = false ∧ ordered ⊤ x < ⊤) :
    ∃ i x, nanargmin xs = .ok i ∧ xs[i]? = some x ∧ ∀ (j : Nat) y, xs[j]? = some y → Better x y ∧ (j < i → Below x y) := by
  obtain ⟨x, hx, hn, ht⟩ := h
  have hall : xs.all isNan = false := by
    rw [Bool.eq_false_iff]
    intro h
    have := List.all_eq_true.mp h x hx
    rw [hn] at this
    exact absurd this (by simp)
  have hne : xs.map (ordered ⊤) ≠ [] := by
    intro h
    rw [List.map_eq_nil_iff] at h
    subst h
    simp at hx
  obtain ⟨i, m, h1, h2, h3⟩ := firstMin_spec _ hne
  rw [List.getElem?_map, Option.map_eq_some_iff] at h2
  obtain ⟨z, hz, rfl⟩ := h2
  obtain ⟨k, hk⟩ := List.mem_iff_getElem?.mp hx
  have hlt : ordered ⊤ z < ⊤ := lt_of_le_of_lt (h3 k _ (by rw [List.getElem?_map, hk]; rfl)).1 ht
  have hz0 : isNan z = false := by
    cases z <;> simp [isNan, ordered] at hlt ⊢
  refine ⟨i, z, by unfold nanargmin; rw [hall]; exact h1, hz, ?_⟩
  intro j y hy
  have := h3 j (ordered ⊤ y) (by rw [List.getElem?_map, hy]; rfl)
  exact ⟨⟨hz0, fun _ => this.1⟩, fun hj => ⟨hz0, fun _ => this.2 hj⟩⟩

theorem nanargmax_spec (xs : List XF) (h : ∃ x ∈ xs, isNan x = false ∧ ⊥ < ordered ⊥ x) :
    ∃ i x, nanargmax xs = .ok i ∧ xs[i]? = some x ∧ isNan x = false ∧ ∀ (j : Nat) y, xs[j]? = some y → isNan y = false → ordered ⊤ y ≤ ordered ⊤ x ∧ (j < i → ordered ⊤ y < ordered ⊤ x) := by
  obtain ⟨x, hx, hn, ht⟩ := h
  have hall : xs.all isNan = false := by
    rw [Bool.eq_false_iff]
    intro h
    have := List.all_eq_true.mp h x hx
    rw [hn] at this
    exact absurd this (by simp)
  have hne : (xs.map fun x => -ordered ⊥ x) ≠ [] := by
    intro h
    rw [List.map_eq_nil_iff] at h
    subst h
    simp at hx
  obtain ⟨i, m, h1, h2, h3⟩ := firstMin_spec _ hne
  rw [List.getElem?_map, Option.map_eq_some_iff] at h2
  obtain ⟨z, hz, rfl⟩ := h2
  obtain ⟨k, hk⟩ := List.mem_iff_getElem?.mp hx
  have hle := (h3 k _ (by rw [List.getElem?_map, hk]; rfl)).1
  rw [EReal.neg_le_neg_iff] at hle
  have hlt : ⊥ < ordered ⊥ z := lt_of_lt_of_le ht hle
  have hz0 : isNan z = false := by
    cases z <;> simp [isNan, ordered] at hlt ⊢
  refine ⟨i, z, by unfold nanargmax; rw [hall]; exact h1, hz, hz0, ?_⟩
  intro j y hy hyn
  have := h3 j (-ordered ⊥ y) (by rw [List.getElem?_map, hy]; rfl)
  rw [EReal.neg_le_neg_iff, EReal.neg_lt_neg_iff] at this
  rw [ordered_val hyn ⊤ ⊥, ordered_val hz0 ⊤ ⊥]
  exact this

theorem results_at (ms : List Metric) (losses : List XF) (vals : List (List XF)) (hv : vals.length = ms.length) (hl : ∀ v ∈ vals, v.length = losses.length) (i : Nat) (l : XF)
    (hi : losses[i]? = some l) : At ms losses vals i (l, List.zipWith (fun m v => (m.name, (v[i]?).getD .nan)) ms vals) := by
  refine ⟨hi, ?_, ?_⟩
  · rw [List.map_zipWith]
    simp only
    apply List.ext_getElem (by simp [hv])
    intro j h1 h2
    simp
  · intro j v hj
    have hjl := (List.getElem?_eq_some_iff.mp hj).1
    rw [List.getElem?_zipWith, List.getElem?_eq_getElem (by omega : j < ms.length), hj]
    have : i < v.length := by
      rw [hl v (List.mem_of_getElem? hj)]
      exact (List.getElem?_eq_some_iff.mp hi).1
    simp [List.getElem?_eq_getElem this]

theorem run_loss (ms : List Metric) (losses : List XF) (vals : List (List XF)) (hf : C78.firstMain ms = none) (i : Nat) (l : XF) (h1 : nanargmin losses = .ok i) (h2 : losses[i]? = some l) :
    getResultsX ms losses vals true = .ok (l, List.zipWith (fun m v => (m.name, (v[i]?).getD .nan)) ms vals) := by
  unfold getResultsX mainMetric
  have hf' : ms.findIdx? (·.main) = none := hf
  simp only [if_true, hf']
  by_cases h0 : ms.length > 0
  · simp only [h0, if_true, h1, h2]
  · simp only [h0, if_false, h1, h2]

theorem run_main (ms : List Metric) (losses : List XF) (vals : List (List XF)) (k : Nat) (M : Metric) (vv : List XF) (hf : C78.firstMain ms = some k) (hm : ms[k]? = some M) (hv : vals[k]? = some vv)
    (i : Nat) (l : XF) (h1 : (if M.lowerBetter then nanargmin vv else nanargmax vv) = .ok i) (h2 : losses[i]? = some l) :
    getResultsX ms losses vals true = .ok (l, List.zipWith (fun m v => (m.name, (v[i]?).getD .nan)) ms vals) := by
  unfold getResultsX mainMetric
  have hf' : ms.findIdx? (·.main) = some k := hf
  have h0 : ms.length > 0 := by
    have := (List.getElem?_eq_some_iff.mp hm).1
    omega
  simp only [if_true, hf', h0, hm, hv, h1, h2]

/-! ### The property -/

/-- **C142.** Without main metric, and if the loss of some epoch was not NaN and below plus infinity: the results are those of one epoch, whose loss is not NaN and not above any other loss, and
the first such epoch. -/
theorem best (ms : List Metric) (losses : List XF) (vals : List (List XF)) (hv : vals.length = ms.length) (hl : ∀ v ∈ vals, v.length = losses.length) (hf : C78.firstMain ms = none)
    (h : ∃ x ∈ losses, isNan x = false ∧ ordered ⊤ x < ⊤) :
    ∃ i r, getResultsX ms losses vals true = .ok r ∧ At ms losses vals i r ∧ ∀ (j : Nat) y, losses[j]? = some y → Better r.1 y ∧ (j < i → Below r.1 y) := by
  obtain ⟨i, x, h1, h2, h3⟩ := nanargmin_spec losses h
  exact ⟨i, _, run_loss ms losses vals hf i x h1 h2, results_at ms losses vals hv hl i x h2, h3⟩

/-- **C142.** With a main metric for which lower is better. -/
theorem best_lower (ms : List Metric) (losses : List XF) (vals : List (List XF)) (hv : vals.length = ms.length) (hl : ∀ v ∈ vals, v.length = losses.length) (k : Nat) (M : Metric) (vv : List XF)
    (hf : C78.firstMain ms = some k) (hm : ms[k]? = some M) (hk : vals[k]? = some vv) (hb : M.lowerBetter = true) (h : ∃ x ∈ vv, isNan x = false ∧ ordered ⊤ x < ⊤) :
    ∃ i r x, getResultsX ms losses vals true = .ok r ∧ At ms losses vals i r ∧ vv[i]? = some x ∧ ∀ (j : Nat) y, vv[j]? = some y → Better x y ∧ (j < i → Below x y) := by
  obtain ⟨i, x, h1, h2, h3⟩ := nanargmin_spec vv h
  have hi : i < losses.length := by rw [← hl vv (List.mem_of_getElem? hk)]; exact (List.getElem?_eq_some_iff.mp h2).1
  exact ⟨i, _, x, run_main ms losses vals k M vv hf hm hk i losses[i] (by rw [if_pos hb]; exact h1) (List.getElem?_eq_getElem hi), results_at ms losses vals hv hl i _ (List.getElem?_eq_getElem hi), h2, h3⟩

/-- **C142.** With a main metric for which higher is better. -/
theorem best_higher (ms : List Metric) (losses : List XF) (vals : List (List XF)) (hv : vals.length = ms.length) (hl : ∀ v ∈ vals, v.length = losses.length) (k : Nat) (M : Metric) (vv : List XF)
    (hf : C78.firstMain ms = some k) (hm : ms[k]? = some M) (hk : vals[k]? = some vv) (hb : M.lowerBetter = false) (h : ∃ x ∈ vv, isNan x = false ∧ ⊥ < ordered ⊥ x) :
    ∃ i r x, getResultsX ms losses vals true = .ok r ∧ At ms losses vals i r ∧ vv[i]? = some x ∧ isNan x = false ∧
      ∀ (j : Nat) y, vv[j]? = some y → isNan y = false → ordered ⊤ y ≤ ordered ⊤ x ∧ (j < i → ordered ⊤ y < ordered ⊤ x) := by
  obtain ⟨i, x, h1, h2, h3⟩ := nanargmax_spec vv h
  have hi : i < losses.length := by rw [← hl vv (List.mem_of_getElem? hk)]; exact (List.getElem?_eq_some_iff.mp h2).1
  exact ⟨i, _, x, run_main ms losses vals k M vv hf hm hk i losses[i] (by rw [if_neg (by simp [hb])]; exact h1) (List.getElem?_eq_getElem hi),
    results_at ms losses vals hv hl i _ (List.getElem?_eq_getElem hi), h2, h3⟩

/-- **C142.** Without loading the best state the results are those of the last epoch, whatever they are. -/
theorem last (ms : List Metric) (losses : List XF) (vals : List (List XF)) (hv : vals.length = ms.length) (hl : ∀ v ∈ vals, v.length = losses.length) (hne : losses ≠ []) :
    ∃ r, getResultsX ms losses vals false = .ok r ∧ At ms losses vals (losses.length - 1) r := by
  have hlen : 0 < losses.length := List.length_pos_iff.mpr hne
  have hi : losses[losses.length - 1]? = some losses[losses.length - 1] := List.getElem?_eq_getElem (by omega)
  refine ⟨_, ?_, results_at ms losses vals hv hl _ _ hi⟩
  unfold getResultsX
  simp only [Bool.false_eq_true, if_false, if_neg (by omega : ¬ losses.length = 0), hi]

/-- **C142.** A fit in which every loss was NaN has no best epoch, and says so. -/
theorem all_nan_error (ms : List Metric) (losses : List XF) (vals : List (List XF)) (hf : C78.firstMain ms = none) (h : ∀ x ∈ losses, isNan x = true) :
    getResultsX ms losses vals true = .error .valueError := by
  have h1 : nanargmin losses = .error .valueError := by
    unfold nanargmin
    rw [if_pos (List.all_eq_true.mpr h)]
  unfold getResultsX mainMetric
  have hf' : ms.findIdx? (·.main) = none := hf
  simp only [if_true, hf']
  by_cases h0 : ms.length > 0
  · simp only [h0, if_true, h1]
  · simp only [h0, if_false, h1]

theorem best_fold : ∀ (ls : List XF) (b : XF), isNan b = false →
    let r := ls.foldl (fun best l => if leX l best then l else best) b
    isNan r = false ∧ (r = b ∨ r ∈ ls) ∧ ordered ⊤ r ≤ ordered ⊤ b ∧ ∀ y ∈ ls, isNan y = false → ordered ⊤ r ≤ ordered ⊤ y
  | [], b, hb => by simp [hb]
  | l :: ls, b, hb => by
    simp only [List.foldl_cons]
    by_cases hle : leX l b = true
    · have hl : isNan l = false ∧ ordered ⊤ l ≤ ordered ⊤ b := by
        unfold leX at hle
        simp only [Bool.and_eq_true, Bool.not_eq_true', decide_eq_true_eq] at hle
        exact ⟨hle.1.1, hle.2⟩
      obtain ⟨h1, h2, h3, h4⟩ := best_fold ls l hl.1
      rw [if_pos hle]
      refine ⟨h1, ?_, le_trans h3 hl.2, ?_⟩
      · rcases h2 with h | h
        · exact Or.inr (by rw [h]; simp)
        · exact Or.inr (by simp [h])
      · intro y hy hyn
        rcases List.mem_cons.mp hy with rfl | hy
        · exact h3
        · exact h4 y hy hyn
    · obtain ⟨h1, h2, h3, h4⟩ := best_fold ls b hb
      rw [if_neg hle]
      refine ⟨h1, ?_, h3, ?_⟩
      · rcases h2 with h | h
        · exact Or.inl h
        · exact Or.inr (by simp [h])
      · intro y hy hyn
        rcases List.mem_cons.mp hy with rfl | hy
        · have : ordered ⊤ b < ordered ⊤ y := by
            unfold leX at hle
            simp only [hyn, hb, Bool.not_false, Bool.and_self, Bool.true_and, decide_eq_true_eq] at hle
            exact not_le.mp hle
          exact le_trans h3 this.le
        · exact h4 y hy hyn

/-- **C142.** The best loss shown during the fit is never NaN, is the smallest of all losses that are not NaN, and is the loss in the results after loading the best state. -/
theorem shown (ms : List Metric) (losses : List XF) (vals : List (List XF)) (hv : vals.length = ms.length) (hl : ∀ v ∈ vals, v.length = losses.length) (hf : C78.firstMain ms = none)
    (h : ∃ x ∈ losses, isNan x = false ∧ ordered ⊤ x < ⊤) :
    isNan (bestLoss losses) = false ∧ bestLoss losses ∈ losses ∧ (∀ y ∈ losses, isNan y = false → ordered ⊤ (bestLoss losses) ≤ ordered ⊤ y) ∧
      ∃ r, getResultsX ms losses vals true = .ok r ∧ r.1 = bestLoss losses := by
  obtain ⟨h1, h2, -, h4⟩ := best_fold losses .pinf rfl
  have hm : bestLoss losses ∈ losses := by
    rcases h2 with h2 | h2
    · obtain ⟨x, hx, hn, ht⟩ := h
      have := h4 x hx hn
      rw [h2] at this
      exact absurd (lt_of_le_of_lt this ht) (by simp [ordered])
    · exact h2
  refine ⟨h1, hm, h4, ?_⟩
  obtain ⟨i, r, g1, g2, g3⟩ := best ms losses vals hv hl hf h
  refine ⟨r, g1, ?_⟩
  obtain ⟨j, hj⟩ := List.mem_iff_getElem?.mp hm
  have a := (g3 j _ hj).1
  have c := h4 r.1 (List.mem_of_getElem? g2.1) a.1
  have e := le_antisymm (a.2 h1) c
  have inj : ∀ x y : XF, isNan x = false → isNan y = false → ordered ⊤ x = ordered ⊤ y → x = y := by
    intro x y hx hy hxy
    cases x <;> cases y <;> simp_all [isNan, ordered]
  exact inj _ _ a.1 h1 e

theorem ordered_inj_num (a b : ℝ) : (ordered ⊤ (.num a) < ordered ⊤ (.num b)) ↔ a < b := by simp [ordered]

theorem firstMinFrom_num (f : ℝ → ℝ) (g : ℝ → EReal) (hg : ∀ a b, g a < g b ↔ f a < f b) : ∀ (ys : List ℝ) (b i : Nat) (x : ℝ), firstMinFrom b (g x) i (ys.map g) = argminFrom b (f x) i (ys.map f)
  | [], b, i, x => rfl
  | y :: ys, b, i, x => by
    simp only [List.map_cons, firstMinFrom, argminFrom]
    by_cases h : f y < f x
    · rw [if_pos h, if_pos ((hg y x).mpr h)]
      exact firstMinFrom_num f g hg ys i (i + 1) y
    · rw [if_neg h, if_neg (fun h' => h ((hg y x).mp h'))]
      exact firstMinFrom_num f g hg ys b (i + 1) x

theorem nanargmin_num (xs : List ℝ) : nanargmin (xs.map .num) = argmin xs := by
  cases xs with
  | nil => rfl
  | cons x xs =>
    have := firstMinFrom_num id (fun a => ordered ⊤ (.num a)) (fun a b => by simp [ordered]) xs 0 1 x
    simp only [List.map_id, id] at this
    unfold nanargmin
    simp only [List.map_cons, List.all_cons, isNan, Bool.false_and, Bool.false_eq_true, if_false, firstMin, argmin, List.map_map, Function.comp_def]
    rw [this]

theorem nanargmax_num (xs : List ℝ) : nanargmax (xs.map .num) = argmax xs := by
  cases xs with
  | nil => rfl
  | cons x xs =>
    have := firstMinFrom_num (fun a => -a) (fun a => -ordered ⊥ (.num a)) (fun a b => by rw [EReal.neg_lt_neg_iff]; simp [ordered]) xs 0 1 x
    unfold nanargmax argmax
    simp only [List.map_cons, List.all_cons, isNan, Bool.false_and, Bool.false_eq_true, if_false, firstMin, argmin, List.map_map, Function.comp_def]
    rw [this]

/-- results made of numbers -/
def numResult : Except Err (ℝ × List (String × ℝ)) → Except Err (XF × List (String × XF))
  | .error e => .error e
  | .ok r => .ok (.num r.1, r.2.map fun p => (p.1, .num p.2))

def pickX (ms : List Metric) (losses : List XF) (vals : List (List XF)) : Except Err Nat → Except Err (XF × List (String × XF))
  | .error e => .error e
  | .ok i => match losses[i]? with
    | none => .error .indexError
    | some l => .ok (l, List.zipWith (fun m v => (m.name, (v[i]?).getD .nan)) ms vals)

def pickR (ms : List Metric) (losses : List ℝ) (vals : List (List ℝ)) : Except Err Nat → Except Err (ℝ × List (String × ℝ))
  | .error e => .error e
  | .ok i => match losses[i]? with
    | none => .error .indexError
    | some l => .ok (l, List.zipWith (fun m v => (m.name, (v[i]?).getD 0)) ms vals)

/-- **C142.** For histories of numbers these are the results of C77. -/
theorem numbers (ms : List Metric) (losses : List ℝ) (vals : List (List ℝ)) (hv : vals.length = ms.length) (hl : ∀ v ∈ vals, v.length = losses.length) (b : Bool) :
    getResultsX ms (losses.map .num) (vals.map (·.map .num)) b =
      numResult (getResults ms losses vals b) := by
  have hz : ∀ i, i < losses.length → List.zipWith (fun (m : Metric) (v : List XF) => (m.name, (v[i]?).getD .nan)) ms (vals.map (·.map .num)) =
      (List.zipWith (fun (m : Metric) (v : List ℝ) => (m.name, (v[i]?).getD 0)) ms vals).map fun p => (p.1, XF.num p.2) := by
    intro i hi
    rw [List.map_zipWith, List.zipWith_map_right]
    apply List.ext_getElem (by simp)
    intro j h1 h2
    have hj : j < vals.length := by simp at h1; omega
    have : i < vals[j].length := by rw [hl _ (List.getElem_mem hj)]; exact hi
    simp [List.getElem?_eq_getElem this]
  have key : ∀ idx : Except Err Nat, pickX ms (losses.map .num) (vals.map (·.map .num)) idx = numResult (pickR ms losses vals idx) := by
    intro idx
    cases idx with
    | error e => rfl
    | ok i =>
      simp only [pickX, pickR, List.getElem?_map]
      cases hi : losses[i]? with
      | none => rfl
      | some l => simp only [Option.map_some, numResult]; rw [hz i (List.getElem?_eq_some_iff.mp hi).1]
  have hidx : (if b then
      match mainMetric ms with
      | (some i, true) => (match ms[i]?, (vals.map (·.map XF.num))[i]? with
        | some m, some v => if m.lowerBetter then nanargmin v else nanargmax v
        | _, _ => .error .indexError)
      | _ => nanargmin (losses.map .num)
    else if (losses.map XF.num).length = 0 then .error .indexError else .ok ((losses.map XF.num).length - 1)) =
    (if b then
      match mainMetric ms with
      | (some i, true) => (match ms[i]?, vals[i]? with
        | some m, some v => if m.lowerBetter then argmin v else argmax v
        | _, _ => .error .indexError)
      | _ => argmin losses
    else if losses = [] then .error .indexError else .ok (losses.length - 1)) := by
    cases b with
    | false => simp only [Bool.false_eq_true, if_false, List.length_map, List.length_eq_zero_iff]
    | true =>
      simp only [if_true, nanargmin_num]
      split
      · rename_i i _
        cases hm : ms[i]? with
        | none => rfl
        | some m =>
          simp only [List.getElem?_map]
          cases hvv : vals[i]? with
          | none => rfl
          | some v => simp only [Option.map_some, nanargmin_num, nanargmax_num]
      · rfl
  exact (congrArg (pickX ms (losses.map .num) (vals.map (·.map .num))) hidx).trans (key _)

/-! ### What the code refutes -/

/-- **C142 is refuted by the code.** If the losses of a fit are NaN or infinite only, as when a validation batch could not be scanned (its loss counts as infinite), the epoch with NaN is reported as the best
if it was first, while the best loss shown is infinite. -/
theorem nan_violated : getResultsX [] [.nan, .pinf] [] true = .ok (.nan, []) ∧ bestLoss [.nan, .pinf] = .pinf := by
  constructor
  · simp [getResultsX, mainMetric, nanargmin, isNan, firstMin, firstMinFrom, ordered]
  · simp [bestLoss, leX, isNan]

/-! ### The hypotheses can be met -/

example : ∃ r, getResultsX [] [.nan, .num 3, .pinf, .num 2, .num 2] [] true = .ok r ∧ r.1 = .num 2 := by
  have h : ∃ x ∈ [XF.nan, .num 3, .pinf, .num 2, .num 2], isNan x = false ∧ ordered ⊤ x < ⊤ := ⟨.num 2, by simp, rfl, by simp [ordered]⟩
  obtain ⟨-, -, -, r, h1, h2⟩ := shown [] [.nan, .num 3, .pinf, .num 2, .num 2] [] rfl (by simp) rfl h
  refine ⟨r, h1, ?_⟩
  rw [h2]
  have : ¬ ((3 : ℝ) ≤ 2) := by norm_num
  simp [bestLoss, leX, isNan, ordered]
  norm_num

example : ∃ i r, getResultsX [] [.nan, .num 3, .ninf] [] true = .ok r ∧ At [] [.nan, .num 3, .ninf] [] i r ∧
    ∀ (j : Nat) y, [XF.nan, .num 3, .ninf][j]? = some y → Better r.1 y ∧ (j < i → Below r.1 y) :=
  best [] _ [] rfl (by simp) rfl ⟨.num 3, by simp, rfl, by simp [ordered]⟩

/-- a main metric, lower better or not -/
def metric (lower : Bool) : Metric := { name := "Eff", lowerBetter := lower, main := true }

example : ∃ i r x, getResultsX [metric true] [.num 1, .num 2] [[.nan, .num 4]] true = .ok r ∧ At [metric true] [.num 1, .num 2] [[.nan, .num 4]] i r ∧ [XF.nan, .num 4][i]? = some x ∧
    ∀ (j : Nat) y, [XF.nan, .num 4][j]? = some y → Better x y ∧ (j < i → Below x y) :=
  best_lower _ _ _ rfl (by simp) 0 (metric true) _ rfl rfl rfl rfl ⟨.num 4, by simp, rfl, by simp [ordered]⟩

example : ∃ i r x, getResultsX [metric false] [.num 1, .num 2] [[.nan, .num 4]] true = .ok r ∧ At [metric false] [.num 1, .num 2] [[.nan, .num 4]] i r ∧ [XF.nan, .num 4][i]? = some x ∧ isNan x = false ∧
    ∀ (j : Nat) y, [XF.nan, .num 4][j]? = some y → isNan y = false → ordered ⊤ y ≤ ordered ⊤ x ∧ (j < i → ordered ⊤ y < ordered ⊤ x) :=
  best_higher _ _ _ rfl (by simp) 0 (metric false) _ rfl rfl rfl rfl ⟨.num 4, by simp, rfl, by simp [ordered]⟩

example : getResultsX [] [.nan, .nan] [] true = .error .valueError := all_nan_error _ _ _ rfl (by simp [isNan])

example : ∃ r, getResultsX [] [.num 1, .nan] [] false = .ok r ∧ At [] [.num 1, .nan] [] 1 r := last [] [.num 1, .nan] [] rfl (by simp) (by simp)

example : getResultsX [metric false] [.num 1, .num 2] [[.num 3, .num 4]] true = numResult (getResults [metric false] [1, 2] [[3, 4]] true) := numbers [metric false] [1, 2] [[3, 4]] rfl (by simp) true

end C142

end

end Tomopt
