import Verif.Lemmas.Classifier

/-
Property theorems: C141, the filters of the furnace classifier.
-/
namespace Tomopt

noncomputable section

namespace C141

open Classify

/-- inference.py 90-97: `gauss_1d` on a row -/
def gauss1 (x : List ℝ) : List ℝ := (edgeDet 2 4 2 x).map (· / 8)

/-! ### Helpers -/

theorem edgeDet_length (a b c : ℝ) (x : List ℝ) : (edgeDet a b c x).length = x.length := by simp [edgeDet]

theorem edgeDet_get (a b c : ℝ) {x : List ℝ} {i : Nat} (hi : i < x.length) :
    (edgeDet a b c x)[i]'(by rw [edgeDet_length]; exact hi) = a * x[i - 1] + b * x[i] + c * x[min (i + 1) (x.length - 1)] := by
  simp only [edgeDet, List.getElem_mapIdx]
  rw [List.getD_eq_getElem?_getD, List.getElem?_eq_getElem (show i - 1 < x.length by omega), Option.getD_some,
    List.getD_eq_getElem?_getD, List.getElem?_eq_getElem (show min (i + 1) (x.length - 1) < x.length by omega), Option.getD_some]

theorem near_lt {n i a : Nat} (h : 0 < n) : near n i a < n := by unfold near; omega

theorem near_entry {x : Vol} (h : Solid x) (hx : x ≠ []) (i j k : Nat) (t : Nat × Nat × Nat) : Entry x (nearAt x i j k t) := by
  have h1 : near x.length i t.1 < x.length := near_lt (List.length_pos_iff.mpr hx)
  have hp := List.getElem_mem h1
  obtain ⟨p0, pr⟩ := h _ hp
  have h2 : near x[near x.length i t.1].length j t.2.1 < x[near x.length i t.1].length := near_lt (List.length_pos_iff.mpr p0)
  have hr := List.getElem_mem h2
  have h3 := near_lt (i := k) (a := t.2.2) (List.length_pos_iff.mpr (pr _ hr))
  refine ⟨_, hp, _, hr, ?_⟩
  simp only [nearAt, List.getD_eq_getElem?_getD, List.getElem?_eq_getElem h1, Option.getD_some, List.getElem?_eq_getElem h2, List.getElem?_eq_getElem h3]
  exact List.getElem_mem h3

theorem taps_sum (f : Nat × Nat × Nat → ℝ) : (taps.map f).sum = f (0, 0, 0) + f (0, 0, 1) + f (0, 0, 2) + f (0, 1, 0) + f (0, 1, 1) + f (0, 1, 2) + f (0, 2, 0) + f (0, 2, 1) + f (0, 2, 2) +
    f (1, 0, 0) + f (1, 0, 1) + f (1, 0, 2) + f (1, 1, 0) + f (1, 1, 1) + f (1, 1, 2) + f (1, 2, 0) + f (1, 2, 1) + f (1, 2, 2) +
    f (2, 0, 0) + f (2, 0, 1) + f (2, 0, 2) + f (2, 1, 0) + f (2, 1, 1) + f (2, 1, 2) + f (2, 2, 0) + f (2, 2, 1) + f (2, 2, 2) := by
  rw [show taps = [(0, 0, 0), (0, 0, 1), (0, 0, 2), (0, 1, 0), (0, 1, 1), (0, 1, 2), (0, 2, 0), (0, 2, 1), (0, 2, 2), (1, 0, 0), (1, 0, 1), (1, 0, 2), (1, 1, 0), (1, 1, 1), (1, 1, 2), (1, 2, 0), (1, 2, 1),
    (1, 2, 2), (2, 0, 0), (2, 0, 1), (2, 0, 2), (2, 1, 0), (2, 1, 1), (2, 1, 2), (2, 2, 0), (2, 2, 1), (2, 2, 2)] from by decide]
  simp only [List.map_cons, List.map_nil, List.sum_cons, List.sum_nil]
  ring

/-- the weighted mean of 27 neighbours, written out -/
theorem gauss_sum (f : Nat × Nat × Nat → ℝ) : (taps.map fun t => tap t * f t).sum / (taps.map tap).sum =
    (f (0, 0, 0) + 2 * f (0, 0, 1) + f (0, 0, 2) + 2 * f (0, 1, 0) + 4 * f (0, 1, 1) + 2 * f (0, 1, 2) + f (0, 2, 0) + 2 * f (0, 2, 1) + f (0, 2, 2) +
    2 * f (1, 0, 0) + 4 * f (1, 0, 1) + 2 * f (1, 0, 2) + 4 * f (1, 1, 0) + 8 * f (1, 1, 1) + 4 * f (1, 1, 2) + 2 * f (1, 2, 0) + 4 * f (1, 2, 1) + 2 * f (1, 2, 2) +
    f (2, 0, 0) + 2 * f (2, 0, 1) + f (2, 0, 2) + 2 * f (2, 1, 0) + 4 * f (2, 1, 1) + 2 * f (2, 1, 2) + f (2, 2, 0) + 2 * f (2, 2, 1) + f (2, 2, 2)) / 64 := by
  rw [taps_sum, taps_sum]
  simp only [tap, gaussKernel, List.getD_eq_getElem?_getD, List.getElem?_cons_zero, List.getElem?_cons_succ, Option.getD_some]
  norm_num

/-- the size of an image: the lengths of all rows of all layers -/
def shape (x : Vol) : List (List Nat) := x.map fun p => p.map List.length

/-! ### The property -/

/-- **C141.** Smoothing invents nothing: what a smoothing filter makes of an image lies within the range of the image, and has its size. A homogeneous image is kept as it is (take `lo = hi`). -/
theorem smooth_layers (lo hi : ℝ) (x : Vol) (hs : Solid x) (h : ∀ v, Entry x v → lo ≤ v ∧ v ≤ hi) :
    (shape (gauss3 x) = shape x ∧ ∀ v, Entry (gauss3 x) v → lo ≤ v ∧ v ≤ hi) ∧ (shape (avgPool3 x) = shape x ∧ ∀ v, Entry (avgPool3 x) v → lo ≤ v ∧ v ≤ hi) := by
  refine ⟨⟨?_, ?_⟩, ?_, ?_⟩
  · simp only [shape, gauss3]
    apply List.ext_getElem (by simp)
    intro i h1 h2
    simp only [List.getElem_map, List.getElem_mapIdx]
    apply List.ext_getElem (by simp)
    intro j h3 h4
    simp
  · intro v hv
    obtain ⟨p, hp, r, hr, hv⟩ := hv
    simp only [gauss3, List.mem_mapIdx] at hp
    obtain ⟨i, hi', rfl⟩ := hp
    simp only [List.mem_mapIdx] at hr
    obtain ⟨j, hj, rfl⟩ := hr
    simp only [List.mem_mapIdx] at hv
    obtain ⟨k, hk, rfl⟩ := hv
    have hx : x ≠ [] := by rintro rfl; simp at hi'
    rw [gauss_sum (nearAt x i j k)]
    have a := fun t => h _ (near_entry hs hx i j k t)
    constructor
    · linarith [(a (0, 0, 0)).1, (a (0, 0, 1)).1, (a (0, 0, 2)).1, (a (0, 1, 0)).1, (a (0, 1, 1)).1, (a (0, 1, 2)).1, (a (0, 2, 0)).1, (a (0, 2, 1)).1, (a (0, 2, 2)).1,
        (a (1, 0, 0)).1, (a (1, 0, 1)).1, (a (1, 0, 2)).1, (a (1, 1, 0)).1, (a (1, 1, 1)).1, (a (1, 1, 2)).1, (a (1, 2, 0)).1, (a (1, 2, 1)).1, (a (1, 2, 2)).1,
        (a (2, 0, 0)).1, (a (2, 0, 1)).1, (a (2, 0, 2)).1, (a (2, 1, 0)).1, (a (2, 1, 1)).1, (a (2, 1, 2)).1, (a (2, 2, 0)).1, (a (2, 2, 1)).1, (a (2, 2, 2)).1]
    · linarith [(a (0, 0, 0)).2, (a (0, 0, 1)).2, (a (0, 0, 2)).2, (a (0, 1, 0)).2, (a (0, 1, 1)).2, (a (0, 1, 2)).2, (a (0, 2, 0)).2, (a (0, 2, 1)).2, (a (0, 2, 2)).2,
        (a (1, 0, 0)).2, (a (1, 0, 1)).2, (a (1, 0, 2)).2, (a (1, 1, 0)).2, (a (1, 1, 1)).2, (a (1, 1, 2)).2, (a (1, 2, 0)).2, (a (1, 2, 1)).2, (a (1, 2, 2)).2,
        (a (2, 0, 0)).2, (a (2, 0, 1)).2, (a (2, 0, 2)).2, (a (2, 1, 0)).2, (a (2, 1, 1)).2, (a (2, 1, 2)).2, (a (2, 2, 0)).2, (a (2, 2, 1)).2, (a (2, 2, 2)).2]
  · simp only [shape, avgPool3]
    apply List.ext_getElem (by simp)
    intro i h1 h2
    simp only [List.getElem_map, List.getElem_mapIdx]
    apply List.ext_getElem (by simp)
    intro j h3 h4
    simp
  · intro v hv
    obtain ⟨l, h1, h2, rfl⟩ := entry_avgPool3 hv
    exact mean_bounds h1 fun y hy => h y (h2 y hy)

/-- **C141.** The same for the filters along the height. -/
theorem smooth_rows (lo hi : ℝ) (x : List ℝ) (h : ∀ v ∈ x, lo ≤ v ∧ v ≤ hi) :
    ((gauss1 x).length = x.length ∧ ∀ v ∈ gauss1 x, lo ≤ v ∧ v ≤ hi) ∧ ((avg1 x).length = x.length ∧ ∀ v ∈ avg1 x, lo ≤ v ∧ v ≤ hi) := by
  refine ⟨⟨by simp [gauss1, edgeDet], ?_⟩, by simp [avg1], ?_⟩
  · intro v hv
    obtain ⟨i, hi', rfl⟩ := List.mem_iff_getElem.mp hv
    have hi2 : i < x.length := by simpa [gauss1, edgeDet] using hi'
    simp only [gauss1, List.getElem_map]
    rw [edgeDet_get 2 4 2 hi2]
    have a := h _ (List.getElem_mem (show i - 1 < x.length by omega))
    have b := h _ (List.getElem_mem hi2)
    have c := h _ (List.getElem_mem (show min (i + 1) (x.length - 1) < x.length by omega))
    constructor <;> linarith [a.1, a.2, b.1, b.2, c.1, c.2]
  · intro v hv
    simp only [avg1, List.mem_mapIdx] at hv
    obtain ⟨i, hi', rfl⟩ := hv
    exact mean_bounds (window_ne_nil hi') fun y hy => h y (mem_window hy)

/-- The filters above are those of the steps of a pipeline. -/
theorem runs (x : Vol) (y : List ℝ) (a b c : ℝ) : step .gauss3d (.vol x) = .ok (some (.bare (gauss3 x))) ∧ step .avg3d (.vol x) = .ok (some (.vol (avgPool3 x))) ∧
    step .gauss1d (.row y) = .ok (some (.noBatch (gauss1 y))) ∧ step .avg1d (.row y) = .ok (some (.row (avg1 y))) ∧ step (.edge a b c) (.row y) = .ok (some (.row (edgeDet a b c y))) :=
  ⟨rfl, rfl, rfl, rfl, rfl⟩

/-- **C141.** What an edge filter makes of a homogeneous image: the value times the sum of the kernel. -/
theorem homogeneous (a b c v : ℝ) (n : Nat) : edgeDet a b c (List.replicate n v) = List.replicate n ((a + b + c) * v) := by
  apply List.ext_getElem (by simp [edgeDet])
  intro i h1 h2
  have hi : i < (List.replicate n v).length := by simpa using h2
  rw [edgeDet_get a b c hi]
  simp only [List.getElem_replicate]
  ring

/-- **C141.** An edge filter finds no edges in a homogeneous image exactly if its kernel adds up to zero, as those of `ridge_1d_2` and `prewit_1d` do. -/
theorem blank_iff (a b c v : ℝ) (hv : v ≠ 0) (n : Nat) (hn : 0 < n) : edgeDet a b c (List.replicate n v) = List.replicate n 0 ↔ a + b + c = 0 := by
  rw [homogeneous, List.replicate_inj]
  constructor
  · rintro ⟨-, h | h⟩
    · omega
    · rcases mul_eq_zero.mp h with h | h
      · exact h
      · exact absurd h hv
  · intro h
    exact ⟨rfl, Or.inr (by rw [h, zero_mul])⟩

theorem blank (v : ℝ) (n : Nat) : edgeDet (-1) 2 (-1) (List.replicate n v) = List.replicate n 0 ∧ edgeDet (-1) 0 1 (List.replicate n v) = List.replicate n 0 := by
  rw [homogeneous, homogeneous]
  norm_num

/-- **C141.** The difference of the largest and the smallest of three neighbouring layers is never negative, and zero exactly where all of them are equal. -/
theorem max_sub_min (x : List ℝ) (i : Nat) (hi : i < x.length) : ∃ d, (List.zipWith (· - ·) (max1 x) (min1 x))[i]? = some d ∧ 0 ≤ d ∧ (d = 0 ↔ ∀ a ∈ window x i, ∀ b ∈ window x i, a = b) := by
  refine ⟨maxOf (window x i) - minOf (window x i), ?_, ?_⟩
  · simp [max1, min1, List.getElem?_zipWith, List.getElem?_mapIdx, List.getElem?_eq_getElem hi]
  · have hne := window_ne_nil hi
    have hmax : ∀ {l : List ℝ}, l ≠ [] → (∀ a ∈ l, a ≤ maxOf l) ∧ ∀ a ∈ l, minOf l ≤ a := by
      intro l hl
      cases l with
      | nil => exact absurd rfl hl
      | cons b l =>
        have hM : ∀ (l : List ℝ) (b : ℝ), b ≤ l.foldl max b ∧ ∀ a ∈ l, a ≤ l.foldl max b := by
          intro l
          induction l with
          | nil => intro b; simp
          | cons c l ih =>
            intro b
            obtain ⟨h1, h2⟩ := ih (max b c)
            refine ⟨le_trans (le_max_left _ _) h1, ?_⟩
            intro a ha
            rcases List.mem_cons.mp ha with rfl | ha
            · exact le_trans (le_max_right _ _) h1
            · exact h2 a ha
        have hm : ∀ (l : List ℝ) (b : ℝ), l.foldl min b ≤ b ∧ ∀ a ∈ l, l.foldl min b ≤ a := by
          intro l
          induction l with
          | nil => intro b; simp
          | cons c l ih =>
            intro b
            obtain ⟨h1, h2⟩ := ih (min b c)
            refine ⟨le_trans h1 (min_le_left _ _), ?_⟩
            intro a ha
            rcases List.mem_cons.mp ha with rfl | ha
            · exact le_trans h1 (min_le_right _ _)
            · exact h2 a ha
        constructor
        · intro a ha
          rcases List.mem_cons.mp ha with rfl | ha
          · exact (hM l _).1
          · exact (hM l b).2 a ha
        · intro a ha
          rcases List.mem_cons.mp ha with rfl | ha
          · exact (hm l _).1
          · exact (hm l b).2 a ha
    obtain ⟨h1, h2⟩ := hmax hne
    have m1 : maxOf (window x i) ∈ window x i := maxOf_mem hne
    have m2 : minOf (window x i) ∈ window x i := minOf_mem hne
    refine ⟨by linarith [h1 _ m2], ?_, ?_⟩
    · intro h a ha b hb
      have := h1 a ha; have := h2 a ha; have := h1 b hb; have := h2 b hb
      linarith
    · intro h
      rw [h _ m1 _ m2, sub_self]

/-- **C141.** An image upside down gives the result upside down, if the kernel reads the same in both directions (all but `prewit_1d`, whose result changes its sign). -/
theorem mirror (a b c : ℝ) (x : List ℝ) : edgeDet a b c x.reverse = (edgeDet c b a x).reverse := by
  apply List.ext_getElem (by simp [edgeDet])
  intro i h1 h2
  have hi : i < x.reverse.length := by simpa [edgeDet] using h1
  have hi' : i < x.length := by simpa using hi
  have hr := edgeDet_get c b a (show x.length - 1 - i < x.length by omega)
  rw [edgeDet_get a b c hi]
  simp only [List.getElem_reverse, List.length_reverse, edgeDet_length]
  rw [hr]
  have e1 : x[x.length - 1 - (i - 1)]'(by omega) = x[min (x.length - 1 - i + 1) (x.length - 1)]'(by omega) := by congr 1; omega
  have e2 : x[x.length - 1 - min (i + 1) (x.length - 1)]'(by omega) = x[x.length - 1 - i - 1]'(by omega) := by congr 1; omega
  rw [e1, e2]
  ring

theorem mirror_prewit (x : List ℝ) : edgeDet (-1) 0 1 x.reverse = ((edgeDet (-1) 0 1 x).map (- ·)).reverse := by
  rw [mirror]
  congr 1
  apply List.ext_getElem (by simp [edgeDet])
  intro i h1 h2
  have hi : i < x.length := by simpa [edgeDet] using h1
  rw [List.getElem_map, edgeDet_get 1 0 (-1) hi, edgeDet_get (-1) 0 1 hi]
  ring

/-- **C141.** A volume upside down is smoothed to the result upside down. -/
theorem mirror_gauss3 (x : Vol) : gauss3 x.reverse = (gauss3 x).reverse := by
  apply List.ext_getElem (by simp [gauss3])
  intro i h1 h2
  have hi : i < x.length := by simpa [gauss3] using h1
  simp only [gauss3, List.getElem_mapIdx, List.getElem_reverse, List.length_mapIdx]
  congr 1
  funext j r
  congr 1
  funext k _
  rw [gauss_sum (nearAt x.reverse i j k), gauss_sum (nearAt x (x.length - 1 - i) j k)]
  have e : ∀ a b c, a ≤ 2 → nearAt x.reverse i j k (a, b, c) = nearAt x (x.length - 1 - i) j k (2 - a, b, c) := by
    intro a b c ha
    have : x.reverse.getD (near x.reverse.length i a) [] = x.getD (near x.length (x.length - 1 - i) (2 - a)) [] := by
      have n1 : near x.reverse.length i a < x.reverse.length := near_lt (by simpa using Nat.lt_of_le_of_lt (Nat.zero_le i) hi)
      have n2 : near x.length (x.length - 1 - i) (2 - a) < x.length := near_lt (by omega)
      rw [List.getD_eq_getElem?_getD, List.getElem?_eq_getElem n1, Option.getD_some, List.getD_eq_getElem?_getD, List.getElem?_eq_getElem n2, Option.getD_some, List.getElem_reverse]
      congr 1
      simp only [near, List.length_reverse]
      omega
    simp only [nearAt, this]
  simp only [e _ _ _ (show 0 ≤ 2 by omega), e _ _ _ (show 1 ≤ 2 by omega), e _ _ _ (show 2 ≤ 2 by omega)]
  norm_num
  ring

/-! ### What the code refutes -/

/-- **C141 is refuted by the code.** Four of the edge filters answer to a homogeneous image as if it were full of edges: their kernels do not add up to zero. `ridge_1d_0` is the one used by default. -/
theorem blank_violated (v : ℝ) (hv : v ≠ 0) (n : Nat) (hn : 0 < n) :
    edgeDet (-1) 0 (-1) (List.replicate n v) ≠ List.replicate n 0 ∧ edgeDet (-1) 4 (-1) (List.replicate n v) ≠ List.replicate n 0 ∧
    edgeDet (-1) 8 (-1) (List.replicate n v) ≠ List.replicate n 0 ∧ edgeDet 1 (-4) 1 (List.replicate n v) ≠ List.replicate n 0 := by
  simp only [ne_eq, blank_iff _ _ _ v hv n hn]
  norm_num

/-- tensors without the batch dimension -/
def Lost : Ten → Prop
  | .noBatch _ => True
  | .bare _ => True
  | _ => False

theorem lost_step (s : Step) (t u : Ten) (h : step s t = .ok (some u)) (ht : Lost t ∨ s = .gauss1d ∨ s = .gauss3d) : Lost u := by
  cases t <;> cases s <;> simp only [Lost, step, Except.ok.injEq, Option.some.injEq, reduceCtorEq, or_self, or_false, or_true] at h ht ⊢ <;>
    first
    | exact ht.elim
    | (subst h; trivial)
    | (split at h
       · simp only [Option.some.injEq] at h; subst h; trivial
       · simp at h)

theorem lost_steps : ∀ (ss : List Step) (t u : Ten), steps ss t = .ok (some u) → (Lost t ∨ .gauss1d ∈ ss ∨ .gauss3d ∈ ss) → Lost u
  | [], t, u, h, ht => by
    simp only [steps, Except.ok.injEq, Option.some.injEq] at h
    subst h
    simpa using ht
  | s :: ss, t, u, h, ht => by
    simp only [steps] at h
    cases hs : step s t with
    | error e => simp [hs] at h
    | ok o =>
      cases o with
      | none => simp [hs] at h
      | some t' =>
        simp only [hs] at h
        refine lost_steps ss t' u h ?_
        by_cases hg : Lost t ∨ s = .gauss1d ∨ s = .gauss3d
        · exact Or.inl (lost_step s t t' hs hg)
        · simp only [List.mem_cons] at ht
          simp only [not_or] at hg
          rcases ht with ht | (ht | ht) | (ht | ht)
          · exact absurd ht hg.1
          · exact absurd ht.symm hg.2.1
          · exact Or.inr (Or.inl ht)
          · exact absurd ht.symm hg.2.2
          · exact Or.inr (Or.inr ht)

/-- **C141 is refuted by the code.** No pipeline with one of the Gaussian filters in it, wherever it stands and whatever else there is, ever gives probabilities of classes. -/
theorem gauss_violated (ss : List Step) (h : .gauss1d ∈ ss ∨ .gauss3d ∈ ss) (x : Vol) (p : List ℝ) : x02probs ss x ≠ .ok (some (.classes p)) := by
  intro hp
  unfold x02probs at hp
  cases hs : steps ss (.vol x) with
  | error e => simp [hs] at hp
  | ok o =>
    cases o with
    | none => simp [hs] at hp
    | some u =>
      have := lost_steps ss _ u hs (Or.inr h)
      cases u with
      | vol y => exact this.elim
      | row y => exact this.elim
      | noBatch y => cases y <;> simp [hs] at hp
      | bare y => simp [hs] at hp

/-- With the Gaussian filter in place of the average of voxels, averaging layers leaves the single number one. -/
theorem gauss3_single (x : Vol) (hs : Solid x) (hx : x ≠ []) : x02probs [.gauss3d, .avgLayers] x = .ok (some (.single 1)) := by
  have hg : (gauss3 x).all (fun p => decide (p.flatten ≠ [])) = true := by
    rw [List.all_eq_true]
    intro p hp
    simp only [gauss3, List.mem_mapIdx] at hp
    obtain ⟨i, hi, rfl⟩ := hp
    have hm := List.getElem_mem hi
    obtain ⟨h1, h2⟩ := hs _ hm
    have hj : 0 < x[i].length := List.length_pos_iff.mpr h1
    have hk : 0 < x[i][0].length := List.length_pos_iff.mpr (h2 _ (List.getElem_mem hj))
    refine decide_eq_true fun h0 => ?_
    rw [List.flatten_eq_nil_iff] at h0
    have := h0 _ (List.getElem_mem (show 0 < (x[i].mapIdx fun j r => r.mapIdx fun k _ => (taps.map fun t => tap t * nearAt x i j k t).sum / (taps.map tap).sum).length by simpa using hj))
    simp only [List.getElem_mapIdx, List.mapIdx_eq_nil_iff] at this
    rw [this] at hk
    simp at hk
  have hne : gauss3 x ≠ [] := by simpa [gauss3] using hx
  simp only [x02probs, steps, step, hg, if_true]
  cases hc : gauss3 x with
  | nil => exact absurd hc hne
  | cons p l => simp [Real.exp_ne_zero]

/-! ### The hypotheses can be met -/

/-- two layers of two by two voxels -/
def small : Vol := [[[1, 2], [3, 4]], [[5, 6], [7, 8]]]

example : Solid small ∧ small ≠ [] ∧ (∀ v, Entry small v → 1 ≤ v ∧ v ≤ 8) ∧ x02probs [.gauss3d, .avgLayers] small = .ok (some (.single 1)) := by
  have hs : Solid small := by simp [Solid, small]
  refine ⟨hs, by simp [small], ?_, gauss3_single small hs (by simp [small])⟩
  rintro v ⟨p, hp, r, hr, hv⟩
  simp only [small, List.mem_cons, List.not_mem_nil, or_false] at hp
  rcases hp with rfl | rfl <;> simp only [List.mem_cons, List.not_mem_nil, or_false] at hr <;> rcases hr with rfl | rfl <;>
    simp only [List.mem_cons, List.not_mem_nil, or_false] at hv <;> rcases hv with rfl | rfl <;> norm_num

/-- an edge is found by a kernel which adds up to zero -/
example : edgeDet (-1) 2 (-1) [1, 1, 2, 2] = [0, -1, 1, 0] := by
  norm_num [edgeDet]

end C141

end

end Tomopt
