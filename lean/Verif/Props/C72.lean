import Verif.Lemmas.Classifier
import Mathlib.Analysis.Complex.ExponentialBounds

/- C72: the dense-block classifier. -/
namespace Tomopt

noncomputable section
open Real Classify Loss

namespace C72

theorem sigmoid_pos (x : ℝ) : 0 < sigmoid x := by unfold sigmoid; have := exp_pos (-x); positivity

theorem sigmoid_lt_one (x : ℝ) : sigmoid x < 1 := by
  unfold sigmoid
  have := exp_pos (-x)
  rw [div_lt_one (by linarith)]; linarith

theorem sigmoid_lt {x y : ℝ} (h : x < y) : sigmoid x < sigmoid y := by
  unfold sigmoid
  have h1 := exp_pos (-x)
  have h2 := exp_pos (-y)
  have h3 : exp (-y) < exp (-x) := exp_lt_exp.2 (by linarith)
  exact one_div_lt_one_div_of_lt (by linarith) (by linarith)

theorem sigmoid_le {x y : ℝ} (h : x ≤ y) : sigmoid x ≤ sigmoid y := by
  rcases h.eq_or_lt with rfl | h
  · exact le_rfl
  · exact (sigmoid_lt h).le

theorem pyRound_le {x : ℝ} {m : ℤ} (h : x ≤ m) : pyRound x ≤ m := by
  unfold pyRound
  have h1 : ⌊x⌋ ≤ m := by exact_mod_cast (Int.floor_le x).trans h
  have h2 := Int.floor_le x
  dsimp only
  by_cases he : ⌊x⌋ = m
  · have : x - ⌊x⌋ < 1 / 2 := by rw [he]; linarith
    rw [if_pos this]; exact h1
  · split_ifs <;> omega

theorem pyRound_nonneg {x : ℝ} (h : 0 ≤ x) : 0 ≤ pyRound x := by
  unfold pyRound
  have : 0 ≤ ⌊x⌋ := Int.floor_nonneg.2 h
  dsimp only
  split_ifs <;> omega

theorem pyRound_near (x : ℝ) : (pyRound x : ℝ) ≤ x + 1 / 2 := by
  unfold pyRound
  have h1 := Int.floor_le x
  dsimp only
  split_ifs with h2 h3 h4
  · linarith
  · push_cast; linarith
  · linarith
  · push_cast; linarith

/-- Chebyshev's inequality for an increasing weight -/
theorem chebyshev (f : ℝ → ℝ) (hf : ∀ x y, x ≤ y → f x ≤ f y) : ∀ xs : List ℝ,
    (xs.map f).sum * xs.sum ≤ xs.length * (xs.map fun x => f x * x).sum := by
  have key : ∀ (a : ℝ) (xs : List ℝ), f a * xs.sum + (xs.map f).sum * a ≤ xs.length * (f a * a) + (xs.map fun x => f x * x).sum := by
    intro a xs
    induction xs with
    | nil => simp
    | cons x xs ih =>
      simp only [List.sum_cons, List.map_cons, List.length_cons, Nat.cast_add, Nat.cast_one]
      have : 0 ≤ (f a - f x) * (a - x) := by
        rcases le_total a x with h | h
        · nlinarith [hf a x h]
        · nlinarith [hf x a h]
      nlinarith
  intro xs
  induction xs with
  | nil => simp
  | cons a xs ih =>
    simp only [List.sum_cons, List.map_cons, List.length_cons, Nat.cast_add, Nat.cast_one]
    nlinarith [key a xs]

theorem zipWith_bkg (f : ℝ → ℝ) (xs : List ℝ) : List.zipWith (· * ·) (xs.map f) xs = xs.map fun x => f x * x := by
  induction xs with
  | nil => rfl
  | cons a xs ih => simp [ih]

/-- the two weighted means -/
theorem means (k cut : ℝ) (hk : 0 ≤ k) (xs : List ℝ) (hne : xs ≠ []) (hpos : ∀ x ∈ xs, 0 < x) :
    0 < wmean ((bkgWeights k cut xs).map (1 - ·)) xs ∧ wmean ((bkgWeights k cut xs).map (1 - ·)) xs ≤ wmean (bkgWeights k cut xs) xs := by
  set f : ℝ → ℝ := fun p => sigmoid (k * (p - cut)) with hf
  have hmono : ∀ x y, x ≤ y → f x ≤ f y := fun x y h => sigmoid_le (by nlinarith)
  have e1 : bkgWeights k cut xs = xs.map f := rfl
  have e2 : (xs.map f).map (1 - ·) = xs.map fun x => 1 - f x := by rw [List.map_map]; rfl
  unfold wmean
  rw [e1, e2, zipWith_bkg, zipWith_bkg]
  have p1 : 0 < (xs.map f).sum := sum_pos' _ (by simpa using hne) (by
    intro v hv; obtain ⟨x, _, rfl⟩ := List.mem_map.1 hv; exact sigmoid_pos _)
  have p2 : 0 < (xs.map fun x => 1 - f x).sum := sum_pos' _ (by simpa using hne) (by
    intro v hv; obtain ⟨x, _, rfl⟩ := List.mem_map.1 hv; have := sigmoid_lt_one (k * (x - cut)); simp only [hf]; linarith)
  have p3 : 0 < (xs.map fun x => (1 - f x) * x).sum := sum_pos' _ (by simpa using hne) (by
    intro v hv; obtain ⟨x, hx, rfl⟩ := List.mem_map.1 hv
    exact mul_pos (by have := sigmoid_lt_one (k * (x - cut)); simp only [hf]; linarith) (hpos x hx))
  refine ⟨div_pos p3 p2, ?_⟩
  rw [div_le_div_iff₀ p2 p1]
  have s1 : (xs.map fun x => 1 - f x).sum = xs.length - (xs.map f).sum := by
    clear p1 p2 p3 e1 e2 hne hpos
    induction xs with
    | nil => simp
    | cons a xs ih => simp only [List.map_cons, List.sum_cons, ih, List.length_cons, Nat.cast_add, Nat.cast_one]; ring
  have s2 : (xs.map fun x => (1 - f x) * x).sum = xs.sum - (xs.map fun x => f x * x).sum := by
    clear p1 p2 p3 e1 e2 hne hpos s1
    induction xs with
    | nil => simp
    | cons a xs ih => simp only [List.map_cons, List.sum_cons, ih]; ring
  rw [s1, s2]
  nlinarith [chebyshev f hmono xs]

theorem contrast_range (k cut : ℝ) (hk : 0 ≤ k) (xs : List ℝ) (hne : xs ≠ []) (hpos : ∀ x ∈ xs, 0 < x) :
    0 ≤ contrast k cut xs ∧ contrast k cut xs < 2 := by
  obtain ⟨h1, h2⟩ := means k cut hk xs hne hpos
  unfold contrast
  have h3 : 0 < wmean (bkgWeights k cut xs) xs + wmean ((bkgWeights k cut xs).map (1 - ·)) xs := by linarith
  constructor
  · exact div_nonneg (by linarith) h3.le
  · rw [div_lt_iff₀ h3]; linarith

/-- the numbers the statistic is computed from -/
def seen (c : DenseBlock) (x : Vol) : List ℝ := flat (if c.useAvgpool then avgPool3 x else x)

theorem mem_flat {x : Vol} {v : ℝ} : v ∈ flat x ↔ Entry x v := by
  simp only [flat, List.mem_flatten, Entry]
  constructor
  · rintro ⟨r, ⟨p, hp, hr⟩, hv⟩; exact ⟨p, hp, r, hr, hv⟩
  · rintro ⟨p, hp, r, hr, hv⟩; exact ⟨r, ⟨p, hp, hr⟩, hv⟩

theorem avgPool3_flat_length (x : Vol) : (flat (avgPool3 x)).length = (flat x).length := by
  unfold flat avgPool3
  rw [List.length_flatten, List.length_flatten, List.map_flatten, List.map_flatten]
  congr 2
  apply List.ext_getElem
  · simp
  · intro i h1 h2
    simp only [List.getElem_map, List.getElem_mapIdx]
    apply List.ext_getElem
    · simp
    · intro j h3 h4; simp

theorem seen_length (c : DenseBlock) (x : Vol) : (seen c x).length = (flat x).length := by
  unfold seen
  split
  · exact avgPool3_flat_length x
  · rfl

theorem seen_all {P : ℝ → Prop} (hP : ∀ l : List ℝ, l ≠ [] → (∀ y ∈ l, P y) → P (mean l)) (c : DenseBlock) (x : Vol) (h : ∀ v ∈ flat x, P v) :
    ∀ v ∈ seen c x, P v := by
  intro v hv
  unfold seen at hv
  split at hv
  · obtain ⟨l, h1, h2, rfl⟩ := entry_avgPool3 (mem_flat.1 hv)
    exact hP l h1 fun y hy => h y (mem_flat.2 (h2 y hy))
  · exact h v hv

theorem kth_ok (xs : List ℝ) (hne : xs ≠ []) (fr : ℝ) (h0 : 0 ≤ fr) (h1 : fr ≤ 1) : ∃ v, kth xs (1 + pyRound (fr * (xs.length - 1))) = .ok v := by
  have hl : 0 < xs.length := List.length_pos_iff.2 hne
  have hl' : (1 : ℝ) ≤ xs.length := by exact_mod_cast hl
  have a : 0 ≤ pyRound (fr * (xs.length - 1)) := pyRound_nonneg (mul_nonneg h0 (by linarith))
  have b : pyRound (fr * (xs.length - 1)) ≤ (xs.length : ℤ) - 1 := by
    apply pyRound_le; push_cast; nlinarith
  unfold kth
  rw [if_neg (by omega)]
  have hi : (1 + pyRound (fr * (xs.length - 1)) - 1).toNat < (xs.mergeSort (fun a b => decide (a ≤ b))).length := by
    rw [List.length_mergeSort]; omega
  rw [List.getElem?_eq_getElem hi]
  exact ⟨_, rfl⟩

/-- The classifier returns a number for every positive X0 prediction if the block is not larger than three times the volume. -/
theorem succeeds (c : DenseBlock) (x : Vol) (hne : flat x ≠ []) (hb : c.nBlock ≤ 3 * c.nVox) : ∃ s, c.predict (some x) = .ok s := by
  have hne' : seen c x ≠ [] := by
    intro h
    have := seen_length c x
    rw [h] at this
    exact hne (List.eq_nil_of_length_eq_zero (by simpa using this.symm))
  have hb' : (c.nBlock : ℝ) ≤ 3 * c.nVox := by exact_mod_cast hb
  obtain ⟨v, hv⟩ := kth_ok (seen c x) hne' c.frac (by unfold DenseBlock.frac; positivity) (by
    unfold DenseBlock.frac
    exact div_le_one_of_le₀ hb' (by positivity))
  have : c.predict (some x) = c.stat (seen c x) := rfl
  exact ⟨sigmoid ((contrast c.cutCoef v (seen c x) + c.offset) * c.coef), by rw [this]; simp only [DenseBlock.stat, hv]⟩

/-- For positive X0 predictions the statistic is a sigmoid of a number between `offset` and `offset + 2`, times the coefficient. -/
theorem range (c : DenseBlock) (x : Vol) (hne : flat x ≠ []) (hpos : ∀ v ∈ flat x, 0 < v) (hk : 0 ≤ c.cutCoef) (hc : 0 < c.coef) (s : ℝ)
    (h : c.predict (some x) = .ok s) : sigmoid (c.offset * c.coef) ≤ s ∧ s < sigmoid ((c.offset + 2) * c.coef) := by
  have hne' : seen c x ≠ [] := by
    intro h
    have := seen_length c x
    rw [h] at this
    exact hne (List.eq_nil_of_length_eq_zero (by simpa using this.symm))
  have hpos' := seen_all (P := fun v => 0 < v) (fun l h1 h2 => mean_pos h1 h2) c x hpos
  have e : c.predict (some x) = c.stat (seen c x) := rfl
  rw [e, DenseBlock.stat] at h
  cases hcut : kth (seen c x) (1 + pyRound (c.frac * ((seen c x).length - 1))) with
  | error e => rw [hcut] at h; simp at h
  | ok cut =>
    rw [hcut] at h
    simp only [Except.ok.injEq] at h
    obtain ⟨h1, h2⟩ := contrast_range c.cutCoef cut hk (seen c x) hne' hpos'
    rw [← h]
    exact ⟨sigmoid_le (by nlinarith), sigmoid_lt (by nlinarith)⟩

/-- If all X0 predictions are the same the statistic has its smallest value. -/
theorem homogeneous (c : DenseBlock) (x : Vol) (hne : flat x ≠ []) (v : ℝ) (_hv : 0 < v) (hx : ∀ u ∈ flat x, u = v) (s : ℝ)
    (h : c.predict (some x) = .ok s) : s = sigmoid (c.offset * c.coef) := by
  have hx' := seen_all (P := fun u => u = v) (fun l h1 h2 => mean_const h1 h2) c x hx
  have hne' : seen c x ≠ [] := by
    intro h
    have := seen_length c x
    rw [h] at this
    exact hne (List.eq_nil_of_length_eq_zero (by simpa using this.symm))
  have e : c.predict (some x) = c.stat (seen c x) := rfl
  rw [e, DenseBlock.stat] at h
  cases hcut : kth (seen c x) (1 + pyRound (c.frac * ((seen c x).length - 1))) with
  | error e => rw [hcut] at h; simp at h
  | ok cut =>
    rw [hcut] at h
    simp only [Except.ok.injEq] at h
    have hm : ∀ ws : List ℝ, ws.length = (seen c x).length → 0 < ws.sum → wmean ws (seen c x) = v := by
      intro ws hl hs
      unfold wmean
      have : (List.zipWith (· * ·) ws (seen c x)).sum = v * ws.sum := by
        rw [List.zipWith_comm]
        have := wsum_const v id (seen c x) ws hl.symm hx'
        simp only [id] at this
        rw [← this]
        congr 2; funext a b; ring
      rw [this, mul_div_assoc, div_self hs.ne', mul_one]
    have hw : ∀ (g : ℝ → ℝ), (∀ x, 0 < g x) → 0 < ((seen c x).map g).sum := fun g hg => sum_pos' _ (by simpa using hne') (by
      intro u hu; obtain ⟨w, _, rfl⟩ := List.mem_map.1 hu; exact hg w)
    have hc0 : contrast c.cutCoef cut (seen c x) = 0 := by
      unfold contrast
      dsimp only
      rw [hm (bkgWeights c.cutCoef cut (seen c x)) (by simp [bkgWeights]) (hw _ fun x => sigmoid_pos _),
        hm ((bkgWeights c.cutCoef cut (seen c x)).map (1 - ·)) (by simp [bkgWeights]) (by
          unfold bkgWeights
          rw [List.map_map]
          exact hw _ fun x => by have := sigmoid_lt_one (c.cutCoef * (x - cut)); simp only [Function.comp_apply]; linarith)]
      simp
    rw [← h, hc0, zero_add]

/-- NOT "near 0" or "near 1": with the default rescaling every statistic is between 1/4 and 3/4, whatever the volume contains. -/
theorem near_violated (c : DenseBlock) (x : Vol) (hne : flat x ≠ []) (hpos : ∀ v ∈ flat x, 0 < v) (hk : 0 ≤ c.cutCoef) (hc : c.coef = 1)
    (ho : c.offset = -1) (s : ℝ) (h : c.predict (some x) = .ok s) : 1 / 4 < s ∧ s < 3 / 4 := by
  obtain ⟨h1, h2⟩ := range c x hne hpos hk (by rw [hc]; norm_num) s h
  rw [hc, ho] at h1 h2
  have he : exp 1 < 3 := by have := exp_one_lt_d9; linarith
  have hp := exp_pos (1 : ℝ)
  constructor
  · refine lt_of_lt_of_le ?_ h1
    unfold sigmoid
    rw [show -(-1 * 1 : ℝ) = 1 by norm_num, div_lt_div_iff₀ (by norm_num) (by linarith)]; linarith
  · refine lt_of_lt_of_le h2 ?_
    unfold sigmoid
    rw [show -((-1 + 2) * 1 : ℝ) = -1 by norm_num, exp_neg, div_le_div_iff₀ (by positivity) (by norm_num)]
    have : 1 / 3 ≤ (exp 1)⁻¹ := by rw [one_div]; exact inv_anti₀ hp he.le
    linarith

/-- the entries of a list of different numbers that are smaller than the one at position `k` of the sorted list -/
theorem below_kth (xs : List ℝ) (hd : xs.Nodup) (k : ℤ) (v : ℝ) (h : kth xs k = .ok v) : ((xs.filter fun x => decide (x < v)).length : ℤ) = k - 1 := by
  unfold kth at h
  by_cases hk : k < 1
  · rw [if_pos hk] at h; simp at h
  rw [if_neg hk] at h
  set ys := xs.mergeSort (fun a b => decide (a ≤ b)) with hys
  have hperm : ys.Perm xs := List.mergeSort_perm _ _
  cases hg : ys[(k - 1).toNat]? with
  | none => rw [hg] at h; simp at h
  | some w =>
    rw [hg] at h
    simp only [Except.ok.injEq] at h
    subst h
    obtain ⟨hi, he⟩ := List.getElem?_eq_some_iff.1 hg
    have hsort : ys.Pairwise (· ≤ ·) := by
      have := List.pairwise_mergeSort (le := fun a b : ℝ => decide (a ≤ b)) (fun a b c h1 h2 => by simp at *; linarith) (fun a b => by simp [le_total]) xs
      rw [← hys] at this
      exact this.imp fun h => by simpa using h
    have hnd : ys.Nodup := hperm.nodup_iff.2 hd
    have hlt : ys.Pairwise (· < ·) := (hsort.and hnd).imp fun h => lt_of_le_of_ne h.1 h.2
    rw [← (hperm.filter _).length_eq]
    have : ys.filter (fun x => decide (x < w)) = ys.take (k - 1).toNat := by
      conv_lhs => rw [← List.take_append_drop (k - 1).toNat ys]
      rw [List.filter_append]
      have e1 : (ys.take (k - 1).toNat).filter (fun x => decide (x < w)) = ys.take (k - 1).toNat := by
        rw [List.filter_eq_self]
        intro a ha
        obtain ⟨j, hj, rfl⟩ := List.mem_iff_getElem.1 ha
        rw [List.length_take] at hj
        rw [List.getElem_take, ← he]
        exact decide_eq_true (List.pairwise_iff_getElem.1 hlt j _ (by omega) hi (by omega))
      have e2 : (ys.drop (k - 1).toNat).filter (fun x => decide (x < w)) = [] := by
        rw [List.filter_eq_nil_iff]
        intro a ha
        obtain ⟨j, hj, rfl⟩ := List.mem_iff_getElem.1 ha
        rw [List.length_drop] at hj
        rw [List.getElem_drop, ← he]
        simp only [decide_eq_true_eq, not_lt]
        by_cases h0 : j = 0
        · subst h0; simp
        · exact (List.pairwise_iff_getElem.1 hlt _ _ hi (by omega) (by omega)).le
      rw [e1, e2, List.append_nil]
    rw [this, List.length_take]
    omega

/-- NOT the lowest `n_block_voxels`: of different predictions, those that count more as block than as background are at most a third of the block size, plus
one half. (The block size is divided by the number of coordinates of all voxels instead of the number of voxels.) -/
theorem block_size_violated (c : DenseBlock) (xs : List ℝ) (hn : xs.length = c.nVox) (h0 : 0 < c.nVox) (hd : xs.Nodup) (cut : ℝ)
    (h : kth xs (1 + pyRound (c.frac * (xs.length - 1))) = .ok cut) :
    ((xs.filter fun x => decide (x < cut)).length : ℝ) ≤ c.nBlock / 3 + 1 / 2 := by
  have h1 := below_kth xs hd _ cut h
  have h2 : ((xs.filter fun x => decide (x < cut)).length : ℤ) = pyRound (c.frac * (xs.length - 1)) := by rw [h1]; ring
  have h3 : ((xs.filter fun x => decide (x < cut)).length : ℝ) = (pyRound (c.frac * (xs.length - 1)) : ℝ) := by
    rw [← h2]; simp
  rw [h3]
  refine (pyRound_near _).trans ?_
  have hp : (0 : ℝ) < c.nVox := by exact_mod_cast h0
  have : c.frac * (xs.length - 1) ≤ c.nBlock / 3 := by
    unfold DenseBlock.frac
    rw [hn, div_mul_eq_mul_div, div_le_div_iff₀ (by positivity) (by norm_num)]
    have : (0 : ℝ) ≤ c.nBlock := by positivity
    nlinarith
  linarith

/-- the weight of a voxel as block is more than one half exactly below the cut -/
theorem block_weight (k cut p : ℝ) (hk : 0 < k) : 1 / 2 < 1 - sigmoid (k * (p - cut)) ↔ p < cut := by
  have h0 : sigmoid 0 = 1 / 2 := by unfold sigmoid; norm_num
  constructor
  · intro h
    by_contra hc
    have := sigmoid_le (show 0 ≤ k * (p - cut) from mul_nonneg hk.le (by linarith))
    rw [h0] at this; linarith
  · intro h
    have := sigmoid_lt (show k * (p - cut) < 0 from mul_neg_of_pos_of_neg hk (by linarith))
    rw [h0] at this; linarith

/-- An X0 inferrer without a prediction (too few muons) makes the classifier raise, instead of giving no prediction. -/
theorem none_error (c : DenseBlock) : c.predict none = .error .typeError ∨ c.predict none = .error .attributeError := by
  unfold DenseBlock.predict
  cases c.useAvgpool <;> simp

example : let c : DenseBlock := ⟨1, 8, true, 10000, -1, 1⟩
    let x : Vol := List.replicate 2 [[1, 2], [3, 4]]
    flat x ≠ [] ∧ (∀ v ∈ flat x, 0 < v) ∧ ∃ s, c.predict (some x) = .ok s := by
  refine ⟨by simp [flat], ?_, ?_⟩
  · intro v hv
    simp [flat] at hv
    rcases hv with rfl | rfl | rfl | rfl | rfl | rfl | rfl | rfl <;> norm_num
  · exact succeeds _ _ (by simp [flat]) (by norm_num)

end C72

end

end Tomopt
