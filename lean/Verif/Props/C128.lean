import Verif.Spec.ClassLoss
import Verif.Props.C52_54
import Mathlib.Algebra.BigOperators.Group.Finset.Basic
import Mathlib.Algebra.Order.BigOperators.Group.Finset

/- C128: losses for classification. -/
namespace Tomopt

noncomputable section

namespace C128

open Loss ClassLoss

theorem toLong_int (k : ℤ) : toLong (k : ℝ) = k := by
  unfold toLong
  split
  · exact Int.floor_intCast k
  · exact Int.ceil_intCast k

theorem picked_ok (pred : List (List ℝ)) (ts : List ℤ) (v : Nat) (h : ∀ t ∈ ts, 0 ≤ t ∧ t < pred.length) :
    picked pred v ts = .ok ((ts.zipIdx v).map fun tv => entry pred tv.1 tv.2) := by
  induction ts generalizing v with
  | nil => rfl
  | cons t ts ih =>
    have ht := h t List.mem_cons_self
    unfold picked
    rw [if_neg (by omega), if_neg (by omega), ih _ fun u hu => h u (List.mem_cons_of_mem _ hu)]
    rfl

theorem relabel_clear {tab : List (ℝ × Int)} {n : Nat} {cls : ℝ → ℤ} {xs : List ℝ} (h : Clear tab n cls xs) (hne : xs ≠ []) :
    relabel tab xs = .ok (xs.map fun x => (cls x : ℝ)) := by
  obtain ⟨x, hx⟩ := List.exists_mem_of_ne_nil xs hne
  have ht : tab ≠ [] := by
    rintro rfl
    have := h.table x hx
    simp [classOf] at this
  have hc : ∀ x ∈ xs, C54.cls tab x = cls x := by
    intro x hx
    have := h.table x hx
    rw [C54.classOf_ok tab ht, Except.ok.injEq] at this
    exact this
  rw [C54.loss_targets_partial tab ht xs fun x hx y hy hxy => by rw [hc x hx]; exact h.apart x hx y hy hxy]
  congr 1
  exact List.map_congr_left fun x hx => by rw [hc x hx]

theorem nll_ok {pred : List (List ℝ)} {ts : List ℤ} (hs : Shaped pred ts.length) (h : ∀ t ∈ ts, 0 ≤ t ∧ t < pred.length) (hne : ts ≠ []) :
    nll pred ts = .ok (.num (-((ts.zipIdx.map fun tv => entry pred tv.1 tv.2).sum / ts.length))) := by
  have h0 : pred.any (fun r => r.length ≠ ts.length) = false := by
    rw [List.any_eq_false]
    intro r hr
    simp [hs.2 r hr]
  have hl : ts.length ≠ 0 := by simpa using hne
  unfold nll
  rw [h0, picked_ok pred ts 0 h]
  simp [hl]

theorem nll_surprise {tab : List (ℝ × Int)} {pred : List (List ℝ)} {cls : ℝ → ℤ} {xs : List ℝ} (h : Clear tab pred.length cls xs) (hs : Shaped pred xs.length) (hne : xs ≠ []) :
    nll pred ((xs.map fun x => (cls x : ℝ)).map toLong) = .ok (.num (surprise pred cls xs)) := by
  rw [List.map_map, show (toLong ∘ fun x => (cls x : ℝ)) = cls from funext fun x => toLong_int _]
  rw [nll_ok (by simpa using hs) (by
    intro t ht
    obtain ⟨x, hx, rfl⟩ := List.mem_map.mp ht
    exact h.known x hx) (by simpa using hne)]
  simp only [surprise, List.length_map, List.zipIdx_map, List.map_map, prob, Real.log_exp, Function.comp_def]
  rfl

/-- **C128.** If predictions have the right shape and classes can be told, the inference error of `VoxelClassLoss` is the mean, over voxels in the order of the flattened
cube, of minus the logarithm of the probability that was given to the true class. -/
theorem voxels (tab : List (ℝ × Int)) (pred : List (List ℝ)) (cls : ℝ → ℤ) (cube : List (List (List ℝ))) (h : Clear tab pred.length cls cube.flatten.flatten)
    (hs : Shaped pred cube.flatten.flatten.length) (hne : cube.flatten.flatten ≠ []) :
    voxelClassLoss tab pred cube = .ok (.num (surprise pred cls cube.flatten.flatten)) := by
  unfold voxelClassLoss
  rw [relabel_clear h hne]
  exact nll_surprise h hs hne

/-- **C128.** The same for `VolumeClassLoss` with two classes or more. -/
theorem volumes (tab : List (ℝ × Int)) (pred : List (List ℝ)) (cls : ℝ → ℤ) (target : List ℝ) (h : Clear tab pred.length cls target) (hs : Shaped pred target.length)
    (hne : target ≠ []) (hc : 2 ≤ pred.length) : volumeClassLoss tab pred target = .ok (.num (surprise pred cls target)) := by
  unfold volumeClassLoss
  rw [relabel_clear h hne]
  simp only
  rw [if_pos (by omega)]
  exact nll_surprise h hs hne

/- What this number says. -/

theorem prob_le_one {pred : List (List ℝ)} {n : Nat} (h : LogProbs pred n) {c : ℤ} (h0 : 0 ≤ c) (h1 : c < pred.length) {v : Nat} (hv : v < n) : prob pred c v ≤ 1 := by
  rw [← h.2 v hv]
  refine List.single_le_sum ?_ _ ?_
  · intro x hx
    obtain ⟨c, _, rfl⟩ := List.mem_map.mp hx
    exact (Real.exp_pos _).le
  · exact List.mem_map.mpr ⟨c.toNat, List.mem_range.mpr (by omega), by rw [Int.toNat_of_nonneg h0]⟩

theorem zipIdx_lt {xs : List ℝ} {p : ℝ × Nat} (h : p ∈ xs.zipIdx) : p.1 ∈ xs ∧ p.2 < xs.length := by
  obtain ⟨x, v⟩ := p
  have := List.mk_mem_zipIdx_iff_getElem?.mp h
  exact ⟨List.mem_of_getElem? this, (List.getElem?_eq_some_iff.mp this).1⟩

theorem sum_zero_iff : ∀ (l : List ℝ), (∀ x ∈ l, x ≤ 0) → (l.sum ≤ 0 ∧ (l.sum = 0 ↔ ∀ x ∈ l, x = 0)) := by
  intro l
  induction l with
  | nil => simp
  | cons a l ih =>
    intro h
    obtain ⟨i1, i2⟩ := ih fun x hx => h x (List.mem_cons_of_mem _ hx)
    have ha := h a List.mem_cons_self
    rw [List.sum_cons]
    refine ⟨by linarith, ?_⟩
    constructor
    · intro h0 x hx
      rcases List.mem_cons.mp hx with rfl | hx
      · linarith
      · exact i2.mp (by linarith) x hx
    · intro h0
      rw [h0 a List.mem_cons_self, i2.mpr fun x hx => h0 x (List.mem_cons_of_mem _ hx), add_zero]

/-- **C128.** The error is never negative, and it is zero exactly if the true class was certain everywhere. -/
theorem perfect (pred : List (List ℝ)) (cls : ℝ → ℤ) (xs : List ℝ) (h : LogProbs pred xs.length) (hc : ∀ x ∈ xs, 0 ≤ cls x ∧ cls x < pred.length) (hne : xs ≠ []) :
    0 ≤ surprise pred cls xs ∧ (surprise pred cls xs = 0 ↔ ∀ xv ∈ xs.zipIdx, prob pred (cls xv.1) xv.2 = 1) := by
  have hn : (0 : ℝ) < xs.length := by exact_mod_cast List.length_pos_iff.mpr hne
  have hle : ∀ xv ∈ xs.zipIdx, prob pred (cls xv.1) xv.2 ≤ 1 := by
    intro xv hxv
    obtain ⟨h1, h2⟩ := zipIdx_lt hxv
    exact prob_le_one h (hc _ h1).1 (hc _ h1).2 h2
  obtain ⟨s1, s2⟩ := sum_zero_iff (xs.zipIdx.map fun xv => Real.log (prob pred (cls xv.1) xv.2)) (by
    intro y hy
    obtain ⟨xv, hxv, rfl⟩ := List.mem_map.mp hy
    exact Real.log_nonpos (Real.exp_pos _).le (hle xv hxv))
  unfold surprise
  refine ⟨by rw [← neg_div]; exact div_nonneg (by linarith) hn.le, ?_⟩
  rw [neg_eq_zero, div_eq_zero_iff, or_iff_left hn.ne', s2]
  simp only [List.mem_map, forall_exists_index, and_imp, forall_apply_eq_imp_iff₂]
  refine forall₂_congr fun xv _ => ?_
  constructor
  · intro h0
    rcases Real.log_eq_zero.mp h0 with h | h | h
    · exact absurd h (Real.exp_pos _).ne'
    · exact h
    · have := Real.exp_pos (entry pred (cls xv.1) xv.2)
      unfold prob at h; linarith
  · intro h0; rw [h0, Real.log_one]

theorem sum_le_of {β : Type} (l : List β) (f g : β → ℝ) (h : ∀ x ∈ l, f x ≤ g x) : (l.map f).sum ≤ (l.map g).sum ∧ ((∃ x ∈ l, f x < g x) → (l.map f).sum < (l.map g).sum) := by
  induction l with
  | nil => simp
  | cons a l ih =>
    obtain ⟨i1, i2⟩ := ih fun x hx => h x (List.mem_cons_of_mem _ hx)
    have ha := h a List.mem_cons_self
    simp only [List.map_cons, List.sum_cons]
    refine ⟨by linarith, ?_⟩
    rintro ⟨x, hx, hlt⟩
    rcases List.mem_cons.mp hx with rfl | hx
    · linarith
    · have := i2 ⟨x, hx, hlt⟩
      linarith

/-- **C128.** Only what is said about the true class counts: of two predictions, the one that finds the true class at least as probable in every voxel has no larger error, and
a smaller one if it is more probable in one voxel, whatever is said about other classes. -/
theorem better (p q : List (List ℝ)) (cls : ℝ → ℤ) (xs : List ℝ) (h : ∀ xv ∈ xs.zipIdx, prob p (cls xv.1) xv.2 ≤ prob q (cls xv.1) xv.2) :
    surprise q cls xs ≤ surprise p cls xs ∧ ((∃ xv ∈ xs.zipIdx, prob p (cls xv.1) xv.2 < prob q (cls xv.1) xv.2) → surprise q cls xs < surprise p cls xs) := by
  obtain ⟨s1, s2⟩ := sum_le_of xs.zipIdx (fun xv => Real.log (prob p (cls xv.1) xv.2)) (fun xv => Real.log (prob q (cls xv.1) xv.2))
    fun xv hxv => Real.log_le_log (Real.exp_pos _) (h xv hxv)
  unfold surprise
  constructor
  · exact neg_le_neg (div_le_div_of_nonneg_right s1 (Nat.cast_nonneg _))
  · rintro ⟨xv, hxv, hlt⟩
    have hn : (0 : ℝ) < xs.length := by
      have := (zipIdx_lt hxv).2
      exact_mod_cast (by omega : 0 < xs.length)
    exact neg_lt_neg (div_lt_div_of_pos_right (s2 ⟨xv, hxv, Real.log_lt_log (Real.exp_pos _) hlt⟩) hn)

/-- the fraction of voxels that have class `c` -/
def fraction (cls : ℝ → ℤ) (xs : List ℝ) (c : ℤ) : ℝ := ((xs.map cls).count c : ℝ) / xs.length

/-- if the same is said of every voxel -/
theorem constant (q : List ℝ) (cls : ℝ → ℤ) (xs : List ℝ) (hc : ∀ x ∈ xs, 0 ≤ cls x ∧ cls x < q.length ∧ 0 < q.getD (cls x).toNat 0) :
    surprise (q.map fun p => List.replicate xs.length (Real.log p)) cls xs = -((xs.map fun x => Real.log (q.getD (cls x).toNat 0)).sum / xs.length) := by
  have val : ∀ xv ∈ xs.zipIdx, prob (q.map fun p => List.replicate xs.length (Real.log p)) (cls xv.1) xv.2 = q.getD (cls xv.1).toNat 0 := by
    intro xv hxv
    obtain ⟨h1, h2⟩ := zipIdx_lt hxv
    obtain ⟨h3, h4, h5⟩ := hc _ h1
    have hlt : (cls xv.1).toNat < q.length := by omega
    have hpos : 0 < q[(cls xv.1).toNat] := by simpa [hlt] using h5
    simp [prob, entry, hlt, h2, Real.exp_log hpos]
  unfold surprise
  rw [List.map_congr_left fun xv hxv => by rw [val xv hxv], show (fun xv : ℝ × Nat => Real.log (q.getD (cls xv.1).toNat 0)) =
    (fun x => Real.log (q.getD (cls x).toNat 0)) ∘ Prod.fst from rfl, ← List.map_map, List.zipIdx_map_fst]

/-- **C128.** The error rewards honesty: of all predictions that say the same of every voxel, none has a smaller error than
the fractions of the classes (see `attained`). -/
theorem honest (q : List ℝ) (hq : ∀ x ∈ q, 0 < x) (hsum : q.sum = 1) (cls : ℝ → ℤ) (xs : List ℝ) (hc : ∀ x ∈ xs, 0 ≤ cls x ∧ cls x < q.length) (hne : xs ≠ []) :
    -((xs.map fun x => Real.log (fraction cls xs (cls x))).sum / xs.length) ≤ surprise (q.map fun p => List.replicate xs.length (Real.log p)) cls xs := by
  have hn : (0 : ℝ) < xs.length := by exact_mod_cast List.length_pos_iff.mpr hne
  have hs := constant q cls xs fun x hx => ⟨(hc x hx).1, (hc x hx).2, by
    have hlt : (cls x).toNat < q.length := by have := hc _ hx; omega
    simpa [hlt] using hq _ (List.getElem_mem hlt)⟩
  rw [hs]
  refine neg_le_neg (div_le_div_of_nonneg_right ?_ hn.le)
  have cnt : ∀ x ∈ xs, 0 < ((xs.map cls).count (cls x) : ℝ) := fun x hx => by
    exact_mod_cast List.count_pos_iff.mpr (List.mem_map_of_mem hx)
  have key : (xs.map fun x => Real.log (q.getD (cls x).toNat 0)).sum ≤
      (xs.map fun x => Real.log (fraction cls xs (cls x)) + (q.getD (cls x).toNat 0 / fraction cls xs (cls x) - 1)).sum := by
    refine (sum_le_of xs _ _ fun x hx => ?_).1
    have hlt : (cls x).toNat < q.length := by have := hc _ hx; omega
    have hpos : 0 < q.getD (cls x).toNat 0 := by simpa [hlt] using hq _ (List.getElem_mem hlt)
    have hf : 0 < fraction cls xs (cls x) := div_pos (cnt x hx) hn
    have := Real.log_le_sub_one_of_pos (div_pos hpos hf)
    rw [Real.log_div hpos.ne' hf.ne'] at this
    linarith
  have tot : (xs.map fun x => q.getD (cls x).toNat 0 / fraction cls xs (cls x)).sum ≤ xs.length := by
    have e1 : (xs.map fun x => q.getD (cls x).toNat 0 / fraction cls xs (cls x)).sum =
        ((xs.map cls).map fun c => q.getD c.toNat 0 / fraction cls xs c).sum := by rw [List.map_map]; rfl
    rw [e1, Finset.sum_list_map_count]
    have e2 : ∀ c ∈ (xs.map cls).toFinset, (xs.map cls).count c • (q.getD c.toNat 0 / fraction cls xs c) = xs.length * q.getD c.toNat 0 := by
      intro c hc'
      obtain ⟨x, hx, rfl⟩ := List.mem_map.mp (List.mem_toFinset.mp hc')
      have := (cnt x hx).ne'
      rw [nsmul_eq_mul, fraction]
      field_simp
    rw [Finset.sum_congr rfl e2, ← Finset.mul_sum]
    have e3 : ∑ c ∈ (xs.map cls).toFinset, q.getD c.toNat 0 ≤ 1 := by
      have inj : Set.InjOn (fun c : ℤ => c.toNat) ((xs.map cls).toFinset : Set ℤ) := by
        intro a ha b hb hab
        obtain ⟨x, hx, rfl⟩ := List.mem_map.mp (List.mem_toFinset.mp (by simpa using ha))
        obtain ⟨y, hy, rfl⟩ := List.mem_map.mp (List.mem_toFinset.mp (by simpa using hb))
        have := hc x hx
        have := hc y hy
        simp only at hab
        omega
      rw [← Finset.sum_image (f := fun k => q.getD k 0) inj]
      calc ∑ k ∈ (xs.map cls).toFinset.image (fun c : ℤ => c.toNat), q.getD k 0 ≤ ∑ k ∈ Finset.range q.length, q.getD k 0 := by
            refine Finset.sum_le_sum_of_subset_of_nonneg ?_ ?_
            · intro k hk
              obtain ⟨c, hc', rfl⟩ := Finset.mem_image.mp hk
              obtain ⟨x, hx, rfl⟩ := List.mem_map.mp (List.mem_toFinset.mp hc')
              have := hc x hx
              exact Finset.mem_range.mpr (by omega)
            · intro k hk _
              have hlt := Finset.mem_range.mp hk
              simpa [hlt] using (hq _ (List.getElem_mem hlt)).le
        _ = 1 := by
            rw [← hsum, Finset.sum_range]
            simp [Fin.sum_univ_getElem]
    nlinarith
  have split : (xs.map fun x => Real.log (fraction cls xs (cls x)) + (q.getD (cls x).toNat 0 / fraction cls xs (cls x) - 1)).sum =
      (xs.map fun x => Real.log (fraction cls xs (cls x))).sum + ((xs.map fun x => q.getD (cls x).toNat 0 / fraction cls xs (cls x)).sum - xs.length) := by
    clear hs hne hn hc key tot cnt
    generalize fraction cls xs = f
    induction xs with
    | nil => simp
    | cons a l ih =>
      simp only [List.map_cons, List.sum_cons, List.length_cons, ih]
      push_cast
      ring
  rw [split] at key
  linarith

/-- **C128.** Saying the fractions of the classes of every voxel attains that bound. -/
theorem attained (k : Nat) (cls : ℝ → ℤ) (xs : List ℝ) (hc : ∀ x ∈ xs, 0 ≤ cls x ∧ cls x < k) :
    surprise (((List.range k).map fun c : Nat => fraction cls xs c).map fun p => List.replicate xs.length (Real.log p)) cls xs =
      -((xs.map fun x => Real.log (fraction cls xs (cls x))).sum / xs.length) := by
  have e : ∀ x ∈ xs, ((List.range k).map fun c : Nat => fraction cls xs c).getD (cls x).toNat 0 = fraction cls xs (cls x) := by
    intro x hx
    have := hc x hx
    have hlt : (cls x).toNat < k := by omega
    simp [hlt, Int.toNat_of_nonneg this.1]
  rw [constant _ cls xs fun x hx => ⟨(hc x hx).1, by simpa using (hc x hx).2, by
    rw [e x hx]
    exact div_pos (by exact_mod_cast List.count_pos_iff.mpr (List.mem_map_of_mem hx)) (by exact_mod_cast List.length_pos_of_mem hx)⟩]
  rw [List.map_congr_left fun x hx => by rw [e x hx]]

/- Errors. -/

theorem picked_bad (pred : List (List ℝ)) (ts : List ℤ) (v : Nat) (t : ℤ) (ht : t ∈ ts) (h : t < 0 ∨ (pred.length : ℤ) ≤ t) (hi : t ≠ -100) : picked pred v ts = .error .indexError := by
  induction ts generalizing v with
  | nil => cases ht
  | cons u ts ih =>
    unfold picked
    by_cases hu : u = -100
    · rw [if_pos hu]
      rcases List.mem_cons.mp ht with rfl | ht
      · exact absurd hu hi
      · exact ih _ ht
    · rw [if_neg hu]
      by_cases hb : u < 0 ∨ (pred.length : ℤ) ≤ u
      · rw [if_pos hb]
      · rw [if_neg hb]
        rcases List.mem_cons.mp ht with rfl | ht
        · exact absurd h hb
        · rw [ih _ ht]

/-- **C128.** Predictions for another number of voxels, or true classes that were not predicted, are refused: there is no error value that leaves voxels out. -/
theorem refused (tab : List (ℝ × Int)) (pred : List (List ℝ)) (cube : List (List (List ℝ))) (ts : List ℝ) (hr : relabel tab cube.flatten.flatten = .ok ts) :
    ((∃ r ∈ pred, r.length ≠ ts.length) → voxelClassLoss tab pred cube = .error .valueError) ∧
      (Shaped pred ts.length → (∃ t ∈ ts, ∃ k : ℤ, t = k ∧ k ≠ -100 ∧ (k < 0 ∨ (pred.length : ℤ) ≤ k)) → voxelClassLoss tab pred cube = .error .indexError) := by
  unfold voxelClassLoss
  rw [hr]
  constructor
  · rintro ⟨r, hr, hl⟩
    have : pred.any (fun r => r.length ≠ (ts.map toLong).length) = true := List.any_eq_true.mpr ⟨r, hr, by simpa using hl⟩
    simp only [nll]
    rw [this]
    rfl
  · rintro hs ⟨t, ht, k, rfl, hi, hk⟩
    have h0 : pred.any (fun r => r.length ≠ (ts.map toLong).length) = false := by
      rw [List.any_eq_false]
      intro r hr
      simp [hs.2 r hr]
    simp only [nll]
    rw [h0, picked_bad pred _ 0 k (List.mem_map.mpr ⟨_, ht, toLong_int k⟩) hk hi]
    rfl

/- Two classes: binary cross-entropy of probabilities. -/

theorem clog_le {p : ℝ} (h : p ≤ 1) : -100 ≤ clog p ∧ clog p ≤ 0 := by
  unfold clog
  split
  · norm_num
  · rename_i h0
    push Not at h0
    exact ⟨le_max_right _ _, max_le (Real.log_nonpos h0.le h) (by norm_num)⟩

theorem clog_zero {p : ℝ} (h0 : 0 ≤ p) (h : p ≤ 1) : clog p = 0 ↔ p = 1 := by
  unfold clog
  split
  · constructor
    · intro h; norm_num at h
    · intro h; linarith
  · rename_i hp
    push Not at hp
    constructor
    · intro he
      rcases max_choice (Real.log p) (-100) with h' | h' <;> rw [h'] at he
      · rcases Real.log_eq_zero.mp he with h | h | h <;> linarith
      · norm_num at he
    · rintro rfl
      rw [Real.log_one]; norm_num

theorem clog_eq {p : ℝ} (h : Real.exp (-100) ≤ p) : clog p = Real.log p := by
  have hp : 0 < p := lt_of_lt_of_le (Real.exp_pos _) h
  unfold clog
  rw [if_neg (not_le.mpr hp), max_eq_left]
  exact (Real.le_log_iff_exp_le hp).mpr h

theorem clog_flat {p : ℝ} (h : p ≤ Real.exp (-100)) : clog p = -100 := by
  unfold clog
  split
  · rfl
  · rename_i hp
    push Not at hp
    exact max_eq_right ((Real.log_le_iff_le_exp hp).mpr h)

/-- the probability that was given to the truth, by the probability `p` of class 1 -/
def truth (p : ℝ) (one : Bool) : ℝ := if one then p else 1 - p

theorem bceOne_truth (p : ℝ) (one : Bool) : bceOne p (if one then 1 else 0) = -clog (truth p one) := by
  cases one <;> simp [bceOne, truth]

/-- **C128.** With one row of predictions, `VolumeClassLoss` takes them as probabilities of class 1: the error is the mean of minus the logarithm of the probability of the
truth, where logarithms below -100 count as -100. -/
theorem binary (tab : List (ℝ × Int)) (ps target : List ℝ) (ones : List Bool) (hr : relabel tab target = .ok (ones.map fun b => if b then 1 else 0)) (hl : ps.length = ones.length)
    (hp : ∀ p ∈ ps, 0 ≤ p ∧ p ≤ 1) (hne : ps ≠ []) :
    volumeClassLoss tab [ps] target = .ok (.num (-((List.zipWith (fun p b => clog (truth p b)) ps ones).sum / ps.length))) := by
  have h0 : ps.any (fun p => p < 0 ∨ 1 < p) = false := by
    rw [List.any_eq_false]
    intro p h
    have := hp p h
    simp [this]
  have hs : (List.zipWith bceOne ps (ones.map fun b => if b then 1 else 0)).sum = -(List.zipWith (fun p b => clog (truth p b)) ps ones).sum := by
    rw [List.zipWith_map_right]
    clear hr hl hp hne h0
    induction ps generalizing ones with
    | nil => simp
    | cons p ps ih =>
      cases ones with
      | nil => simp
      | cons b bs =>
        rw [List.zipWith_cons_cons, List.zipWith_cons_cons, List.sum_cons, List.sum_cons, ih, bceOne_truth]
        ring
  unfold volumeClassLoss
  rw [hr]
  simp only [List.length_singleton, gt_iff_lt, lt_self_iff_false, if_false, List.headD_cons]
  unfold bce
  rw [if_neg (by simpa using hl), h0]
  have : ps.length ≠ 0 := by simpa using hne
  simp only [Bool.false_eq_true, if_false, this, hs, neg_div]

/-- **C128.** Each of these terms is between 0 and 100, is 0 exactly for certainty of the truth, and falls as the truth is found more probable, but only above exp(-100). -/
theorem binary_term (p q : ℝ) (hp : 0 ≤ p ∧ p ≤ 1) (hq : 0 ≤ q ∧ q ≤ 1) (b : Bool) :
    (0 ≤ -clog (truth p b) ∧ -clog (truth p b) ≤ 100) ∧ (-clog (truth p b) = 0 ↔ truth p b = 1) ∧
      (truth p b ≤ truth q b → -clog (truth q b) ≤ -clog (truth p b)) ∧ (Real.exp (-100) ≤ truth p b → truth p b < truth q b → -clog (truth q b) < -clog (truth p b)) := by
  have t : ∀ p : ℝ, 0 ≤ p ∧ p ≤ 1 → 0 ≤ truth p b ∧ truth p b ≤ 1 := by
    intro p hp
    cases b <;> simp only [truth, Bool.false_eq_true, if_false, if_true]
    · constructor <;> linarith
    · exact hp
  obtain ⟨p0, p1⟩ := t p hp
  obtain ⟨q0, q1⟩ := t q hq
  generalize truth p b = x at *
  generalize truth q b = y at *
  have c := clog_le p1
  refine ⟨⟨by linarith, by linarith⟩, by rw [neg_eq_zero]; exact clog_zero p0 p1, fun h => ?_, fun he h => ?_⟩
  · rcases le_total x (Real.exp (-100)) with hx | hx
    · rw [clog_flat hx]
      have := (clog_le q1).1
      linarith
    · rw [clog_eq hx, clog_eq (hx.trans h)]
      have := Real.log_le_log (lt_of_lt_of_le (Real.exp_pos _) hx) h
      linarith
  · rw [clog_eq he, clog_eq (he.trans h.le)]
    have := Real.log_lt_log (lt_of_lt_of_le (Real.exp_pos _) he) h
    linarith

/-- **C128, negation.** Below exp(-100) it is flat: making the truth more probable does not change the error. -/
theorem flat_violated : ∃ p q : ℝ, 0 ≤ p ∧ p < q ∧ q ≤ 1 ∧ -clog (truth p true) = -clog (truth q true) := by
  refine ⟨0, Real.exp (-200), le_refl _, Real.exp_pos _, Real.exp_le_one_iff.mpr (by norm_num), ?_⟩
  simp only [truth, if_true]
  rw [clog_flat (Real.exp_pos _).le, clog_flat (Real.exp_le_exp.mpr (by norm_num))]

/-- **C128, negation.** The condition on class numbers is needed: material 0 has X0 = 1, material 1 has X0 = 1/2, and the volume has one voxel of each. The prediction that is
nearly sure of both true classes has a larger error than the one that is wrong about the first voxel. -/
theorem confused_violated : ∃ (right wrong : List (List ℝ)) (a b : ℝ), LogProbs right 2 ∧ LogProbs wrong 2 ∧
    prob right 1 0 = 9 / 10 ∧ prob right 0 1 = 9 / 10 ∧ prob wrong 1 0 = 1 / 10 ∧ prob wrong 0 1 = 9 / 10 ∧
    voxelClassLoss [(1 / 2, 1), (1, 0)] right [[[1 / 2, 1]]] = .ok (.num a) ∧ voxelClassLoss [(1 / 2, 1), (1, 0)] wrong [[[1 / 2, 1]]] = .ok (.num b) ∧ b < a := by
  have l : ∀ x y z w : ℝ, voxelClassLoss [(1 / 2, 1), (1, 0)] [[x, y], [z, w]] [[[1 / 2, 1]]] = .ok (.num (-((x + y) / 2))) := by
    intro x y z w
    unfold voxelClassLoss
    rw [show ([[[1 / 2, 1]]] : List (List (List ℝ))).flatten.flatten = [1 / 2, 1] from rfl, C54.interference_violated.1]
    have h := toLong_int 0
    rw [Int.cast_zero] at h
    simp [nll, picked, h, entry]
  have e9 : Real.exp (Real.log (9 / 10)) = 9 / 10 := Real.exp_log (by norm_num)
  have e1 : Real.exp (Real.log (1 / 10)) = 1 / 10 := Real.exp_log (by norm_num)
  have lt : Real.log (1 / 10) < Real.log (9 / 10) := Real.log_lt_log (by norm_num) (by norm_num)
  refine ⟨[[Real.log (1 / 10), Real.log (9 / 10)], [Real.log (9 / 10), Real.log (1 / 10)]],
    [[Real.log (9 / 10), Real.log (9 / 10)], [Real.log (1 / 10), Real.log (1 / 10)]], _, _, ⟨⟨by simp, by simp⟩, ?_⟩, ⟨⟨by simp, by simp⟩, ?_⟩, ?_, ?_, ?_, ?_, l _ _ _ _, l _ _ _ _, by linarith⟩
  · intro v hv
    rcases (by omega : v = 0 ∨ v = 1) with rfl | rfl <;> simp only [prob, entry, List.range_succ, List.range_zero, List.length_cons, List.length_nil, List.map_append, List.map_cons,
      List.map_nil, List.sum_append, List.sum_cons, List.sum_nil, List.nil_append, Int.toNat_natCast, List.getD_cons_zero, List.getD_cons_succ, zero_add] <;> rw [e1, e9] <;> norm_num
  · intro v hv
    rcases (by omega : v = 0 ∨ v = 1) with rfl | rfl <;> simp only [prob, entry, List.range_succ, List.range_zero, List.length_cons, List.length_nil, List.map_append, List.map_cons,
      List.map_nil, List.sum_append, List.sum_cons, List.sum_nil, List.nil_append, Int.toNat_natCast, List.getD_cons_zero, List.getD_cons_succ, zero_add] <;> rw [e1, e9] <;> norm_num
  all_goals simp only [prob, entry]
  · exact e9
  · exact e9
  · exact e1
  · exact e9

/-- **C128, negation.** A class with the number -100 is left out of the mean: voxels of it may be predicted in any way, and a volume that has only this class has no error at
all but NaN. -/
theorem ignored_violated : ∃ (tab : List (ℝ × Int)) (cube : List (List (List ℝ))), relabel tab cube.flatten.flatten = .ok [((-100 : ℤ) : ℝ)] ∧
    ∀ pred : List (List ℝ), Shaped pred 1 → voxelClassLoss tab pred cube = .ok .nan := by
  have hr : relabel [(1, -100)] ([[[1]]] : List (List (List ℝ))).flatten.flatten = .ok [((-100 : ℤ) : ℝ)] := by
    rw [show ([[[1]]] : List (List (List ℝ))).flatten.flatten = [1] from rfl]
    rw [C54.loss_targets_partial [(1, -100)] (by simp) [1] (by
      intro x hx y hy hxy
      simp only [List.mem_singleton] at hx hy
      subst hx; subst hy
      exact absurd hxy (lt_irrefl _))]
    have := C54.own_class [(1, -100)] 1 (-100) (by simp) (by simp)
    rw [C54.classOf_ok _ (by simp), Except.ok.injEq] at this
    simp [this]
  refine ⟨[(1, -100)], [[[1]]], hr, fun pred hs => ?_⟩
  unfold voxelClassLoss
  rw [hr]
  have h0 : pred.any (fun r => r.length ≠ 1) = false := by
    rw [List.any_eq_false]
    intro r hr
    simp [hs.2 r hr]
  simp only [nll, List.map_cons, List.map_nil, List.length_singleton, toLong_int]
  rw [h0]
  simp [picked]

/- The hypotheses can be met. -/

example : Clear [(2, 0), (3, 1)] 2 (fun x => if x = 2 then 0 else 1) [2, 3, 2] where
  table := by
    have c1 : classOf [(2, 0), (3, 1)] (2 : ℝ) = .ok 0 := C54.own_class _ _ _ (by simp) (by norm_num)
    have c2 : classOf [((2 : ℝ), (0 : Int)), (3, 1)] (3 : ℝ) = .ok 1 := C54.own_class _ _ _ (by simp) (by norm_num)
    intro x hx
    have : x = 2 ∨ x = 3 := by simpa [or_comm, or_assoc] using hx
    rcases this with rfl | rfl
    · simpa using c1
    · rw [c2]; norm_num
  known := by
    intro x _
    split <;> norm_num
  apart := by
    intro x _ y hy _
    have : y = 2 ∨ y = 3 := by simpa [or_comm, or_assoc] using hy
    rcases this with rfl | rfl <;> split <;> norm_num

example : Shaped [[0, 0, 0], [-1, -2, -3]] ([2, 3, 2] : List ℝ).length := ⟨by simp, by simp⟩

/-- both halves of `perfect` and `better` happen for the predictions of `confused_violated`, whose logarithms are those of probabilities -/
example : ∃ pred, LogProbs pred 2 ∧ prob pred 1 0 = 9 / 10 := by
  obtain ⟨r, _, _, _, h, _, h1, _⟩ := confused_violated
  exact ⟨r, h, h1⟩

/-- `honest` for one voxel of each of two classes, and predictions of 1/4 and 3/4 -/
example : (∀ x ∈ ([1 / 4, 3 / 4] : List ℝ), 0 < x) ∧ ([1 / 4, 3 / 4] : List ℝ).sum = 1 ∧ ∀ x ∈ ([2, 3] : List ℝ), 0 ≤ (if x = 2 then (0 : ℤ) else 1) ∧ (if x = 2 then (0 : ℤ) else 1) < 2 := by
  refine ⟨by norm_num, by norm_num, fun x _ => ?_⟩
  split <;> norm_num

/-- `refused`: two classes predicted where the third one is there -/
example : Shaped [[(0 : ℝ)], [-1]] 1 ∧ ∃ k : ℤ, ((2 : ℤ) : ℝ) = k ∧ k ≠ -100 ∧ (k < 0 ∨ ([[(0 : ℝ)], [-1]].length : ℤ) ≤ k) := ⟨⟨by simp, by simp⟩, 2, rfl, by norm_num, by simp⟩

/-- `binary`: a block of the material with number 1 -/
example : ∃ b : List Bool, relabel [(2, 0), (3, 1)] [3] = .ok (b.map fun b => if b then 1 else 0) ∧ b = [true] := by
  refine ⟨[true], ?_, rfl⟩
  rw [C54.loss_targets_partial [(2, 0), (3, 1)] (by simp) [3] (by
    intro x hx y hy hxy
    simp only [List.mem_singleton] at hx hy
    subst hx; subst hy
    exact absurd hxy (lt_irrefl _))]
  have := C54.own_class [(2, 0), (3, 1)] 3 1 (by simp) (by norm_num)
  rw [C54.classOf_ok _ (by simp), Except.ok.injEq] at this
  simp [this]

end C128

end

end Tomopt
