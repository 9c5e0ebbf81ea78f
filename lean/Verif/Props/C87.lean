import Verif.Model.PocaZ
import Verif.Lemmas.Weighted
import Verif.Props.C37_39
import Verif.Props.C72
import Mathlib.Tactic.NormNum

/- C87: the fill level from points of closest approach. -/
namespace Tomopt

open Real Infer PocaZ Classify

noncomputable section

namespace C87

theorem kth_mem (xs : List ℝ) (k : ℤ) (v : ℝ) (h : kth xs k = .ok v) : v ∈ xs := by
  unfold kth at h
  split at h
  · simp at h
  · split at h
    · next w hw =>
      simp only [Except.ok.injEq] at h
      subst h
      exact (List.mergeSort_perm _ _).mem_iff.mp (List.mem_of_getElem? hw)
    · simp at h

/-- if at least `k` entries are at most `c`, then so is the `k`-th smallest -/
theorem kth_le (xs : List ℝ) (k : ℤ) (v c : ℝ) (h : kth xs k = .ok v) (hc : k ≤ xs.countP fun x => decide (x ≤ c)) : v ≤ c := by
  unfold kth at h
  split at h
  · simp at h
  next hk =>
  split at h
  · next w hw =>
    simp only [Except.ok.injEq] at h
    subst h
    by_contra hv
    push Not at hv
    set ys := xs.mergeSort (fun a b => decide (a ≤ b)) with hys
    have hperm : ys.Perm xs := List.mergeSort_perm _ _
    have hs : ys.Pairwise (· ≤ ·) := by
      have := List.pairwise_mergeSort (le := fun a b : ℝ => decide (a ≤ b)) (by intro a b c; simp only [decide_eq_true_eq]; exact le_trans)
        (by intro a b; simp only [Bool.or_eq_true, decide_eq_true_eq]; exact le_total a b) xs
      exact this.imp (by intro a b hab; simpa using hab)
    rw [← hperm.countP_eq] at hc
    obtain ⟨hi, hw⟩ := List.getElem?_eq_some_iff.mp hw
    have h1 : ys.countP (fun x => decide (x ≤ c)) = (ys.take (k - 1).toNat).countP (fun x => decide (x ≤ c)) + (ys.drop (k - 1).toNat).countP (fun x => decide (x ≤ c)) := by
      rw [← List.countP_append, List.take_append_drop]
    have h2 : (ys.drop (k - 1).toNat).countP (fun x => decide (x ≤ c)) = 0 := by
      rw [List.countP_eq_zero]
      intro x hx
      obtain ⟨j, hj, rfl⟩ := List.mem_iff_getElem.mp hx
      rw [List.length_drop] at hj
      rw [List.getElem_drop, decide_eq_true_iff, not_le]
      rcases Nat.eq_zero_or_pos j with rfl | hjp
      · simp only [Nat.add_zero]; rw [hw]; exact hv
      · have := List.pairwise_iff_getElem.mp hs (k - 1).toNat ((k - 1).toNat + j) hi (by omega) (by omega)
        rw [hw] at this
        exact lt_of_lt_of_le hv this
    have h3 := List.countP_le_length (p := fun x => decide (x ≤ c)) (l := ys.take (k - 1).toNat)
    rw [List.length_take] at h3
    omega
  · simp at h

theorem clip_pos {lo hi x : ℝ} (h1 : 0 < hi) (h2 : 0 < x) : 0 < clip lo hi x := lt_min (lt_max_of_lt_left h2) h1

theorem clip_nonneg {hi x : ℝ} (h1 : 0 ≤ hi) : 0 ≤ clip 0 hi x := le_min (le_max_right _ _) h1

/-- the weights before the last clipping -/
def rawWgt (sig : List ℝ) (rows : List PocaZ.Row) (clipped : List ℝ) : List ℝ := List.zipWith (fun a u => a / u ^ 2) (List.zipWith (fun s r => s * r.eff) sig rows) clipped

/-- the shape of the result for positive uncertainties -/
theorem height_eq (sig : List ℝ) (rows : List PocaZ.Row) (hl : sig.length = rows.length) (hne : rows ≠ []) (hu : ∀ r ∈ rows, 0 < r.uz) :
    ∃ clipped : List ℝ, ∃ wHi, clipped.length = rows.length ∧ (∀ u ∈ clipped, 0 < u) ∧
      kth (rawWgt sig rows clipped) (1 + pyRound (0.84135 * (rows.length - 1))) = .ok wHi ∧
      height sig rows = .ok (weightedMean (rows.map (·.z)) ((rawWgt sig rows clipped).map (clip 0 wHi))) ∧
      ∀ rows' : List PocaZ.Row, rows'.map (·.uz) = rows.map (·.uz) → rows'.map (·.eff) = rows.map (·.eff) →
        height sig rows' = .ok (weightedMean (rows'.map (·.z)) ((rawWgt sig rows clipped).map (clip 0 wHi))) := by
  have hne' : rows.map (·.uz) ≠ [] := by simpa using hne
  obtain ⟨lo, hlo⟩ := C72.kth_ok (rows.map (·.uz)) hne' 0.15865 (by norm_num) (by norm_num)
  obtain ⟨hi, hhi⟩ := C72.kth_ok (rows.map (·.uz)) hne' 0.84135 (by norm_num) (by norm_num)
  have hpos : ∀ u ∈ rows.map (·.uz), 0 < u := by
    intro u h
    obtain ⟨r, hr, rfl⟩ := List.mem_map.mp h
    exact hu r hr
  have hhi0 := hpos _ (kth_mem _ _ _ hhi)
  have hcl : ∀ u ∈ (rows.map (·.uz)).map (clip lo hi), 0 < u := by
    intro u h
    obtain ⟨r, hr, rfl⟩ := List.mem_map.mp h
    exact clip_pos hhi0 (hpos r hr)
  have hlen : (rawWgt sig rows ((rows.map (·.uz)).map (clip lo hi))).length = rows.length := by simp [rawWgt, hl]
  have hne2 : rawWgt sig rows ((rows.map (·.uz)).map (clip lo hi)) ≠ [] := by
    intro h
    rw [h] at hlen
    exact hne (List.eq_nil_of_length_eq_zero hlen.symm)
  obtain ⟨wHi, hw⟩ := C72.kth_ok _ hne2 0.84135 (by norm_num) (by norm_num)
  have hw' := hw
  rw [hlen] at hw
  have hn0 : ¬ (0 : ℝ) ∈ (rows.map (·.uz)).map (clip lo hi) := fun h => lt_irrefl _ (hcl 0 h)
  have key : ∀ rows' : List PocaZ.Row, rows'.map (·.uz) = rows.map (·.uz) → rows'.map (·.eff) = rows.map (·.eff) →
      height sig rows' = .ok (weightedMean (rows'.map (·.z)) ((rawWgt sig rows ((rows.map (·.uz)).map (clip lo hi))).map (clip 0 wHi))) := by
    intro rows' e1 e2
    have e3 : List.zipWith (fun s (r : PocaZ.Row) => s * r.eff) sig rows' = List.zipWith (fun s (r : PocaZ.Row) => s * r.eff) sig rows := by
      have : ∀ rs : List PocaZ.Row, List.zipWith (fun s (r : PocaZ.Row) => s * r.eff) sig rs = List.zipWith (fun s e => s * e) sig (rs.map (·.eff)) := by
        intro rs; rw [List.zipWith_map_right]
      rw [this, this, e2]
    unfold height
    rw [e1, e3]
    simp only [hlo, hhi, bind, Except.bind]
    rw [if_neg hn0]
    unfold rawWgt at hw'
    rw [hw']
    rfl
  exact ⟨_, wHi, by simp, hcl, hw, key rows rfl rfl, key⟩

/-- **C87, what holds: range.** With at least one muon, all of positive efficiency and weight and uncertainty, the fill level is a number between any bounds of the heights
of the points of closest approach. Missing: muons without weight, see `majority_violated`; no muons, see `no_muons_violated`. -/
theorem range_partial (sig : List ℝ) (rows : List PocaZ.Row) (hl : sig.length = rows.length) (hne : rows ≠ []) (hu : ∀ r ∈ rows, 0 < r.uz)
    (he : ∀ r ∈ rows, 0 < r.eff) (hs : ∀ s ∈ sig, 0 < s) :
    ∃ h, height sig rows = .ok (some h) ∧ ∀ lo hi, (∀ r ∈ rows, lo ≤ r.z ∧ r.z ≤ hi) → lo ≤ h ∧ h ≤ hi := by
  obtain ⟨cl, wHi, hlen, hcl, hk, hh, -⟩ := height_eq sig rows hl hne hu
  have hw : ∀ w ∈ rawWgt sig rows cl, 0 < w := by
    intro w hw
    obtain ⟨a, ha, u, hu', rfl⟩ := zipWith_mem hw
    obtain ⟨s, hs', r, hr, rfl⟩ := zipWith_mem ha
    have h1 := hs s hs'
    have h2 := he r hr
    have h3 := hcl u hu'
    positivity
  have hHi := hw _ (kth_mem _ _ _ hk)
  have hlen' : ((rawWgt sig rows cl).map (clip 0 wHi)).length = rows.length := by simp [rawWgt, hl, hlen]
  have hsum : 0 < ((rawWgt sig rows cl).map (clip 0 wHi)).sum := by
    apply sum_pos'
    · intro h
      rw [h] at hlen'
      exact hne (List.eq_nil_of_length_eq_zero hlen'.symm)
    · intro x hx
      obtain ⟨w, hw', rfl⟩ := List.mem_map.mp hx
      exact clip_pos hHi (hw w hw')
  have hw0 : ∀ x ∈ (rawWgt sig rows cl).map (clip 0 wHi), 0 ≤ x := by
    intro x hx
    obtain ⟨w, -, rfl⟩ := List.mem_map.mp hx
    exact clip_nonneg hHi.le
  refine ⟨_, by rw [hh]; unfold weightedMean; rw [if_neg hsum.ne'], ?_⟩
  intro lo hi hb
  obtain ⟨m, hm, h1, h2⟩ := C37.mean_bounds (rows.map (·.z)) _ (by simpa using hlen'.symm) hw0 hsum lo hi (by
    intro x hx
    obtain ⟨r, hr, rfl⟩ := List.mem_map.mp hx
    exact hb r hr)
  unfold weightedMean at hm
  rw [if_neg hsum.ne', Option.some.injEq] at hm
  rw [hm]
  exact ⟨h1, h2⟩

theorem sum_shift (c : ℝ) (f g : PocaZ.Row → ℝ) (hfg : ∀ r, g r = f r + c) : ∀ (rows : List PocaZ.Row) (ws : List ℝ), rows.length = ws.length →
    (List.zipWith (· * ·) (rows.map g) ws).sum = (List.zipWith (· * ·) (rows.map f) ws).sum + c * ws.sum
  | [], [], _ => by simp
  | r :: rows, w :: ws, h => by
    simp only [List.map_cons, List.zipWith_cons_cons, List.sum_cons, sum_shift c f g hfg rows ws (by simpa using h), hfg]
    ring

/-- **C87: shift.** If all points of closest approach are moved up by `c` the fill level moves up by `c`. -/
theorem shift (sig : List ℝ) (rows : List PocaZ.Row) (hl : sig.length = rows.length) (hne : rows ≠ []) (hu : ∀ r ∈ rows, 0 < r.uz) (c : ℝ) :
    ∃ h : Option ℝ, height sig rows = .ok h ∧ height sig (rows.map fun r => { r with z := r.z + c }) = .ok (h.map (· + c)) := by
  obtain ⟨cl, wHi, hlen, -, -, hh, h2⟩ := height_eq sig rows hl hne hu
  refine ⟨_, hh, ?_⟩
  rw [h2 _ (by simp) (by simp)]
  congr 1
  unfold weightedMean
  by_cases h0 : ((rawWgt sig rows cl).map (clip 0 wHi)).sum = 0
  · rw [if_pos h0, if_pos h0]; rfl
  · rw [if_neg h0, if_neg h0, Option.map_some]
    congr 1
    rw [List.map_map, sum_shift c (·.z) _ (by intro r; rfl) rows _ (by simp [rawWgt, hl, hlen])]
    field_simp

/-- **C87 (violated): minority of detected muons.** If the number of muons without weight reaches the clipping percentile (84%), the weights of all the others are clipped
to zero too and the fill level is NaN, however well the others are measured. -/
theorem majority_violated (sig : List ℝ) (rows : List PocaZ.Row) (hl : sig.length = rows.length) (hne : rows ≠ []) (hu : ∀ r ∈ rows, 0 < r.uz)
    (he : ∀ r ∈ rows, 0 ≤ r.eff) (hs : ∀ s ∈ sig, 0 ≤ s)
    (hz : 1 + pyRound (0.84135 * (rows.length - 1)) ≤ rows.countP fun r => decide (r.eff = 0)) : height sig rows = .ok none := by
  obtain ⟨cl, wHi, hlen, hcl, hk, hh, -⟩ := height_eq sig rows hl hne hu
  have hcount : rows.countP (fun r => decide (r.eff = 0)) ≤ (rawWgt sig rows cl).countP fun x => decide (x ≤ 0) := by
    clear hk hh hz hne hu
    unfold rawWgt
    induction rows generalizing sig cl with
    | nil => simp
    | cons r rows ih =>
      cases sig with
      | nil => simp at hl
      | cons s sig =>
        cases cl with
        | nil => simp at hlen
        | cons u cl =>
          have := ih sig (by simpa using hl) (fun r hr => he r (List.mem_cons_of_mem _ hr)) (fun s h => hs s (List.mem_cons_of_mem _ h)) cl (by simpa using hlen)
            (fun u h => hcl u (List.mem_cons_of_mem _ h))
          simp only [List.zipWith_cons_cons, List.countP_cons]
          by_cases hr : r.eff = 0
          · simp only [hr, mul_zero, zero_div, le_refl, decide_true, if_true]; omega
          · simp only [hr, decide_false]
            simp only [Bool.false_eq_true, if_false]
            omega
  have hw := kth_le _ _ _ 0 hk (le_trans hz (by exact_mod_cast hcount))
  rw [hh]
  congr 1
  unfold weightedMean
  rw [if_pos]
  have : ∀ x ∈ (rawWgt sig rows cl).map (clip 0 wHi), x = 0 := by
    intro x hx
    obtain ⟨w, hw', rfl⟩ := List.mem_map.mp hx
    have hw0 : 0 ≤ wHi := by
      have hm := kth_mem _ _ _ hk
      obtain ⟨a, ha, u, -, e⟩ := zipWith_mem hm
      obtain ⟨s, hs', r, hr, rfl⟩ := zipWith_mem ha
      rw [e]
      have h1 := hs s hs'
      have h2 := he r hr
      positivity
    have : wHi = 0 := le_antisymm hw hw0
    rw [this]
    unfold clip
    exact le_antisymm (min_le_right _ _) (le_min (le_max_right _ _) le_rfl)
  exact List.sum_eq_zero this

/-- **C87 (violated): no usable muon.** If all muons are dropped because they are not finite, the prediction raises instead of being absent. -/
theorem no_muons_violated (cdf : ℝ → ℝ → ℝ → ℝ) (smooth size : ℝ) (lw : ℝ × ℝ) (n : Nat) (hn : 0 < n) :
    PocaZ.predict cdf smooth size lw n [] = .error .runtimeError ∧ PocaZ.predict cdf smooth size lw 0 [] = .ok none := by
  constructor
  · unfold PocaZ.predict
    rw [if_neg (by omega)]
    have h : kth ([] : List ℝ) (1 + pyRound (0.15865 * (([] : List ℝ).length - 1))) = .error .runtimeError := by
      unfold kth
      split
      · rfl
      · simp
    simp only [height, List.map_nil, h, bind, Except.bind]
  · rfl

/-! ### Weights of the pixels -/

/-- only a positive smoothness is accepted -/
theorem smooth_iff (s : ℝ) : (∃ t, setSmooth s = .ok t) ↔ 0 < s := by
  unfold setSmooth
  by_cases h : s > 0
  · simp [h]
  · rw [if_neg h]; simp; exact not_lt.mp h

/-- **C87: weights.** Every point inside the volume has a positive weight of at most one, and the centre has weight one. -/
theorem grid_weight (s : ℝ) (hs : 0 < s) (lw c : ℝ × ℝ) (h1 : 0 < lw.1) (h2 : 0 < lw.2) (c1 : 0 ≤ c.1 ∧ c.1 ≤ lw.1) (c2 : 0 ≤ c.2 ∧ c.2 ≤ lw.2) :
    0 < gridWgt s lw c ∧ gridWgt s lw c ≤ 1 ∧ gridWgt s lw (lw.1 / 2, lw.2 / 2) = 1 := by
  have half : (Loss.sigmoid 0 : ℝ) = 1 / 2 := by simp [Loss.sigmoid]; norm_num
  have one : ∀ l x : ℝ, 0 < l → 0 ≤ x → x ≤ l → 0 < (sigModel s l x - 0.5) * 2 ∧ (sigModel s l x - 0.5) * 2 ≤ 1 := by
    intro l x hl hx hx'
    have hd : |(x - l / 2) / (l / 2)| ≤ 1 := by
      rw [abs_div, abs_of_pos (by linarith : 0 < l / 2), div_le_one (by linarith), abs_le]
      constructor <;> linarith
    have hd0 := abs_nonneg ((x - l / 2) / (l / 2))
    unfold sigModel
    generalize |(x - l / 2) / (l / 2)| = d at hd hd0
    have hp := C72.sigmoid_pos (1 / s)
    have hlt := C72.sigmoid_lt_one (1 / s)
    have hnum : (1 / 2 : ℝ) ≤ Loss.sigmoid ((1 - d) / s) := by
      rw [← half]; exact C72.sigmoid_le (div_nonneg (by linarith) hs.le)
    have hnum2 : Loss.sigmoid ((1 - d) / s) ≤ Loss.sigmoid (1 / s) := C72.sigmoid_le (by gcongr; linarith)
    have hq : (1 / 2 : ℝ) < Loss.sigmoid ((1 - d) / s) / Loss.sigmoid (1 / s) := by
      rw [lt_div_iff₀ hp]; nlinarith
    have hq2 : Loss.sigmoid ((1 - d) / s) / Loss.sigmoid (1 / s) ≤ 1 := (div_le_one hp).mpr hnum2
    constructor
    · norm_num only; linarith
    · norm_num only; linarith
  have cen : ∀ l : ℝ, sigModel s l (l / 2) = 1 := by
    intro l
    unfold sigModel
    simp only [sub_self, zero_div, abs_zero, sub_zero]
    exact div_self (C72.sigmoid_pos _).ne'
  obtain ⟨a1, a2⟩ := one lw.1 c.1 h1 c1.1 c1.2
  obtain ⟨b1, b2⟩ := one lw.2 c.2 h2 c2.1 c2.2
  refine ⟨mul_pos a1 b1, mul_le_one₀ a2 b1.le b2, ?_⟩
  unfold gridWgt
  simp only [cen]
  norm_num

/-- the sum of the probabilities of all pixels -/
def pixelTotal (cdf : ℝ → ℝ → ℝ → ℝ) (size : ℝ) (lw : ℝ × ℝ) (r : PocaZ.Row) : ℝ := ((xyEdges lw size).map (pixelProb cdf size r)).sum

theorem nGrid_nat (n : Nat) (s : ℝ) (hs : 0 < s) (y : ℝ) : nGrid (n * s, y) s = n := by
  unfold nGrid
  simp only [mul_div_cancel_right₀ _ hs.ne']
  simp

theorem linspace_steps (n : Nat) (s : ℝ) : linspace 0 (n * s - s) n = (List.range n).map fun (i : Nat) => (0 : ℝ) + i * s := by
  unfold linspace
  apply List.map_congr_left
  intro i hi
  rw [List.mem_range] at hi
  by_cases h1 : n = 1
  · have : i = 0 := by omega
    subst this
    simp [h1]
  · rw [if_neg h1]
    have : (n : ℝ) - 1 ≠ 0 := by
      intro h
      have : (n : ℝ) = 1 := by linarith
      exact h1 (by exact_mod_cast this)
    field_simp
    ring

/-- **C87, square volumes.** If both sides are `n` pixels long, the pixels tile the volume: their probabilities add up to that of being over the volume. -/
theorem square_total_partial (cdf : ℝ → ℝ → ℝ → ℝ) (s : ℝ) (hs : 0 < s) (n : Nat) (r : PocaZ.Row) :
    pixelTotal cdf s (n * s, n * s) r = (cdf r.x r.ux (n * s) - cdf r.x r.ux 0) * (cdf r.y r.uy (n * s) - cdf r.y r.uy 0) := by
  unfold pixelTotal xyEdges mesh
  rw [nGrid_nat n s hs, linspace_steps n s]
  rw [List.map_flatMap, List.flatMap_def, List.sum_flatten, List.map_map, List.map_map]
  have : ((List.sum ∘ fun a => List.map (pixelProb cdf s r) (List.map (fun y => (a, y)) (List.map (fun (i : Nat) => (0 : ℝ) + i * s) (List.range n)))) ∘ fun (i : Nat) => (0 : ℝ) + i * s) =
      fun (i : Nat) => (cdf r.x r.ux (0 + i * s + s) - cdf r.x r.ux (0 + i * s)) * (cdf r.y r.uy (n * s) - cdf r.y r.uy 0) := by
    funext i
    simp only [Function.comp_apply, List.map_map]
    have ht := C71.telescope (cdf r.y r.uy) s 0 n
    rw [zero_add (n * s)] at ht
    rw [← ht, ← C71.sum_mul_left]
    rfl
  rw [this, C71.sum_mul_right]
  have ht := C71.telescope (cdf r.x r.ux) s 0 n
  rw [zero_add (n * s)] at ht
  rw [ht]

/-- **C87 (violated): oblong volumes.** The number of pixels in y is computed from the length in x. A volume of `1` by `2` pixels has one pixel, so that a muon known to be in the
other half has no weight; a volume of `2` by `1` pixels counts each pixel twice. -/
theorem oblong_violated (cdf : ℝ → ℝ → ℝ → ℝ) (s : ℝ) (hs : 0 < s) (r : PocaZ.Row) :
    pixelTotal cdf s (s, 2 * s) r = (cdf r.x r.ux s - cdf r.x r.ux 0) * (cdf r.y r.uy s - cdf r.y r.uy 0) ∧
    pixelTotal cdf s (2 * s, s) r = 2 * ((cdf r.x r.ux (2 * s) - cdf r.x r.ux 0) * (cdf r.y r.uy s - cdf r.y r.uy 0)) := by
  have n1 : nGrid (s, 2 * s) s = 1 := by simpa using nGrid_nat 1 s hs (2 * s)
  have n2 : nGrid (2 * s, s) s = 2 := by simpa using nGrid_nat 2 s hs s
  constructor
  · simp [pixelTotal, xyEdges, mesh, n1, linspace, pixelProb]
  · simp only [pixelTotal, xyEdges, mesh, n2, linspace, List.range_succ]
    norm_num [pixelProb]
    have e1 : 2 * s - s = s := by ring
    simp only [e1]
    ring

theorem linspace_bounds (a b : ℝ) (hab : a ≤ b) (n : Nat) : ∀ x ∈ linspace a b n, a ≤ x ∧ x ≤ b := by
  intro x hx
  obtain ⟨i, hi, rfl⟩ := List.mem_map.mp hx
  rw [List.mem_range] at hi
  by_cases h1 : n = 1
  · simp only [h1, if_true]; exact ⟨le_rfl, hab⟩
  · simp only [h1, if_false]
    have hn : (1 : ℝ) < n := by exact_mod_cast (by omega : 1 < n)
    have hi' : (i : ℝ) ≤ n - 1 := by
      have : (i : ℝ) + 1 ≤ n := by exact_mod_cast hi
      linarith
    have hd : 0 ≤ b - a := by linarith
    constructor
    · have : 0 ≤ (i : ℝ) * ((b - a) / (n - 1)) := mul_nonneg (Nat.cast_nonneg _) (div_nonneg hd (by linarith))
      linarith
    · have : (i : ℝ) * ((b - a) / (n - 1)) ≤ b - a := by
        rw [mul_div_assoc', div_le_iff₀ (by linarith), mul_comm]
        exact mul_le_mul_of_nonneg_left hi' hd
      linarith

/-- every muon has a positive weight if the distribution has no gaps -/
theorem sigWgt_pos (cdf : ℝ → ℝ → ℝ → ℝ) (hcdf : ∀ m u a b, 0 < u → a < b → cdf m u a < cdf m u b) (smooth size : ℝ) (lw : ℝ × ℝ)
    (hs : 0 < smooth) (hz : 0 < size) (h1 : size ≤ lw.1) (h2 : size ≤ lw.2) (r : PocaZ.Row) (hx : 0 < r.ux) (hy : 0 < r.uy) :
    0 < sigWgt cdf smooth size lw r := by
  have hn : 0 < nGrid lw size := by
    unfold nGrid
    have : (1 : ℤ) ≤ ⌊lw.1 / size⌋ := by
      rw [Int.le_floor, Int.cast_one, le_div_iff₀ hz]; linarith
    omega
  unfold sigWgt
  apply sum_pos'
  · intro h
    have len : ∀ as bs : List ℝ, (mesh as bs).length = as.length * bs.length := by
      intro as bs
      simp [mesh, List.length_flatMap]
    have hl := congrArg List.length h
    rw [List.length_zipWith, xyEdges, xyCentres, len, len] at hl
    simp only [linspace, List.length_map, List.length_range, min_self, List.length_nil] at hl
    have := Nat.mul_pos hn hn
    omega
  · intro x hx'
    obtain ⟨e, -, c, hc, rfl⟩ := zipWith_mem hx'
    apply mul_pos
    · exact mul_pos (sub_pos.mpr (hcdf _ _ _ _ hx (by linarith))) (sub_pos.mpr (hcdf _ _ _ _ hy (by linarith)))
    · unfold xyCentres mesh at hc
      obtain ⟨a, ha, hc⟩ := List.mem_flatMap.mp hc
      obtain ⟨b, hb, rfl⟩ := List.mem_map.mp hc
      have ba := linspace_bounds _ _ (by linarith) _ a ha
      have bb := linspace_bounds _ _ (by linarith) _ b hb
      exact (grid_weight smooth hs lw (a, b) (by linarith) (by linarith) ⟨by linarith [ba.1], by linarith [ba.2]⟩ ⟨by linarith [bb.1], by linarith [bb.2]⟩).1

/-- **C87: prediction.** For a volume of at least one pixel in each direction and a distribution without gaps: if at least one muon is usable, and all usable muons have positive
efficiencies and uncertainties, then the predicted fill level lies between any bounds of the heights of the points of closest approach. -/
theorem predict_range_partial (cdf : ℝ → ℝ → ℝ → ℝ) (hcdf : ∀ m u a b, 0 < u → a < b → cdf m u a < cdf m u b) (smooth size : ℝ) (lw : ℝ × ℝ)
    (hs : 0 < smooth) (hz : 0 < size) (h1 : size ≤ lw.1) (h2 : size ≤ lw.2) (nBatches : Nat) (hb : 0 < nBatches) (rows : List PocaZ.Row) (hne : rows ≠ [])
    (hu : ∀ r ∈ rows, 0 < r.ux ∧ 0 < r.uy ∧ 0 < r.uz ∧ 0 < r.eff) :
    ∃ h, PocaZ.predict cdf smooth size lw nBatches rows = .ok (some (some h)) ∧ ∀ lo hi, (∀ r ∈ rows, lo ≤ r.z ∧ r.z ≤ hi) → lo ≤ h ∧ h ≤ hi := by
  obtain ⟨h, e, hr⟩ := range_partial (rows.map (sigWgt cdf smooth size lw)) rows (by simp) hne (fun r hr => (hu r hr).2.2.1) (fun r hr => (hu r hr).2.2.2) (by
    intro w hw
    obtain ⟨r, hr, rfl⟩ := List.mem_map.mp hw
    exact sigWgt_pos cdf hcdf smooth size lw hs hz h1 h2 r (hu r hr).1 (hu r hr).2.1)
  refine ⟨h, ?_, hr⟩
  unfold PocaZ.predict
  rw [if_neg (by omega), e]

/-! ### Examples -/

/-- three muons -/
def demoRows : List PocaZ.Row := [⟨0.1, 0.2, 0.5, 0.1, 0.1, 0.2, 0.9⟩, ⟨0.3, 0.2, 0.7, 0.1, 0.1, 0.1, 0.8⟩, ⟨0.1, 0.4, 0.6, 0.1, 0.1, 0.3, 0.7⟩]

example : ∃ h, height [1, 0.5, 0.3] demoRows = .ok (some h) ∧ 0.5 ≤ h ∧ h ≤ 0.7 := by
  obtain ⟨h, h1, h2⟩ := range_partial [1, 0.5, 0.3] demoRows rfl (by simp [demoRows]) (by simp [demoRows]; norm_num) (by simp [demoRows]; norm_num) (by norm_num)
  exact ⟨h, h1, h2 0.5 0.7 (by simp [demoRows]; norm_num)⟩

example : ∃ h, PocaZ.predict (fun m u x => (x - m) / u) 0.1 0.1 (1, 1) 1 demoRows = .ok (some (some h)) ∧ 0.5 ≤ h ∧ h ≤ 0.7 := by
  obtain ⟨h, h1, h2⟩ := predict_range_partial (fun m u x => (x - m) / u) (by intro m u a b hu hab; exact div_lt_div_of_pos_right (by linarith) hu) 0.1 0.1 (1, 1)
    (by norm_num) (by norm_num) (by norm_num) (by norm_num) 1 (by omega) demoRows (by simp [demoRows]) (by simp [demoRows]; norm_num)
  exact ⟨h, h1, h2 0.5 0.7 (by simp [demoRows]; norm_num)⟩

/-- nine of ten muons missed the panels -/
example : height (List.replicate 10 1) (⟨0, 0, 0.5, 1, 1, 1, 1⟩ :: List.replicate 9 ⟨0, 0, 0.5, 1, 1, 1, 0⟩) = .ok none := by
  apply majority_violated
  · simp
  · simp
  · intro r hr; simp at hr; rcases hr with rfl | rfl <;> norm_num
  · intro r hr; simp at hr; rcases hr with rfl | rfl <;> norm_num
  · intro s hs; simp at hs; rw [hs]; norm_num
  · have : pyRound (0.84135 * (9 : ℝ)) = 8 := by
      have hf : ⌊(0.84135 * 9 : ℝ)⌋ = 7 := by rw [Int.floor_eq_iff]; norm_num
      unfold pyRound
      simp only [hf]
      norm_num
    simp only [List.length_cons, List.length_replicate]
    norm_num [List.replicate_succ, List.countP_cons]
    norm_num at this
    rw [this]
    norm_num

end C87

end

end Tomopt
