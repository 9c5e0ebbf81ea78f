import Verif.Model.Rounded
import Verif.Lemmas.Floats
import Verif.Props.C10_12

/- C112: the voxel found for a muon, with floating-point rounding. -/
namespace Tomopt

noncomputable section
open Floats

namespace C112

/-- **C112: inside.** Floating-point numbers of any precision and any rounding to nearest. If the footprint is not longer than its `n` voxels (exactly, as numbers), every position before its end gets the
index of a voxel, although the quotient is rounded. -/
theorem inside (p : Nat) (hp : 1 ≤ p) (fl : ℝ → ℝ) (hf : Nearest p fl) (L : PassiveLayer) (hs : 0 < L.size) (n : Nat) (hn : n < 2 ^ p) (x w : ℝ) (hx : IsFloat p x) (hw : IsFloat p w) (h0 : 0 ≤ x)
    (hxw : x < w) (hwn : w ≤ n * L.size) : 0 ≤ L.abs2idxFl fl x ∧ L.abs2idxFl fl x < n := by
  have hg := gap p hp x w hx hw hxw h0
  have h1 : 1 ≤ n := by
    rcases Nat.eq_zero_or_pos n with h | h
    · rw [h] at hwn; simp at hwn; linarith
    · exact h
  have hpp : (0 : ℝ) < 2 ^ p := by positivity
  unfold PassiveLayer.abs2idxFl
  refine ⟨Int.floor_nonneg.mpr (nearest_ge p fl hf _ 0 (isFloat_zero p) (by positivity)), Int.floor_lt.mpr ?_⟩
  have hlt : fl (x / L.size) < (n : ℝ) := by
    refine nearest_below p hp fl hf n h1 hn _ ?_
    -- the gap relative to `w` is one relative to `n * size`
    have h2 : (n : ℝ) * L.size ≤ 2 ^ p * (n * L.size - x) := by
      have h1p : (1 : ℝ) ≤ 2 ^ p := one_le_pow₀ (by norm_num)
      nlinarith
    have h3 : (n : ℝ) - x / L.size = (n * L.size - x) / L.size := by field_simp
    rw [h3, mul_div_assoc', le_div_iff₀ hs]
    exact h2
  exact_mod_cast hlt

/-- **C112: the voxel.** The index found is that of the voxel the position is in or, if the quotient was rounded up to a whole number, that of the next one; then the position misses the next voxel by less
than the precision of the numbers: `x` is at least `i * size * (1 - 2^-p)`. -/
theorem voxel (p : Nat) (hp : 1 ≤ p) (fl : ℝ → ℝ) (hf : Nearest p fl) (L : PassiveLayer) (hs : 0 < L.size) (x : ℝ) (h0 : 0 ≤ x) (hb : x < (2 ^ p - 1) * L.size) :
    x < (L.abs2idxFl fl x + 1) * L.size ∧ (L.abs2idxFl fl x * L.size ≤ x ∨
      fl (x / L.size) = L.abs2idxFl fl x ∧ L.abs2idxFl fl x = L.abs2idx x + 1 ∧ 2 ^ p * (L.abs2idxFl fl x * L.size - x) ≤ x) := by
  have hq0 : 0 ≤ x / L.size := by positivity
  have hqb : x / L.size < 2 ^ p - 1 := by rw [div_lt_iff₀ hs]; exact hb
  set q := x / L.size with hq
  have hxq : x = q * L.size := by rw [hq]; field_simp
  set i := ⌊q⌋ with hi
  have hi0 : 0 ≤ i := Int.floor_nonneg.mpr hq0
  have hib : i + 1 ≤ 2 ^ p := by
    have h1 := Int.floor_le q
    have h2 : ((i + 1 : ℤ) : ℝ) < 2 ^ p := by push_cast; linarith
    have h3 : (i + 1 : ℤ) < 2 ^ p := by exact_mod_cast h2
    omega
  have lo : (i : ℝ) ≤ fl q := nearest_ge p fl hf q i (isFloat_int p i (by rw [abs_of_nonneg hi0]; omega)) (Int.floor_le q)
  have hi1 : fl q ≤ ((i + 1 : ℤ) : ℝ) := nearest_le p fl hf q _ (isFloat_int p (i + 1) (by rw [abs_of_nonneg (by omega)]; exact hib)) (by push_cast; exact (Int.lt_floor_add_one q).le)
  unfold PassiveLayer.abs2idxFl PassiveLayer.abs2idx
  rw [← hq, ← hi]
  rcases eq_or_lt_of_le hi1 with h | h
  · rw [h, Int.floor_intCast]
    constructor
    · rw [hxq]
      push_cast
      exact mul_lt_mul_of_pos_right (by linarith [Int.lt_floor_add_one q]) hs
    · refine Or.inr ⟨rfl, rfl, ?_⟩
      rcases eq_or_lt_of_le hq0 with hz | hz
      · exfalso
        have : fl q ≤ 0 := nearest_le p fl hf q 0 (isFloat_zero p) (by rw [← hz])
        rw [h] at this
        have : (i + 1 : ℤ) ≤ 0 := by exact_mod_cast this
        omega
      · have he := nearest_error p hp fl hf q hz
        rw [h] at he
        have h1 : (2 : ℝ) ^ p * (((i + 1 : ℤ) : ℝ) - q) ≤ q := le_trans (mul_le_mul_of_nonneg_left (by rw [abs_sub_comm]; exact le_abs_self _) (by positivity)) he
        calc (2 : ℝ) ^ p * (((i + 1 : ℤ) : ℝ) * L.size - x) = 2 ^ p * (((i + 1 : ℤ) : ℝ) - q) * L.size := by rw [hxq]; ring
          _ ≤ q * L.size := mul_le_mul_of_nonneg_right h1 hs.le
          _ = x := hxq.symm
  · have hfl : ⌊fl q⌋ = i := by
      rw [Int.floor_eq_iff]
      push_cast at h
      exact ⟨lo, h⟩
    rw [hfl, hxq]
    refine ⟨mul_lt_mul_of_pos_right (Int.lt_floor_add_one q) hs, Or.inl (mul_le_mul_of_nonneg_right (Int.floor_le q) hs.le)⟩

/-- **C112: order.** Rounding does not change the order of voxels: a position further along never gets a smaller index. -/
theorem order (p : Nat) (fl : ℝ → ℝ) (hf : Nearest p fl) (L : PassiveLayer) (hs : 0 < L.size) (x y : ℝ) (h : x ≤ y) : L.abs2idxFl fl x ≤ L.abs2idxFl fl y := by
  unfold PassiveLayer.abs2idxFl
  refine Int.floor_le_floor ?_
  by_contra hlt
  push Not at hlt
  have hq : x / L.size ≤ y / L.size := by gcongr
  have a := (hf (x / L.size)).2 _ (hf (y / L.size)).1
  have b := (hf (y / L.size)).2 _ (hf (x / L.size)).1
  rcases le_total (x / L.size) (fl (y / L.size)) with c | c
  · have d : x / L.size ≤ fl (x / L.size) := le_trans c hlt.le
    rw [abs_sub_comm, abs_of_nonneg (by linarith), abs_sub_comm, abs_of_nonneg (by linarith)] at a
    linarith
  · rcases le_total (fl (x / L.size)) (y / L.size) with d | d
    · have e : fl (y / L.size) ≤ y / L.size := by linarith
      rw [abs_of_nonneg (by linarith), abs_of_nonneg (by linarith)] at b
      linarith
    · have e : fl (y / L.size) ≤ y / L.size := by linarith
      rw [abs_sub_comm, abs_of_nonneg (by linarith), abs_of_nonneg (by linarith)] at a
      rw [abs_of_nonneg (by linarith), abs_sub_comm, abs_of_nonneg (by linarith)] at b
      have : x / L.size = y / L.size ∨ x / L.size < y / L.size := eq_or_lt_of_le hq
      rcases this with g | g
      · rw [g] at hlt; exact lt_irrefl _ hlt
      · linarith

/-- **C112: look-up.** For a muon over the footprint of a layer whose footprint is not longer or wider than its voxels, an X0 value is found: that of voxel `(i, j)`, which the muon is in or misses by less than
the precision of the numbers. -/
theorem lookup (p : Nat) (hp : 1 ≤ p) (fl : ℝ → ℝ) (hf : Nearest p fl) (L : PassiveLayer) (hs : 0 < L.size) (nx ny : Nat) (hnx : nx < 2 ^ p) (hny : ny < 2 ^ p) (cube : List (List ℝ)) (hr : cube.length = nx)
    (hc : ∀ col ∈ cube, col.length = ny) (hwx : IsFloat p L.lw.1) (hwy : IsFloat p L.lw.2) (hx : L.lw.1 ≤ nx * L.size) (hy : L.lw.2 ≤ ny * L.size) (m : Muon) (fx : IsFloat p m.x) (fy : IsFloat p m.y)
    (hm : Over L m) :
    ∃ (i j : Nat) (col : List ℝ) (v : ℝ), cube[i]? = some col ∧ col[j]? = some v ∧ L.lookupX0Fl fl cube m = .ok v ∧
      m.x < (i + 1) * L.size ∧ i * L.size ≤ m.x * (1 + 1 / 2 ^ p) ∧ m.y < (j + 1) * L.size ∧ j * L.size ≤ m.y * (1 + 1 / 2 ^ p) := by
  obtain ⟨x0, x1, y0, y1⟩ := hm
  have one : ∀ (n : Nat) (x w : ℝ), n < 2 ^ p → IsFloat p x → IsFloat p w → 0 ≤ x → x < w → w ≤ n * L.size → ∃ i : Nat, i < n ∧ L.abs2idxFl fl x = i ∧ x < (i + 1) * L.size ∧ i * L.size ≤ x * (1 + 1 / 2 ^ p) := by
    intro n x w hn hx hw h0 h1 h2
    obtain ⟨a, b⟩ := inside p hp fl hf L hs n hn x w hx hw h0 h1 h2
    have hb : x < (2 ^ p - 1) * L.size := by
      have : (n : ℝ) ≤ 2 ^ p - 1 := by
        have : n + 1 ≤ 2 ^ p := hn
        have : ((n + 1 : ℕ) : ℝ) ≤ 2 ^ p := by exact_mod_cast this
        push_cast at this
        linarith
      nlinarith
    obtain ⟨c, d⟩ := voxel p hp fl hf L hs x h0 hb
    obtain ⟨i, hi⟩ := Int.eq_ofNat_of_zero_le a
    rw [hi] at b c d
    push_cast at b c d
    refine ⟨i, by exact_mod_cast b, hi, c, ?_⟩
    have hpp : (0 : ℝ) < 2 ^ p := by positivity
    rcases d with d | ⟨-, -, d⟩
    · have : 0 ≤ x * (1 / 2 ^ p) := by positivity
      linarith
    · have : i * L.size - x ≤ x / 2 ^ p := by
        rw [le_div_iff₀ hpp]
        linarith
      calc (i : ℝ) * L.size ≤ x + x / 2 ^ p := by linarith
        _ = x * (1 + 1 / 2 ^ p) := by ring
  obtain ⟨i, hi, ei, i1, i2⟩ := one nx m.x L.lw.1 hnx fx hwx x0 x1 hx
  obtain ⟨j, hj, ej, j1, j2⟩ := one ny m.y L.lw.2 hny fy hwy y0 y1 hy
  have gi : i < cube.length := by omega
  have gj : j < cube[i].length := by rw [hc _ (List.getElem_mem gi)]; exact hj
  have idx : ∀ {β : Type} (l : List β) (k : Nat) (h : k < l.length), getIdx l (k : ℤ) = .ok l[k] := by
    intro β l k h
    unfold getIdx
    have : ¬ (k : ℤ) < 0 := by omega
    simp only [this, if_false, Int.toNat_natCast, List.getElem?_eq_getElem h]
  refine ⟨i, j, cube[i], cube[i][j], List.getElem?_eq_getElem gi, List.getElem?_eq_getElem gj, ?_, i1, i2, j1, j2⟩
  unfold PassiveLayer.lookupX0Fl
  rw [ei, ej, idx cube i gi]
  exact idx cube[i] j gj

/-- **C112: where it fails.** Single precision, as in the code: a layer of 6.3 m by 6.3 m with voxels of 0.7 m, so nine by nine of them. There is a position over the footprint for which the look-up raises an
`IndexError`, whatever the rule for ties: the length of the footprint is rounded up, the size of the voxels is rounded down. -/
theorem last_violated (fl : ℝ → ℝ) (hf : Nearest 24 fl) (cube : List (List ℝ)) (hr : cube.length = 9) :
    let L : PassiveLayer := ⟨(fl 6.3, fl 6.3), 1, fl 0.7, 0.01, "pdg", some cube⟩
    ∃ m : Muon, IsFloat 24 m.x ∧ IsFloat 24 m.y ∧ Over L m ∧ L.lookupX0Fl fl cube m = .error .indexError := by
  intro L
  have hs : fl 0.7 = 11744051 * (2 : ℝ) ^ (-24 : ℤ) := by
    have := nearest_eq 24 (by norm_num) fl hf (-1) 11744051 0.7 (by norm_num) (by norm_num) (by norm_num)
    simpa using this
  have hw : fl 6.3 = 13212058 * (2 : ℝ) ^ (-21 : ℤ) := by
    have := nearest_eq 24 (by norm_num) fl hf 2 13212058 6.3 (by norm_num) (by norm_num) (by norm_num)
    simpa using this
  have hx : fl (13212057 * (2 : ℝ) ^ (-21 : ℤ) / fl 0.7) = 9 := by
    rw [hs]
    have := nearest_eq 24 (by norm_num) fl hf 3 9437184 (13212057 * (2 : ℝ) ^ (-21 : ℤ) / (11744051 * (2 : ℝ) ^ (-24 : ℤ))) (by norm_num) (by norm_num) (by norm_num)
    rw [this]
    norm_num
  refine ⟨{ x := 13212057 * (2 : ℝ) ^ (-21 : ℤ), y := 0, z := 1, p := 1, th := 0, ph := 0, id := 0 }, ⟨13212057, -21, by norm_num, by norm_num⟩, isFloat_zero _, ⟨by positivity, ?_, le_refl _, ?_⟩, ?_⟩
  · show _ < fl 6.3
    rw [hw]
    norm_num
  · show _ < fl 6.3
    rw [hw]
    norm_num
  · unfold PassiveLayer.lookupX0Fl PassiveLayer.abs2idxFl
    simp only [L, hx]
    have h9 : ⌊(9 : ℝ)⌋ = 9 := by norm_num
    rw [h9]
    unfold getIdx
    simp [hr]

/-- Single precision: a layer of 1 m by 1 m with voxels of 0.1 m, whose size is rounded up, is covered by `lookup` and `inside`; and there is a rounding to nearest for `last_violated`. -/
example : ∃ fl, Nearest 24 fl ∧ 0 < fl 0.1 ∧ IsFloat 24 1 ∧ (1 : ℝ) ≤ (10 : ℕ) * fl 0.1 ∧ (10 : Nat) < 2 ^ 24 ∧ IsFloat 24 (1 - 2 ^ (-24 : ℤ)) := by
  obtain ⟨fl, hf⟩ := rounding_exists 24 (by norm_num)
  have hs : fl 0.1 = 13421773 * (2 : ℝ) ^ (-27 : ℤ) := by
    have := nearest_eq 24 (by norm_num) fl hf (-4) 13421773 0.1 (by norm_num) (by norm_num) (by norm_num)
    simpa using this
  refine ⟨fl, hf, by rw [hs]; positivity, ?_, by rw [hs]; norm_num, by norm_num, ⟨16777215, -24, by norm_num, by norm_num⟩⟩
  have := isFloat_int 24 1 (by norm_num)
  simpa using this

end C112

end

end Tomopt
