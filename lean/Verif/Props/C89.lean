import Verif.Model.Lorry
import Mathlib.Tactic.Ring
import Mathlib.Tactic.FieldSimp
import Mathlib.Tactic.Linarith
import Mathlib.Tactic.NormNum
import Mathlib.Algebra.BigOperators.Fin
import Mathlib.Algebra.Order.Floor.Ring
import Mathlib.Logic.Equiv.Fin.Basic

/- C89: lorries with a block of uranium. -/
namespace Tomopt

open Passives Lorry

noncomputable section

namespace C89

/-- the X0 of voxel `(i, j)` of a loaded layer -/
def voxel (r : Except Err (List (List ℝ))) (i j : Nat) : Option ℝ :=
  match r with
  | .error _ => none
  | .ok X => X[i]?.bind fun row => row[j]?

/-- the top of the `k`-th layer from below -/
def top (c : Cfg) (k : Nat) : ℝ := c.geo.zr.1 + (k + 1) * c.geo.size

/-- uranium differs from everything else -/
def Distinct (c : Cfg) : Prop := c.x0Lorry ≠ c.x0U ∧ c.x0Air ≠ c.x0U ∧ (∀ x ∈ c.bkg, x ≠ c.x0U) ∧ c.bkg ≠ []

theorem base_ne {c : Cfg} (h : Distinct c) (draw : Nat → Nat → Nat) (z : ℝ) (i j : Nat) : base c draw z i j ≠ c.x0U := by
  unfold base
  split
  · exact h.1
  · split
    · have hl : 0 < c.bkg.length := List.length_pos_iff.mpr h.2.2.2
      have := Nat.mod_lt (draw i j) hl
      rw [List.getD_eq_getElem?_getD, List.getElem?_eq_getElem this]
      exact h.2.2.1 _ (List.getElem_mem _)
    · exact h.2.1

theorem voxel_layout (c : Cfg) (b : Option Block) (draw : ℝ → Nat → Nat → Nat) (z : ℝ) (lw : ℝ × ℝ) (size : ℝ) (i j : Nat) (hi : i < nx c) (hj : j < ny c) :
    ∃ v, voxel (layout c b draw z lw size) i j = some v ∧ (Distinct c → (v = c.x0U ↔ ∃ B, b = some B ∧ inBlock c B z i j)) := by
  classical
  unfold voxel layout
  simp only [List.getElem?_map, List.getElem?_range hi, Option.map_some, Option.bind_some, List.getElem?_range hj, Option.some.injEq]
  refine ⟨_, rfl, ?_⟩
  intro hd
  cases b with
  | none => simp [base_ne hd]
  | some B =>
    dsimp only
    split
    · next h => simp only [true_iff]; exact ⟨B, rfl, h⟩
    · next h =>
      constructor
      · intro h'; exact absurd h' (base_ne hd _ _ _ _)
      · rintro ⟨B', e, h'⟩
        simp only [Option.some.injEq] at e
        subst e
        exact absurd h' h

theorem slice_iff (n : Nat) (a b : ℤ) (ha : 0 ≤ a) (hab : a ≤ b) (hb : b ≤ n) (k : Nat) : inSlice n a b k = true ↔ a ≤ k ∧ (k : ℤ) < b := by
  unfold inSlice sliceIdx
  rw [if_neg (by omega), if_neg (by omega), Bool.and_eq_true, decide_eq_true_iff, decide_eq_true_iff, min_eq_left (by omega), min_eq_left hb]

theorem low_bounds (n b : Nat) (h : b ≤ n) (u : ℝ) (h0 : 0 ≤ u) (h1 : u < 1) : 0 ≤ trunc (uniform 0 ((n : ℝ) - b) u) ∧ trunc (uniform 0 ((n : ℝ) - b) u) + b ≤ n := by
  have hb : (b : ℝ) ≤ n := by exact_mod_cast h
  have hpos : 0 ≤ uniform 0 ((n : ℝ) - b) u := by
    unfold uniform
    have := mul_nonneg (sub_nonneg.mpr hb) h0
    simpa using this
  unfold trunc
  rw [if_pos hpos]
  refine ⟨Int.floor_nonneg.mpr hpos, ?_⟩
  have : (⌊uniform 0 ((n : ℝ) - b) u⌋ : ℝ) ≤ n - b := by
    refine le_trans (Int.floor_le _) ?_
    unfold uniform
    nlinarith
  have h2 : ((⌊uniform 0 ((n : ℝ) - b) u⌋ + b : ℤ) : ℝ) ≤ ((n : ℤ) : ℝ) := by push_cast; linarith
  exact_mod_cast h2

/-- the layers whose top lies in a half-open range of `b` layers -/
theorem layer_iff (z0 s l : ℝ) (hs : 0 < s) (b k : Nat) :
    (z0 + ((k : ℝ) + 1) * s > l ∧ z0 + ((k : ℝ) + 1) * s ≤ l + b * s) ↔ ⌊(l - z0) / s⌋ ≤ k ∧ (k : ℤ) < ⌊(l - z0) / s⌋ + b := by
  have e1 : z0 + ((k : ℝ) + 1) * s > l ↔ ⌊(l - z0) / s⌋ ≤ k := by
    rw [← Int.lt_add_one_iff, Int.floor_lt, div_lt_iff₀ hs]
    push_cast
    constructor <;> intro h <;> linarith
  have e2 : z0 + ((k : ℝ) + 1) * s ≤ l + b * s ↔ (k : ℤ) < ⌊(l - z0) / s⌋ + b := by
    have : (k : ℤ) < ⌊(l - z0) / s⌋ + b ↔ ((k : ℤ) + 1 - b) ≤ ⌊(l - z0) / s⌋ := by omega
    rw [this, Int.le_floor, le_div_iff₀ hs]
    push_cast
    constructor <;> intro h <;> linarith
  rw [e1, e2]

theorem mem_sizes {c : Cfg} {s : Nat × Nat × Nat} (h : s ∈ sizes c) : ((s.1 * s.2.1 * s.2.2 : Nat) : ℝ) * c.geo.size ^ 3 = c.uVolume := by
  unfold sizes at h
  rw [List.mem_filter] at h
  exact (of_decide_eq_true h.2).2.2

/-- blocks have the volume asked for, in any orientation -/
theorem dims_volume (c : Cfg) (h : init c = .ok ()) (d : Lorry.BlockDraw) : ((dims c d 0 * dims c d 1 * dims c d 2 : Nat) : ℝ) * c.geo.size ^ 3 = c.uVolume := by
  have hl : 0 < (sizes c).length := by
    unfold init at h
    split at h
    · simp at h
    · omega
  have hm := Nat.mod_lt d.idx hl
  have hs : (sizes c).getD (d.idx % (sizes c).length) (0, 0, 0) ∈ sizes c := by
    rw [List.getD_eq_getElem?_getD, List.getElem?_eq_getElem hm]
    exact List.getElem_mem _
  rw [← mem_sizes hs]
  congr 2
  have := Equiv.prod_comp d.perm (![((sizes c).getD (d.idx % (sizes c).length) (0, 0, 0)).1, ((sizes c).getD (d.idx % (sizes c).length) (0, 0, 0)).2.1,
    ((sizes c).getD (d.idx % (sizes c).length) (0, 0, 0)).2.2] : Fin 3 → Nat)
  rw [Fin.prod_univ_three, Fin.prod_univ_three] at this
  exact this

/-- **C89, what holds: block.** If the block fits into the cargo, the voxels of uranium are exactly those of a cuboid of the volume asked for, inside the volume, above its lowest
layer and not above the top of the cargo. Missing: sizes that do not fit are not excluded, see `unfit_violated`; the top of the cargo, see `fill_iff_violated`. -/
theorem block_partial (c : Cfg) (hs : 0 < c.geo.size) (hd : Distinct c) (hi : init c = .ok ()) (present : ℝ) (hp : present < c.uProb) (d : Lorry.BlockDraw)
    (hlow : ∀ i, 0 ≤ d.low i ∧ d.low i < 1) (fx : dims c d 0 ≤ nx c) (fy : dims c d 1 ≤ ny c) (fz : (bkgZ c).1 + dims c d 2 * c.geo.size ≤ (bkgZ c).2) :
    (generate c present d).2 = 1 ∧ ∃ b0 b1 b2 i0 j0 k0 : Nat, (b0 * b1 * b2 : ℝ) * c.geo.size ^ 3 = c.uVolume ∧ i0 + b0 ≤ nx c ∧ j0 + b1 ≤ ny c ∧ 1 ≤ k0 ∧
      c.geo.zr.1 + (k0 + b2) * c.geo.size ≤ (bkgZ c).2 ∧
      ∀ draw lw size, ∀ k i j, i < nx c → j < ny c → ∃ v, voxel (layout c (generate c present d).1 draw (top c k) lw size) i j = some v ∧
        (v = c.x0U ↔ (i0 ≤ i ∧ i < i0 + b0) ∧ (j0 ≤ j ∧ j < j0 + b1) ∧ (k0 ≤ k ∧ k < k0 + b2)) := by
  have hg : generate c present d = (some (coords c (dims c d) d.low), 1) := by unfold generate; rw [if_pos hp]
  rw [hg]
  refine ⟨rfl, dims c d 0, dims c d 1, dims c d 2, (coords c (dims c d) d.low).lowX.toNat, (coords c (dims c d) d.low).lowY.toNat,
    ⌊((coords c (dims c d) d.low).lowZ - c.geo.zr.1) / c.geo.size⌋.toNat, ?_, ?_, ?_, ?_, ?_, ?_⟩
  · have := dims_volume c hi d
    push_cast at this
    exact this
  all_goals
    obtain ⟨x0, x1⟩ := low_bounds _ _ fx _ (hlow 0).1 (hlow 0).2
    obtain ⟨y0, y1⟩ := low_bounds _ _ fy _ (hlow 1).1 (hlow 1).2
    have hz0 : (bkgZ c).1 ≤ (coords c (dims c d) d.low).lowZ := by
      have : 0 ≤ ((bkgZ c).2 - dims c d 2 * c.geo.size - (bkgZ c).1) * d.low 2 := mul_nonneg (by linarith) (hlow 2).1
      simp only [coords, uniform]
      linarith
    have hz1 : (coords c (dims c d) d.low).lowZ ≤ (bkgZ c).2 - dims c d 2 * c.geo.size := by
      have : ((bkgZ c).2 - dims c d 2 * c.geo.size - (bkgZ c).1) * d.low 2 ≤ ((bkgZ c).2 - dims c d 2 * c.geo.size - (bkgZ c).1) * 1 :=
        mul_le_mul_of_nonneg_left (hlow 2).2.le (by linarith)
      simp only [coords, uniform]
      linarith
    have hk : 1 ≤ ⌊((coords c (dims c d) d.low).lowZ - c.geo.zr.1) / c.geo.size⌋ := by
      rw [Int.le_floor, le_div_iff₀ hs]
      have : (bkgZ c).1 = c.geo.zr.1 + c.geo.size := rfl
      push_cast
      linarith
  · show (trunc (uniform 0 ((nx c : ℝ) - dims c d 0) (d.low 0))).toNat + dims c d 0 ≤ nx c
    omega
  · show (trunc (uniform 0 ((ny c : ℝ) - dims c d 1) (d.low 1))).toNat + dims c d 1 ≤ ny c
    omega
  · omega
  · have e : ((⌊((coords c (dims c d) d.low).lowZ - c.geo.zr.1) / c.geo.size⌋.toNat : ℕ) : ℝ) = (⌊((coords c (dims c d) d.low).lowZ - c.geo.zr.1) / c.geo.size⌋ : ℤ) := by
      have : ((⌊((coords c (dims c d) d.low).lowZ - c.geo.zr.1) / c.geo.size⌋.toNat : ℕ) : ℤ) = ⌊((coords c (dims c d) d.low).lowZ - c.geo.zr.1) / c.geo.size⌋ := by omega
      exact_mod_cast congrArg (Int.cast : ℤ → ℝ) this
    rw [e]
    have := Int.floor_le (((coords c (dims c d) d.low).lowZ - c.geo.zr.1) / c.geo.size)
    rw [le_div_iff₀ hs] at this
    linarith
  · intro draw lw size k i j hi' hj'
    obtain ⟨v, h1, h2⟩ := voxel_layout c (some (coords c (dims c d) d.low)) draw (top c k) lw size i j hi' hj'
    refine ⟨v, h1, ?_⟩
    rw [h2 hd]
    have e3 := layer_iff c.geo.zr.1 c.geo.size (coords c (dims c d) d.low).lowZ hs (dims c d 2) k
    have e1 := slice_iff (nx c) (coords c (dims c d) d.low).lowX (coords c (dims c d) d.low).highX x0 (by simp [coords]) x1 i
    have e2 := slice_iff (ny c) (coords c (dims c d) d.low).lowY (coords c (dims c d) d.low).highY y0 (by simp [coords]) y1 j
    have eh : (coords c (dims c d) d.low).highZ = (coords c (dims c d) d.low).lowZ + dims c d 2 * c.geo.size := rfl
    have ex : (coords c (dims c d) d.low).highX = (coords c (dims c d) d.low).lowX + dims c d 0 := rfl
    have ey : (coords c (dims c d) d.low).highY = (coords c (dims c d) d.low).lowY + dims c d 1 := rfl
    simp only [Option.some.injEq, exists_eq_left', inBlock]
    rw [e1, e2, eh]
    unfold top
    rw [e3, ex, ey]
    have x0' : 0 ≤ (coords c (dims c d) d.low).lowX := x0
    have y0' : 0 ≤ (coords c (dims c d) d.low).lowY := y0
    omega

/-- **C89: no block.** Otherwise the target is zero and there is no uranium. -/
theorem absent (c : Cfg) (hd : Distinct c) (present : ℝ) (hp : c.uProb ≤ present) (d : Lorry.BlockDraw) (draw : ℝ → Nat → Nat → Nat) (z : ℝ) (lw : ℝ × ℝ) (size : ℝ) (i j : Nat)
    (hi : i < nx c) (hj : j < ny c) :
    (generate c present d).2 = 0 ∧ ∃ v, voxel (layout c (generate c present d).1 draw z lw size) i j = some v ∧ v ≠ c.x0U := by
  have hg : generate c present d = (none, 0) := by unfold generate; rw [if_neg (not_lt.mpr hp)]
  rw [hg]
  obtain ⟨v, h1, h2⟩ := voxel_layout c none draw z lw size i j hi hj
  refine ⟨rfl, v, h1, ?_⟩
  rw [Ne, h2 hd]
  simp

/-- **C89: floor.** The lowest layer is the lorry's, whatever else is drawn, if there is no block or the block fits. -/
theorem floor (c : Cfg) (block : Option Block) (hb : ∀ B, block = some B → (bkgZ c).1 ≤ B.lowZ) (draw : ℝ → Nat → Nat → Nat) (lw : ℝ × ℝ) (size : ℝ) (i j : Nat)
    (hi : i < nx c) (hj : j < ny c) : voxel (layout c block draw (top c 0) lw size) i j = some c.x0Lorry := by
  classical
  have ht : top c 0 = (bkgZ c).1 := by simp [top, bkgZ]
  unfold voxel layout
  simp only [List.getElem?_map, List.getElem?_range hi, Option.map_some, Option.bind_some, List.getElem?_range hj, Option.some.injEq]
  have hbase : base c (draw (top c 0)) (top c 0) i j = c.x0Lorry := by unfold base; rw [if_pos ht.le]
  cases block with
  | none => exact hbase
  | some B =>
    dsimp only
    rw [if_neg, hbase]
    rintro ⟨⟨h, -⟩, -⟩
    rw [ht] at h
    exact absurd (hb B rfl) (not_le.mpr h)

/-- **C89 (violated): fill level.** The cargo ends at the stated fraction of the height of the volume only if the volume stands on the ground or is full. -/
theorem fill_iff_violated (c : Cfg) : (bkgZ c).2 = c.geo.zr.1 + c.fillFrac * (c.geo.zr.2 - c.geo.zr.1) ↔ c.geo.zr.1 = 0 ∨ c.fillFrac = 1 := by
  have e : (bkgZ c).2 = c.fillFrac * c.geo.zr.2 := rfl
  rw [e]
  constructor
  · intro h
    have : c.geo.zr.1 * (1 - c.fillFrac) = 0 := by linarith
    rcases mul_eq_zero.mp this with h | h
    · exact Or.inl h
    · right; linarith
  · rintro (h | h)
    · rw [h]; ring
    · rw [h]; ring

/-- a volume of two by four voxels, ten layers high, for a block of four voxels -/
def narrow : Cfg := ⟨⟨(2, 4), (0, 10), 1⟩, 4, 0.5, 0.8, 1, [2], 3, 4⟩

theorem narrow_sizes : (1, 1, 4) ∈ sizes narrow := by
  have hx : nx narrow = 2 := by simp [nx, narrow]
  have hy : ny narrow = 4 := by simp [ny, narrow]
  have hm : 4 ≤ maxN narrow := by
    unfold maxN
    rw [hx, hy]
    simp
  unfold sizes
  rw [List.mem_filter]
  refine ⟨?_, decide_eq_true ⟨le_rfl, by norm_num, by norm_num [narrow]⟩⟩
  have h1 : ∀ n, 1 ≤ n → n ≤ 4 → n ∈ (List.range (maxN narrow).toNat).map (· + 1) := by
    intro n h1 h4
    rw [List.mem_map]
    exact ⟨n - 1, by rw [List.mem_range]; omega, by omega⟩
  rw [List.mem_flatMap]
  refine ⟨1, h1 1 (by omega) (by omega), ?_⟩
  rw [List.mem_flatMap]
  exact ⟨1, h1 1 (by omega) (by omega), List.mem_map.mpr ⟨4, h1 4 (by omega) (by omega), rfl⟩⟩

/-- **C89 (violated): sizes that do not fit.** A size of 1, 1 and 4 voxels is accepted for a volume two voxels long; laid along that axis, with a draw of one half, only
one of its four columns is left. -/
theorem unfit_violated : ∃ s ∈ sizes narrow, ∃ p : Equiv.Perm (Fin 3), (fun i => ![s.1, s.2.1, s.2.2] (p i)) 0 > nx narrow ∧
    ∀ low : Fin 3 → ℝ, low 0 = 0.5 → low 1 = 0 → ∀ z i j, inBlock narrow (coords narrow (fun i => ![s.1, s.2.1, s.2.2] (p i)) low) z i j → i < 2 → i = 1 ∧ j = 0 := by
  refine ⟨(1, 1, 4), narrow_sizes, Equiv.swap 0 2, ?_, ?_⟩
  · have hx : nx narrow = 2 := by simp [nx, narrow]
    rw [hx]
    simp
  · intro low h0 h1 z i j h hi
    have hx : nx narrow = 2 := by simp [nx, narrow]
    have hy : ny narrow = 4 := by simp [ny, narrow]
    obtain ⟨-, h2, h3⟩ := h
    have e0 : (![1, 1, 4] : Fin 3 → Nat) (Equiv.swap (0 : Fin 3) 2 0) = 4 := by decide
    have e1 : (![1, 1, 4] : Fin 3 → Nat) (Equiv.swap (0 : Fin 3) 2 1) = 1 := by decide
    have t0 : trunc (uniform 0 (((2 : ℕ) : ℝ) - ((4 : ℕ) : ℝ)) 0.5) = -1 := by
      unfold trunc uniform
      norm_num
    have t1 : trunc (uniform 0 (((4 : ℕ) : ℝ) - ((1 : ℕ) : ℝ)) 0) = 0 := by
      unfold trunc uniform
      norm_num
    simp only [coords, e0, e1, hx, hy, h0, h1, t0, t1] at h2 h3
    unfold inSlice sliceIdx at h2 h3
    simp at h2 h3
    omega

/-- **C89 (violated): a layout is not a fixed layout.** If there are two background materials, loading the same layout twice may fill the same voxel differently. -/
theorem redraw_violated (c : Cfg) (hs : 0 < c.geo.size) (a b : ℝ) (hab : a ≠ b) (hb : c.bkg = [a, b]) (hx : 0 < nx c) (hy : 0 < ny c) (hz : top c 1 ≤ (bkgZ c).2) :
    ∃ draw draw', ∀ lw size, voxel (layout c none draw (top c 1) lw size) 0 0 ≠ voxel (layout c none draw' (top c 1) lw size) 0 0 := by
  refine ⟨fun _ _ _ => 0, fun _ _ _ => 1, ?_⟩
  intro lw size
  have hz' : ¬ top c 1 ≤ (bkgZ c).1 := by
    simp only [top, bkgZ]
    push_cast
    linarith
  unfold voxel layout
  simp only [List.getElem?_map, List.getElem?_range hx, Option.map_some, Option.bind_some, List.getElem?_range hy, base, if_neg hz', if_pos hz, hb]
  simpa using hab

/-- **C89: shape.** Every load of every layer gives as many rows and columns of voxels as fit whole into the length and the width of the volume, with or without a block. -/
theorem covers (c : Cfg) (hs : 0 < c.geo.size) (h1 : 0 ≤ c.geo.lw.1) (h2 : 0 ≤ c.geo.lw.2) (block : Option Block) (draw : ℝ → Nat → Nat → Nat) (z : ℝ) (lw : ℝ × ℝ) (size : ℝ) :
    ∃ rows, layout c block draw z lw size = .ok rows ∧ ((rows.length : ℝ) * c.geo.size ≤ c.geo.lw.1 ∧ c.geo.lw.1 < (rows.length + 1 : ℝ) * c.geo.size) ∧
      ∀ row ∈ rows, (row.length : ℝ) * c.geo.size ≤ c.geo.lw.2 ∧ c.geo.lw.2 < (row.length + 1 : ℝ) * c.geo.size := by
  have key : ∀ a : ℝ, 0 ≤ a → ((⌊a / c.geo.size⌋.toNat : ℕ) : ℝ) * c.geo.size ≤ a ∧ a < ((⌊a / c.geo.size⌋.toNat : ℕ) + 1 : ℝ) * c.geo.size := by
    intro a ha
    have e : ((⌊a / c.geo.size⌋.toNat : ℕ) : ℝ) = (⌊a / c.geo.size⌋ : ℝ) := by
      rw [← Int.cast_natCast, Int.toNat_of_nonneg (Int.floor_nonneg.mpr (div_nonneg ha hs.le))]
    rw [e]
    exact ⟨(le_div_iff₀ hs).mp (Int.floor_le _), (div_lt_iff₀ hs).mp (Int.lt_floor_add_one _)⟩
  refine ⟨_, rfl, ?_, ?_⟩
  · rw [List.length_map, List.length_range]
    exact key _ h1
  · intro row hrow
    obtain ⟨i, -, rfl⟩ := List.mem_map.mp hrow
    rw [List.length_map, List.length_range]
    exact key _ h2

/-! ### Examples -/

/-- a volume of two by four voxels meets the hypotheses of `covers` -/
example : 0 < narrow.geo.size ∧ 0 ≤ narrow.geo.lw.1 ∧ 0 ≤ narrow.geo.lw.2 := by norm_num [narrow]


/-- a volume of ten by ten by ten voxels -/
def wide : Cfg := ⟨⟨(10, 10), (0, 10), 1⟩, 4, 0.5, 0.8, 1, [2, 5], 3, 4⟩

theorem wide_dims : nx wide = 10 ∧ ny wide = 10 ∧ bkgZ wide = (1, 8) := by
  refine ⟨by simp [nx, wide], by simp [ny, wide], ?_⟩
  simp only [bkgZ, wide, Prod.mk.injEq]
  norm_num

theorem wide_sizes : (1, 2, 2) ∈ sizes wide := by
  obtain ⟨hx, hy, -⟩ := wide_dims
  have hm : 10 ≤ maxN wide := by
    unfold maxN
    rw [hx, hy]
    simp
  unfold sizes
  rw [List.mem_filter]
  refine ⟨?_, decide_eq_true ⟨by norm_num, by norm_num, by norm_num [wide]⟩⟩
  have h1 : ∀ n, 1 ≤ n → n ≤ 4 → n ∈ (List.range (maxN wide).toNat).map (· + 1) := by
    intro n h1 h4
    rw [List.mem_map]
    exact ⟨n - 1, by rw [List.mem_range]; omega, by omega⟩
  rw [List.mem_flatMap]
  refine ⟨1, h1 1 (by omega) (by omega), ?_⟩
  rw [List.mem_flatMap]
  exact ⟨2, h1 2 (by omega) (by omega), List.mem_map.mpr ⟨2, h1 2 (by omega) (by omega), rfl⟩⟩

/-- the hypotheses of `block_partial` are met by a volume of ten voxels cubed and a block of one by two by two -/
example : ∃ d : Lorry.BlockDraw, init wide = .ok () ∧ Distinct wide ∧ (∀ i, 0 ≤ d.low i ∧ d.low i < 1) ∧ dims wide d 0 ≤ nx wide ∧ dims wide d 1 ≤ ny wide ∧
    (bkgZ wide).1 + dims wide d 2 * wide.geo.size ≤ (bkgZ wide).2 := by
  obtain ⟨n, hn, e⟩ := List.getElem_of_mem wide_sizes
  obtain ⟨hx, hy, hz⟩ := wide_dims
  have hd : ∀ i, dims wide ⟨n, 1, fun _ => 0.5⟩ i = (![1, 2, 2] : Fin 3 → Nat) i := by
    intro i
    unfold dims
    dsimp only
    rw [Nat.mod_eq_of_lt hn, List.getD_eq_getElem?_getD, List.getElem?_eq_getElem hn, e]
    rfl
  refine ⟨⟨n, 1, fun _ => 0.5⟩, ?_, ?_, ?_, ?_, ?_, ?_⟩
  · unfold init
    rw [if_neg (by omega)]
  · refine ⟨by norm_num [wide], by norm_num [wide], ?_, by simp [wide]⟩
    intro x hx'
    simp only [wide, List.mem_cons, List.not_mem_nil, or_false] at hx'
    rcases hx' with rfl | rfl <;> norm_num [wide]
  · intro i; norm_num
  · rw [hd, hx]; simp
  · rw [hd, hy]; simp
  · rw [hd, hz]; show (1 : ℝ) + ((2 : ℕ) : ℝ) * 1 ≤ 8; norm_num

end C89

end

end Tomopt
