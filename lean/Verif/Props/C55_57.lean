import Verif.Lemmas.Passives
import Verif.Model.Loss
import Mathlib.Tactic.FinCases
import Mathlib.Tactic.Positivity

/- C55-C57: passive layouts, yielding them, and mixtures of materials. -/
namespace Tomopt

noncomputable section

open Passives

namespace C55

/-- the lowest corner of the passive volume -/
def org (g : Geo) : Fin 3 → ℝ := ![0, 0, g.zr.1]
/-- the extent of the passive volume -/
def ext (g : Geo) : Fin 3 → ℝ := ![g.lw.1, g.lw.2, g.zr.2 - g.zr.1]

/-- a fixed block fits in any orientation; a random one is possible if there is room for a voxel -/
def Fits (g : Geo) : BlockSize → Prop
  | .random _ => 0 ≤ g.size ∧ ∀ i, g.size ≤ ext g i
  | .fixed s => ∀ i j, s i ≤ ext g j

/-- draws of `np.random.uniform` -/
def Valid (d : BlockDraw) : Prop := (∀ i, 0 ≤ d.size i ∧ d.size i < 1) ∧ ∀ i, 0 ≤ d.low i ∧ d.low i < 1

theorem dims_le (g : Geo) (b : BlockSize) (d : BlockDraw) (hf : Fits g b) (hd : Valid d) (i : Fin 3) : blockDims g b d i ≤ ext g i := by
  cases b with
  | fixed s => exact hf _ _
  | random half =>
    obtain ⟨h0, h1⟩ := hf
    obtain ⟨a, b⟩ := hd.1 i
    have h1 := h1 i
    have hm : sizeMax g half i ≤ ext g i := by
      show (if half then ext g i / 2 else ext g i) ≤ _
      split <;> linarith
    show g.size + (sizeMax g half i - g.size) * d.size i ≤ _
    nlinarith

/-- **C55: inside.** Whatever is drawn, a block that fits lies inside the volume, and its extent is the size that was drawn. -/
theorem inside (g : Geo) (b : BlockSize) (d : BlockDraw) (hf : Fits g b) (hd : Valid d) (i : Fin 3) :
    org g i ≤ (blockCoords g b d).1 i ∧ (blockCoords g b d).2 i ≤ org g i + ext g i ∧
      (blockCoords g b d).2 i - (blockCoords g b d).1 i = blockDims g b d i := by
  have h := dims_le g b d hf hd i
  obtain ⟨h1, h2⟩ := hd.2 i
  have hl : (blockCoords g b d).1 i = org g i + (ext g i - blockDims g b d i) * d.low i := by
    fin_cases i
    · show uniform _ _ _ = _; unfold uniform; simp [org, ext]
    · show uniform _ _ _ = _; unfold uniform; simp [org, ext]
    · show uniform _ _ _ = _; unfold uniform; simp [org, ext]; left; ring
  have hh : (blockCoords g b d).2 i = (blockCoords g b d).1 i + blockDims g b d i := rfl
  refine ⟨?_, ?_, by rw [hh]; ring⟩
  · rw [hl]; nlinarith
  · rw [hh, hl]; nlinarith

/-- A random block is never smaller than a voxel, if the largest size is not. -/
theorem random_size (g : Geo) (half : Bool) (d : BlockDraw) (hd : Valid d) (i : Fin 3) (hm : g.size ≤ sizeMax g half i) : g.size ≤ blockDims g (.random half) d i := by
  obtain ⟨a, b⟩ := hd.1 i
  show _ ≤ g.size + (sizeMax g half i - g.size) * d.size i
  nlinarith

/-- A fixed block keeps its three lengths, in some order. -/
theorem fixed_size (g : Geo) (s : Fin 3 → ℝ) (d : BlockDraw) : ∃ σ : Equiv.Perm (Fin 3), ∀ i, blockDims g (.fixed s) d i = s (σ i) := ⟨d.perm, fun _ => rfl⟩

/-- x or y index of a voxel whose centre is inside / outside the block's range -/
theorem slice_centre (n : Nat) (s lo hi : ℝ) (hs : 0 < s) (h0 : 0 ≤ lo) (h1 : lo ≤ hi) (k : Nat) (hk : k < n) :
    ((lo < (k + 1 / 2) * s ∧ (k + 1 / 2) * s < hi) → inSlice n (pyRound (lo / s)) (pyRound (hi / s)) k = true) ∧
      (((k + 1 / 2) * s < lo ∨ hi < (k + 1 / 2) * s) → inSlice n (pyRound (lo / s)) (pyRound (hi / s)) k = false) := by
  have hr0 : 0 ≤ pyRound (lo / s) := pyRound_nonneg _ (div_nonneg h0 hs.le)
  have hlt : lo / s ≤ hi / s := div_le_div_of_nonneg_right h1 hs.le
  by_cases hle : pyRound (lo / s) ≤ pyRound (hi / s)
  · have hi' := inSlice_iff n _ _ k hr0 hle hk
    constructor
    · rintro ⟨ha, hb⟩
      rw [hi']
      constructor
      · have := (div_lt_iff₀ hs).mpr ha
        exact pyRound_le k _ (by push_cast; linarith)
      · have : (k : ℝ) + 1 / 2 < hi / s := (lt_div_iff₀ hs).mpr hb
        have := le_pyRound (k + 1) (hi / s) (by push_cast; linarith)
        omega
    · intro h
      by_contra hc
      rw [Bool.not_eq_false, hi'] at hc
      obtain ⟨c1, c2⟩ := hc
      rcases h with h | h
      · have : (k : ℝ) + 1 / 2 < lo / s := (lt_div_iff₀ hs).mpr h
        have := le_pyRound (k + 1) (lo / s) (by push_cast; linarith)
        omega
      · have := (div_lt_iff₀ hs).mpr h
        have := pyRound_le k (hi / s) (by push_cast; linarith)
        omega
  · exfalso
    have h2 : ¬ lo / s + 1 < hi / s := fun h => hle (pyRound_lt _ _ h).le
    -- rounding is monotone
    apply hle
    rcases eq_or_lt_of_le hlt with he | hl
    · rw [he]
    · by_contra hgt
      push Not at hgt
      have b1 := (pyRound_bounds (lo / s)).2
      have b2 := (pyRound_bounds (hi / s)).1
      have h3 : (pyRound (hi / s) : ℝ) + 1 ≤ pyRound (lo / s) := by exact_mod_cast hgt
      linarith

/-- where a block is: every voxel whose centre is strictly inside its x and y range, in layers whose top is in its z range, has the block's X0, those
strictly outside the background's; nothing else occurs. -/
structure Holds (s : ℝ) (zb : ℝ) (nx ny nz : Nat) (low high : Fin 3 → ℝ) (base block : ℝ) (mat : Nat → Nat → Nat → ℝ) : Prop where
  inside : ∀ iz < nz, ∀ ix < nx, ∀ iy < ny, low 0 < (ix + 1 / 2) * s → (ix + 1 / 2) * s < high 0 → low 1 < (iy + 1 / 2) * s → (iy + 1 / 2) * s < high 1 →
    low 2 ≤ zb + (iz + 1) * s → zb + (iz + 1) * s ≤ high 2 → mat iz ix iy = block
  outside : ∀ iz < nz, ∀ ix < nx, ∀ iy < ny, ((ix + 1 / 2) * s < low 0 ∨ high 0 < (ix + 1 / 2) * s ∨ (iy + 1 / 2) * s < low 1 ∨ high 1 < (iy + 1 / 2) * s ∨
    zb + (iz + 1) * s < low 2 ∨ high 2 < zb + (iz + 1) * s) → mat iz ix iy = base
  only : ∀ iz ix iy, mat iz ix iy = block ∨ mat iz ix iy = base

theorem shaped (low high : Fin 3 → ℝ) (base block s : ℝ) (hs : 0 < s) (nx ny : Nat) : Shaped (blockLayout low high base block) s nx ny
    (fun z i j => if z ≥ low 2 ∧ z ≤ high 2 ∧ inSlice nx (pyRound (low 0 / s)) (pyRound (high 0 / s)) i ∧
        inSlice ny (pyRound (low 1 / s)) (pyRound (high 1 / s)) j then block else base) := by
  constructor
  intro z
  refine ⟨_, rfl, ?_⟩
  simp only [floor_mul_div _ _ hs]
  refine ⟨by simp, ?_⟩
  intro ix hix
  refine ⟨_, by rw [List.getElem?_map, List.getElem?_range hix]; rfl, by simp, ?_⟩
  intro iy hiy
  rw [List.getElem?_map, List.getElem?_range hiy]
  rfl

/-- **C55: content.** Loading a block into a stack of passive layers never fails, and fills exactly the voxels of the block. -/
theorem loaded {V : Volume} {s zb : ℝ} {nx ny nz : Nat} (h : Stack V s zb nx ny nz) (low high : Fin 3 → ℝ) (base block : ℝ) (h0 : 0 ≤ low 0) (h1 : 0 ≤ low 1)
    (h2 : low 0 ≤ high 0) (h3 : low 1 ≤ high 1) :
    ∃ V' mat, V.load (blockLayout low high base block) = .ok V' ∧ Block V' s zb nx ny nz mat ∧ Holds s zb nx ny nz low high base block mat := by
  obtain ⟨V', hV, hB⟩ := load_block h _ _ (shaped low high base block s h.pos nx ny)
  refine ⟨V', _, hV, hB, ?_, ?_, ?_⟩
  · intro iz hz ix hx iy hy a1 a2 a3 a4 a5 a6
    exact if_pos ⟨a5, a6, (slice_centre nx s _ _ h.pos h0 h2 ix hx).1 ⟨a1, a2⟩, (slice_centre ny s _ _ h.pos h1 h3 iy hy).1 ⟨a3, a4⟩⟩
  · intro iz hz ix hx iy hy ho
    apply if_neg
    rintro ⟨a5, a6, a7, a8⟩
    rcases ho with ho | ho | ho | ho | ho | ho
    · rw [(slice_centre nx s _ _ h.pos h0 h2 ix hx).2 (.inl ho)] at a7; simp at a7
    · rw [(slice_centre nx s _ _ h.pos h0 h2 ix hx).2 (.inr ho)] at a7; simp at a7
    · rw [(slice_centre ny s _ _ h.pos h1 h3 iy hy).2 (.inl ho)] at a8; simp at a8
    · rw [(slice_centre ny s _ _ h.pos h1 h3 iy hy).2 (.inr ho)] at a8; simp at a8
    · linarith
    · linarith
  · intro iz ix iy
    show (if _ then _ else _) = block ∨ (if _ then _ else _) = base
    split
    · exact .inl rfl
    · exact .inr rfl

/-- an interval longer than a voxel, inside the range, contains the centre of a voxel -/
theorem centre_in (n : Nat) (s lo hi : ℝ) (hs : 0 < s) (h0 : 0 ≤ lo) (h1 : hi ≤ n * s) (h2 : s < hi - lo) :
    ∃ k < n, lo < (k + 1 / 2) * s ∧ (k + 1 / 2) * s < hi := by
  -- the first centre beyond `lo`
  have hf0 : (-1 : ℤ) ≤ ⌊lo / s - 1 / 2⌋ := by
    rw [Int.le_floor]
    have := div_nonneg h0 hs.le
    push_cast; linarith
  have hf1 := Int.floor_le (lo / s - 1 / 2)
  have hf2 := Int.lt_floor_add_one (lo / s - 1 / 2)
  obtain ⟨k, hk⟩ : ∃ k : Nat, (k : ℤ) = ⌊lo / s - 1 / 2⌋ + 1 := ⟨(⌊lo / s - 1 / 2⌋ + 1).toNat, by omega⟩
  have hkR : (k : ℝ) = (⌊lo / s - 1 / 2⌋ : ℝ) + 1 := by exact_mod_cast hk
  have e : lo / s * s = lo := div_mul_cancel₀ lo hs.ne'
  have a1 : lo < (k + 1 / 2) * s := by
    have : lo / s < k + 1 / 2 := by rw [hkR]; linarith
    calc lo = lo / s * s := e.symm
      _ < _ := by nlinarith
  have a2 : (k + 1 / 2) * s < hi := by
    have : (k : ℝ) + 1 / 2 ≤ lo / s + 1 := by rw [hkR]; linarith
    have : (k + 1 / 2) * s ≤ (lo / s + 1) * s := by nlinarith
    have e2 : (lo / s + 1) * s = lo + s := by rw [add_mul, e, one_mul]
    linarith
  refine ⟨k, ?_, a1, a2⟩
  have : (k : ℝ) * s < n * s := by nlinarith
  have : (k : ℝ) < n := by nlinarith
  exact_mod_cast this

/-- an interval at least as long as a voxel contains the top of a layer -/
theorem top_in (n : Nat) (s zb lo hi : ℝ) (hs : 0 < s) (h0 : zb ≤ lo) (h1 : hi ≤ zb + n * s) (h2 : s ≤ hi - lo) :
    ∃ k < n, lo ≤ zb + (k + 1) * s ∧ zb + (k + 1) * s ≤ hi := by
  have hf1 := Int.floor_le ((lo - zb) / s)
  have hf2 := Int.lt_floor_add_one ((lo - zb) / s)
  have hf0 : 0 ≤ ⌊(lo - zb) / s⌋ := Int.floor_nonneg.mpr (div_nonneg (by linarith) hs.le)
  obtain ⟨k, hk⟩ : ∃ k : Nat, (k : ℤ) = ⌊(lo - zb) / s⌋ := ⟨⌊(lo - zb) / s⌋.toNat, by omega⟩
  have hkR : (k : ℝ) = (⌊(lo - zb) / s⌋ : ℝ) := by exact_mod_cast hk
  have e : (lo - zb) / s * s = lo - zb := div_mul_cancel₀ _ hs.ne'
  rw [← hkR] at hf1 hf2
  have a1 : lo ≤ zb + (k + 1) * s := by nlinarith
  have a2 : zb + (k + 1) * s ≤ hi := by nlinarith
  refine ⟨k, ?_, a1, a2⟩
  have : (k : ℝ) + 1 ≤ n := by
    have : ((k : ℝ) + 1) * s ≤ n * s := by linarith
    exact le_of_mul_le_mul_right this hs
  have : k + 1 ≤ n := by exact_mod_cast this
  omega

/-- **C55: presence.** A block inside the volume, longer than a voxel in x and y and at least as high as one, is present: some voxel has its X0. -/
theorem present_partial {s zb : ℝ} {nx ny nz : Nat} (hs : 0 < s) (low high : Fin 3 → ℝ) (base block : ℝ) (mat : Nat → Nat → Nat → ℝ)
    (hm : Holds s zb nx ny nz low high base block mat) (h0 : 0 ≤ low 0) (h1 : 0 ≤ low 1) (h2 : zb ≤ low 2) (h3 : high 0 ≤ nx * s) (h4 : high 1 ≤ ny * s)
    (h5 : high 2 ≤ zb + nz * s) (d0 : s < high 0 - low 0) (d1 : s < high 1 - low 1) (d2 : s ≤ high 2 - low 2) :
    ∃ iz < nz, ∃ ix < nx, ∃ iy < ny, mat iz ix iy = block := by
  obtain ⟨ix, hx, a1, a2⟩ := centre_in nx s _ _ hs h0 h3 d0
  obtain ⟨iy, hy, a3, a4⟩ := centre_in ny s _ _ hs h1 h4 d1
  obtain ⟨iz, hz, a5, a6⟩ := top_in nz s zb _ _ hs h2 h5 d2
  exact ⟨iz, hz, ix, hx, iy, hy, hm.inside iz hz ix hx iy hy a1 a2 a3 a4 a5 a6⟩

/-- **C55: generated volumes.** For a volume that is a stack of at least two layers of voxels (four if blocks are limited to half the volume), more than one (two) voxels
wide, and every draw (except the size exactly one voxel in x or y, a draw of exactly 0): what the generator returns can be loaded, and the volume then
contains voxels with the X0 that is the target, as well as at most the background's besides. -/
theorem random_block {V : Volume} {s zb : ℝ} {nx ny nz : Nat} (h : Stack V s zb nx ny nz) (table : Dict String ℝ) (materials : List String) (half sort diff : Bool)
    (mats : List (Nat × Nat)) (d : BlockDraw) (hd : Valid d) (hd0 : 0 < d.size 0) (hd1 : 0 < d.size 1) (k : Nat) (hk : k = if half then 2 else 1)
    (hx : k < nx) (hy : k < ny) (hz : k ≤ nz) (g : Geo) (hg : geoOf V = .ok g) (f : Layout) (t : ℝ)
    (hr : randomBlock table materials g (.random half) sort diff mats d = .ok (some (f, t))) :
    ∃ V' mat base, V.load f = .ok V' ∧ Block V' s zb nx ny nz mat ∧ (∀ iz ix iy, mat iz ix iy = t ∨ mat iz ix iy = base) ∧
      ∃ iz < nz, ∃ ix < nx, ∃ iy < ny, mat iz ix iy = t := by
  have hs := h.pos
  rw [h.geo, Except.ok.injEq] at hg
  obtain ⟨base, rfl⟩ : ∃ base, f = blockLayout (blockCoords g (.random half) d).1 (blockCoords g (.random half) d).2 base t := by
    unfold randomBlock at hr
    split at hr
    · simp at hr
    · split at hr
      · simp at hr
      · split at hr
        · simp at hr
        · split at hr
          · simp at hr
          · simp only [Except.ok.injEq, Option.some.injEq, Prod.mk.injEq] at hr
            obtain ⟨h1, h2⟩ := hr
            rw [h2] at h1
            exact ⟨_, h1.symm⟩
  have hxR : ((k : ℝ)) < nx := by exact_mod_cast hx
  have hyR : ((k : ℝ)) < ny := by exact_mod_cast hy
  have hzR : ((k : ℝ)) ≤ nz := by exact_mod_cast hz
  have hk1 : (1 : ℝ) ≤ k := by rw [hk]; split <;> norm_num
  have e0 : ext g 0 = nx * s := by rw [← hg]; rfl
  have e1 : ext g 1 = ny * s := by rw [← hg]; rfl
  have e2 : ext g 2 = nz * s := by rw [← hg]; simp [ext]
  have es : g.size = s := by rw [← hg]
  have hfit : Fits g (.random half) := by
    refine ⟨by rw [es]; exact hs.le, ?_⟩
    intro i
    rw [es]
    fin_cases i
    · show s ≤ ext g 0; rw [e0]; nlinarith
    · show s ≤ ext g 1; rw [e1]; nlinarith
    · show s ≤ ext g 2; rw [e2]; nlinarith
  have hmax : ∀ i, ∀ n : ℝ, ext g i = n * s → (k : ℝ) < n → s < sizeMax g half i := by
    intro i n he hn
    show s < (if half then ext g i / 2 else ext g i)
    rw [he]
    cases half with
    | true => simp only [if_true] at hk ⊢; rw [hk] at hn; push_cast at hn; nlinarith
    | false => simp only [Bool.false_eq_true, if_false] at hk ⊢; rw [hk] at hn; push_cast at hn; nlinarith
  have hmax2 : s ≤ sizeMax g half 2 := by
    show s ≤ (if half then ext g 2 / 2 else ext g 2)
    rw [e2]
    cases half with
    | true => simp only [if_true] at hk ⊢; rw [hk] at hzR; push_cast at hzR; nlinarith
    | false => simp only [Bool.false_eq_true, if_false] at hk ⊢; rw [hk] at hzR; push_cast at hzR; nlinarith
  have hin := inside g (.random half) d hfit hd
  generalize hc : blockCoords g (.random half) d = c at *
  obtain ⟨low, high⟩ := c
  simp only at hin ⊢
  have dd : ∀ i, blockDims g (.random half) d i = s + (sizeMax g half i - s) * d.size i := by intro i; rw [← es]; rfl
  have o0 : org g 0 = 0 := rfl
  have o1 : org g 1 = 0 := rfl
  have o2 : org g 2 = zb := by rw [← hg]; rfl
  have i0 := hin 0; have i1 := hin 1; have i2 := hin 2
  rw [o0, e0, dd] at i0
  rw [o1, e1, dd] at i1
  rw [o2, e2, dd] at i2
  have m0 := hmax 0 nx e0 hxR
  have m1 := hmax 1 ny e1 hyR
  have p0 : 0 < (sizeMax g half 0 - s) * d.size 0 := mul_pos (by linarith) hd0
  have p1 : 0 < (sizeMax g half 1 - s) * d.size 1 := mul_pos (by linarith) hd1
  have p2 : 0 ≤ (sizeMax g half 2 - s) * d.size 2 := mul_nonneg (by linarith) (hd.1 2).1
  obtain ⟨V', mat, a, b, c⟩ := loaded h low high base t i0.1 i1.1 (by linarith [i0.2.2]) (by linarith [i1.2.2])
  exact ⟨V', mat, base, a, b, c.only, present_partial hs low high base t mat c i0.1 i1.1 i2.1 (by linarith [i0.2.1]) (by linarith [i1.2.1]) i2.2.1 (by linarith [i0.2.2])
    (by linarith [i1.2.2]) (by linarith [i2.2.2])⟩

/-- **C55: target.** For every draw, the target is the X0 of the material of the block, which (and the background's) is one of the given materials; sorted,
it is not above the background's; with different materials enforced, the two come from different entries. -/
theorem target (table : Dict String ℝ) (materials : List String) (g : Geo) (b : BlockSize) (sort diff : Bool) (mats : List (Nat × Nat)) (d : BlockDraw) (f : Layout) (t : ℝ)
    (hr : randomBlock table materials g b sort diff mats d = .ok (some (f, t))) :
    ∃ base, f = blockLayout (blockCoords g b d).1 (blockCoords g b d).2 base t ∧ (sort = true → t ≤ base) ∧
      ∃ (i j : Nat) (m m' : String), materials[i]? = some m ∧ materials[j]? = some m' ∧ table.get? m = some t ∧ table.get? m' = some base ∧ (diff = true → i ≠ j) := by
  have x0 : ∀ i x, x0Of table materials i = .ok x → ∃ m, materials[i]? = some m ∧ table.get? m = some x := by
    intro i x h
    unfold x0Of at h
    cases hm : materials[i]? with
    | none => rw [hm] at h; simp at h
    | some m =>
      rw [hm] at h
      simp only at h
      cases hx : table.get? m with
      | none => rw [hx] at h; simp at h
      | some y => rw [hx] at h; simp only [Except.ok.injEq] at h; exact ⟨m, rfl, by rw [hx, h]⟩
  have pk : ∀ mats i j, pickMats diff mats = some (i, j) → (diff = true → i ≠ j) := by
    intro mats
    induction mats with
    | nil => intro i j h; simp [pickMats] at h
    | cons a mats ih =>
      intro i j h hdiff
      obtain ⟨p, q⟩ := a
      rw [pickMats] at h
      split at h
      · exact ih i j h hdiff
      · rename_i hn
        simp only [Option.some.injEq, Prod.mk.injEq] at h
        obtain ⟨rfl, rfl⟩ := h
        exact fun he => hn ⟨he, hdiff⟩
  unfold randomBlock at hr
  split at hr
  · simp at hr
  · split at hr
    · simp at hr
    · rename_i bkg blk hp
      split at hr
      · simp at hr
      · rename_i base hb
        split at hr
        · simp at hr
        · rename_i block hk
          simp only [Except.ok.injEq, Option.some.injEq, Prod.mk.injEq] at hr
          obtain ⟨m, hm1, hm2⟩ := x0 _ _ hb
          obtain ⟨m', hm3, hm4⟩ := x0 _ _ hk
          have hne := pk _ _ _ hp
          obtain ⟨h1, h2⟩ := hr
          by_cases hs : sort = true ∧ block > base
          · rw [if_pos hs] at h1 h2
            simp only at h1 h2
            subst h2
            exact ⟨block, h1.symm, fun _ => hs.2.le, bkg, blk, m, m', hm1, hm3, hm2, hm4, hne⟩
          · rw [if_neg hs] at h1 h2
            simp only at h1 h2
            subst h2
            refine ⟨base, h1.symm, fun h => ?_, blk, bkg, m', m, hm3, hm1, hm4, hm2, fun hd => (hne hd).symm⟩
            by_contra hc
            exact hs ⟨h, by linarith⟩

/-- The other generator: the background is the first material, the target the X0 of the block. -/
theorem present_target (table : Dict String ℝ) (materials : List String) (g : Geo) (b : BlockSize) (blk : Nat) (d : BlockDraw) (f : Layout) (t : ℝ)
    (hr : blockPresent table materials g b blk d = .ok (f, t)) :
    ∃ base m m', f = blockLayout (blockCoords g b d).1 (blockCoords g b d).2 base t ∧ materials[0]? = some m ∧ table.get? m = some base ∧
      materials[blk]? = some m' ∧ table.get? m' = some t := by
  have x0 : ∀ i x, x0Of table materials i = .ok x → ∃ m, materials[i]? = some m ∧ table.get? m = some x := by
    intro i x h
    unfold x0Of at h
    cases hm : materials[i]? with
    | none => rw [hm] at h; simp at h
    | some m =>
      rw [hm] at h
      simp only at h
      cases hx : table.get? m with
      | none => rw [hx] at h; simp at h
      | some y => rw [hx] at h; simp only [Except.ok.injEq] at h; exact ⟨m, rfl, by rw [hx, h]⟩
  unfold blockPresent at hr
  split at hr
  · simp at hr
  · split at hr
    · simp at hr
    · rename_i base hb
      split at hr
      · simp at hr
      · rename_i block hk
        simp only [Except.ok.injEq, Prod.mk.injEq] at hr
        obtain ⟨h1, rfl⟩ := hr
        obtain ⟨m, a1, a2⟩ := x0 _ _ hb
        obtain ⟨m', b1, b2⟩ := x0 _ _ hk
        exact ⟨base, m, m', h1.symm, a1, a2, b1, b2⟩

/-- **C55 (violated): thin blocks.** A fixed block smaller than a voxel may be nowhere: here, the layout is the background everywhere although the target is
the X0 of the block. -/
theorem thin_violated (base block : ℝ) (z : ℝ) : ∃ d : BlockDraw, Valid d ∧
    blockLayout (blockCoords ⟨(2, 2), (0, 2), 1⟩ (.fixed fun _ => 1 / 4) d).1 (blockCoords ⟨(2, 2), (0, 2), 1⟩ (.fixed fun _ => 1 / 4) d).2 base block z (2, 2) 1 =
      .ok [[base, base], [base, base]] := by
  have r1 : pyRound (7 / 8) = 1 := by
    have : ⌊(7 / 8 : ℝ)⌋ = 0 := by rw [Int.floor_eq_iff]; norm_num
    simp only [pyRound, this]; norm_num
  have r2 : pyRound (9 / 8) = 1 := by
    have : ⌊(9 / 8 : ℝ)⌋ = 1 := by rw [Int.floor_eq_iff]; norm_num
    simp only [pyRound, this]; norm_num
  refine ⟨⟨fun _ => 0, .refl _, fun _ => 1 / 2⟩, ⟨fun _ => by norm_num, fun _ => by norm_num⟩, ?_⟩
  have hl : (uniform 0 (2 - 1 / 4) (1 / 2) : ℝ) = 7 / 8 := by unfold uniform; norm_num
  have hf : ⌊(2 / 1 : ℝ)⌋.toNat = 2 := by rw [div_one]; simp
  simp only [blockLayout, blockCoords, blockLow, blockDims, hf, div_one, Matrix.cons_val_zero, Matrix.cons_val_one, hl]
  rw [show (7 / 8 + 1 / 4 : ℝ) = 9 / 8 by norm_num, r1, r2]
  simp [List.range_succ, inSlice, sliceIdx]

/-- **C55 (violated): layers.** In z the layers are chosen by their tops, not their centres: a block from height 0.9 to 1.9 of layers of height 1 fills the lowest
layer, of which it covers a tenth, and not the second, of which it covers nine tenths. -/
theorem layers_violated (base block : ℝ) :
    blockLayout ![0, 0, 9 / 10] ![1, 1, 19 / 10] base block 1 (1, 1) 1 = .ok [[block]] ∧
      blockLayout ![0, 0, 9 / 10] ![1, 1, 19 / 10] base block 2 (1, 1) 1 = .ok [[base]] := by
  have hf : ⌊(1 / 1 : ℝ)⌋.toNat = 1 := by rw [div_one]; simp
  have r1 : pyRound (1 : ℝ) = 1 := by have := pyRound_int 1; push_cast at this; exact this
  have r0 : pyRound (0 : ℝ) = 0 := by have := pyRound_int 0; push_cast at this; exact this
  constructor
  · simp [blockLayout, r1, r0, List.range_succ, inSlice, sliceIdx]
    norm_num
  · simp [blockLayout, r1, r0, List.range_succ, inSlice, sliceIdx]
    norm_num

/-- **C55 (violated): large blocks.** A fixed block larger than the volume is accepted and sticks out of it. -/
theorem large_violated : ∃ d : BlockDraw, Valid d ∧ (blockCoords ⟨(2, 2), (0, 2), 1⟩ (.fixed fun _ => 4) d).1 0 < 0 := by
  refine ⟨⟨fun _ => 0, .refl _, fun _ => 1 / 2⟩, ⟨fun _ => by norm_num, fun _ => by norm_num⟩, ?_⟩
  show uniform 0 (2 - 4) (1 / 2) < 0
  unfold uniform
  norm_num

/-- **C55 (violated): one material.** Enforcing different materials with only one material never ends. -/
theorem one_material_violated (mats : List (Nat × Nat)) (h : ∀ p ∈ mats, p.1 < 1 ∧ p.2 < 1) (table : Dict String ℝ) (m : String) (g : Geo) (b : BlockSize) (sort : Bool)
    (d : BlockDraw) : randomBlock table [m] g b sort true mats d = .ok none := by
  have : pickMats true mats = none := by
    induction mats with
    | nil => rfl
    | cons p mats ih =>
      obtain ⟨i, j⟩ := p
      have := h (i, j) List.mem_cons_self
      simp only at this
      rw [pickMats, if_pos ⟨by omega, rfl⟩]
      exact ih fun q hq => h q (List.mem_cons_of_mem _ hq)
  simp [randomBlock, this]

/-- It ends as soon as two different materials are drawn. -/
theorem ends (diff : Bool) (same : List (Nat × Nat)) (i j : Nat) (rest : List (Nat × Nat)) (hs : ∀ p ∈ same, p.1 = p.2) (hd : diff = true) (hij : i ≠ j) :
    pickMats diff (same ++ (i, j) :: rest) = some (i, j) := by
  induction same with
  | nil => rw [List.nil_append, pickMats, if_neg fun h => hij h.1]
  | cons p same ih =>
    obtain ⟨a, b⟩ := p
    rw [List.cons_append, pickMats, if_pos ⟨hs (a, b) List.mem_cons_self, hd⟩]
    exact ih fun q hq => hs q (List.mem_cons_of_mem _ hq)

/-- missing size arguments are rejected -/
theorem size_error (blockSize : Option (Fin 3 → ℝ)) (half : Option Bool) : blockSizeArgs blockSize half = .error .valueError ↔ blockSize = none ∧ half = none := by
  cases blockSize <;> cases half <;> simp [blockSizeArgs]

/-- **Random voxels.** Every voxel gets the X0 of one of the materials, in every layer of every stack. -/
theorem voxels {V : Volume} {s zb : ℝ} {nx ny nz : Nat} (h : Stack V s zb nx ny nz) (table : Dict String ℝ) (materials : List String) (draw : ℝ → Nat → Nat → Nat)
    (h0 : materials ≠ []) (hk : ∀ m ∈ materials, ∃ x, table.get? m = some x) :
    ∃ V' mat, V.load (voxelPassive table materials draw) = .ok V' ∧ Block V' s zb nx ny nz mat ∧
      ∀ iz ix iy, ∃ m ∈ materials, table.get? m = some (mat iz ix iy) := by
  have hx : ∀ ms : List String, (∀ m ∈ ms, ∃ x, table.get? m = some x) →
      ∃ xs, x0List table ms = .ok xs ∧ xs.length = ms.length ∧ ∀ x ∈ xs, ∃ m ∈ ms, table.get? m = some x := by
    intro ms
    induction ms with
    | nil => intro _; exact ⟨[], rfl, rfl, by simp⟩
    | cons m ms ih =>
      intro hk
      obtain ⟨x, hx⟩ := hk m List.mem_cons_self
      obtain ⟨xs, a, b, c⟩ := ih fun m' hm' => hk m' (List.mem_cons_of_mem _ hm')
      refine ⟨x :: xs, by rw [x0List, hx]; simp only [a], by simp [b], ?_⟩
      intro y hy
      rcases List.mem_cons.mp hy with rfl | hy
      · exact ⟨m, List.mem_cons_self, hx⟩
      · obtain ⟨m', h1, h2⟩ := c y hy
        exact ⟨m', List.mem_cons_of_mem _ h1, h2⟩
  obtain ⟨xs, a, b, c⟩ := hx materials hk
  have hl : 0 < xs.length := by rw [b]; exact List.length_pos_iff.mpr h0
  have hsh : Shaped (voxelPassive table materials draw) s nx ny fun z i j => xs.getD (draw z i j % xs.length) 0 := by
    constructor
    intro z
    refine ⟨_, by rw [voxelPassive, a]; simp only [if_neg (show ¬ xs.length = 0 by omega)]; rfl, ?_⟩
    simp only [floor_mul_div _ _ h.pos]
    refine ⟨by simp, ?_⟩
    intro ix hix
    refine ⟨_, by rw [List.getElem?_map, List.getElem?_range hix]; rfl, by simp, ?_⟩
    intro iy hiy
    rw [List.getElem?_map, List.getElem?_range hiy]
    rfl
  obtain ⟨V', hV, hB⟩ := load_block h _ _ hsh
  refine ⟨V', _, hV, hB, ?_⟩
  intro iz ix iy
  have : draw (zb + (iz + 1) * s) ix iy % xs.length < xs.length := Nat.mod_lt _ hl
  rw [List.getD_eq_getElem?_getD, List.getElem?_eq_getElem this, Option.getD_some]
  exact c _ (List.getElem_mem this)

example : Fits ⟨(10, 10), (2, 8), 1⟩ (.random true) := by
  refine ⟨by norm_num, ?_⟩
  intro i; fin_cases i <;> norm_num [ext]

end C55

namespace C56

variable {L T : Type}

/-- `random.shuffle` permutes -/
def Shuffles (σ : List (Entry L T) → List (Entry L T)) : Prop := ∀ l, (σ l).Perm l

/-- **C56: lists.** Over any number of passes, with any shuffling, every pass yields each of the given passives exactly once (a bare layout without target), and
without shuffling in the given order. -/
theorem each_once (ps : List (Entry L T)) (n : Option Int) (shuffle : Bool) (y : Yielder L T) (hy : Yielder.make (.list ps) n shuffle = .ok y)
    (σs : List (List (Entry L T) → List (Entry L T))) (hσ : ∀ σ ∈ σs, Shuffles σ) :
    (y.passes σs).2.length = σs.length ∧ ∀ out ∈ (y.passes σs).2, out.Perm (ps.map Entry.out) ∧ (shuffle = false → out = ps.map Entry.out) := by
  simp only [Yielder.make, Except.ok.injEq] at hy
  subst hy
  have key : ∀ (σs : List (List (Entry L T) → List (Entry L T))), (∀ σ ∈ σs, Shuffles σ) → ∀ (qs : List (Entry L T)) (n : Int) (c : Nat), qs.Perm ps → (shuffle = false → qs = ps) →
      (Yielder.passes σs ⟨.list qs, n, shuffle, c⟩).2.length = σs.length ∧
      ∀ out ∈ (Yielder.passes σs ⟨.list qs, n, shuffle, c⟩).2, out.Perm (ps.map Entry.out) ∧ (shuffle = false → out = ps.map Entry.out) := by
    intro σs
    induction σs with
    | nil => intro _ qs n c _ _; simp [Yielder.passes]
    | cons σ σs ih =>
      intro hσ qs n c hq hq2
      have hs := hσ σ List.mem_cons_self
      obtain ⟨rs, hrs⟩ : ∃ rs, rs = if shuffle then σ qs else qs := ⟨_, rfl⟩
      have hr : rs.Perm ps := by
        rw [hrs]; split
        · exact (hs qs).trans hq
        · exact hq
      have hr2 : shuffle = false → rs = ps := by
        intro h; rw [hrs, h]; exact hq2 h
      have hpass : Yielder.pass σ ⟨.list qs, n, shuffle, c⟩ = (⟨.list rs, n, shuffle, c⟩, rs.map Entry.out) := by
        rw [hrs]; rfl
      rw [Yielder.passes]
      simp only [hpass]
      obtain ⟨a, b⟩ := ih (fun σ' h' => hσ σ' (List.mem_cons_of_mem _ h')) rs n c hr hr2
      refine ⟨by simp [a], ?_⟩
      intro out ho
      rcases List.mem_cons.mp ho with rfl | ho
      · exact ⟨hr.map _, fun h => by rw [hr2 h]⟩
      · exact b out ho
  exact key σs hσ ps _ 0 (.refl _) (fun _ => rfl)

/-- … and as many as `len` says. -/
theorem len_list (ps : List (Entry L T)) (n : Option Int) (shuffle : Bool) (y : Yielder L T) (hy : Yielder.make (.list ps) n shuffle = .ok y) :
    y.len = .ok ps.length := by
  simp only [Yielder.make, Except.ok.injEq] at hy
  subst hy
  unfold Yielder.len
  simp only
  rw [if_neg (by omega), Int.toNat_natCast]

/-- **C56: generators.** Each pass makes exactly `n` new layouts, in the order the generator returns them, never the same call twice; `n` must be given. -/
theorem generated (data : Nat → L × Option T) (n : Nat) (shuffle : Bool) (y : Yielder L T) (hy : Yielder.make (.gen data) (some n) shuffle = .ok y)
    (σs : List (List (Entry L T) → List (Entry L T))) :
    y.len = .ok n ∧ (y.passes σs).2 = (List.range σs.length).map fun p => (List.range n).map fun i => data (p * n + i) := by
  simp only [Yielder.make, Except.ok.injEq] at hy
  subst hy
  refine ⟨by unfold Yielder.len; simp, ?_⟩
  have key : ∀ (σs : List (List (Entry L T) → List (Entry L T))) (c : Nat), (Yielder.passes σs ⟨.gen data, n, shuffle, c⟩).2 =
      (List.range σs.length).map fun p => (List.range n).map fun i => data (c + p * n + i) := by
    intro σs
    induction σs with
    | nil => intro c; rfl
    | cons σ σs ih =>
      intro c
      have hpass : Yielder.pass σ ⟨.gen data, n, shuffle, c⟩ = (⟨.gen data, n, shuffle, c + n⟩, (List.range n).map fun i => data (c + i)) := by
        simp [Yielder.pass]
      rw [Yielder.passes]
      simp only [hpass]
      rw [ih, List.length_cons, List.range_succ_eq_map, List.map_cons, List.map_map]
      congr 1
      · simp
      · apply List.map_congr_left
        intro p _
        simp only [Function.comp_apply]
        apply List.map_congr_left
        intro i _
        congr 1
        rw [Nat.succ_mul]; omega
  have := key σs 0
  simpa using this

theorem missing_error (data : Nat → L × Option T) (shuffle : Bool) : Yielder.make (.gen data) none shuffle = .error .valueError := rfl

/-- The caller's list is reordered: shuffling is done in place. -/
theorem callers_list_violated : ∃ (σ : List (Entry Nat Nat) → List (Entry Nat Nat)), Shuffles σ ∧
    ((Yielder.pass σ ⟨.list [.bare 1, .bare 2], 2, true, 0⟩).1.src = .list [.bare 2, .bare 1]) :=
  ⟨List.reverse, fun l => List.reverse_perm l, rfl⟩

/-- Negative numbers of passives are accepted: nothing is yielded and `len` raises. -/
theorem negative_error (data : Nat → L × Option T) (n : Int) (hn : n < 0) (shuffle : Bool) (σ : List (Entry L T) → List (Entry L T)) :
    ∃ y, Yielder.make (.gen data) (some n) shuffle = .ok y ∧ y.len = .error .valueError ∧ (y.pass σ).2 = [] := by
  refine ⟨_, rfl, by unfold Yielder.len; simp only; rw [if_pos hn], ?_⟩
  unfold Yielder.pass
  simp only
  rw [Int.toNat_of_nonpos hn.le]
  rfl

example : Shuffles (L := Nat) (T := Nat) List.reverse := fun l => List.reverse_perm l

end C56

namespace C57

open Loss

/-- components of a mixture: X0, density and amount, all physical -/
structure Physical (x0s rhos ws : List ℝ) : Prop where
  len1 : x0s.length = ws.length
  len2 : rhos.length = ws.length
  x0 : ∀ x ∈ x0s, 0 < x
  rho : ∀ x ∈ rhos, 0 < x
  amount : ∀ x ∈ ws, 0 ≤ x
  some : 0 < ws.sum

/-- volume of each component (up to a common factor), and its total -/
def vols : List ℝ → List ℝ → List ℝ := List.zipWith (· / ·)

/-- the documented formulas: density = mass / volume; thickness in units of X0 adds up along the volume -/
theorem mixed_eq (x0s rhos ws : List ℝ) (h : Physical x0s rhos ws) :
    mixture.mixed x0s rhos ws = (.num ((vols ws rhos).sum / (List.zipWith (· / ·) (vols ws rhos) x0s).sum), .num (ws.sum / (vols ws rhos).sum)) := by
  have hne : ws ≠ [] := by rintro rfl; exact absurd h.some (by simp)
  have hsum := h.some
  unfold mixture.mixed
  rw [if_neg hne, if_neg hsum.ne']
  have k1 : ∀ (ws rs : List ℝ) (S : ℝ), (List.zipWith (· / ·) (ws.map (· / S)) rs).sum = (vols ws rs).sum / S := by
    intro ws
    induction ws with
    | nil => intro rs S; simp [vols]
    | cons w ws ih =>
      intro rs S
      cases rs with
      | nil => simp [vols]
      | cons r rs =>
        have := ih rs S
        unfold vols at this ⊢
        simp only [List.map_cons, List.zipWith_cons_cons, List.sum_cons, this, add_div]
        ring
  have k2 : ∀ (ws xs rs : List ℝ), (vols ws (List.zipWith (· * ·) xs rs)) = List.zipWith (· / ·) (vols ws rs) xs := by
    intro ws
    induction ws with
    | nil => intro xs rs; simp [vols]
    | cons w ws ih =>
      intro xs rs
      cases xs with
      | nil => simp [vols]
      | cons x xs => cases rs with
        | nil => simp [vols]
        | cons r rs =>
          have := ih xs rs
          unfold vols at this ⊢
          simp only [List.zipWith_cons_cons, this]
          congr 1
          rw [mul_comm, div_div]
  simp only [k1, k2, one_div_div]
  congr 2
  rw [div_div_div_eq]
  by_cases hz : (List.zipWith (· / ·) (vols ws rhos) x0s).sum = 0
  · rw [hz]; simp
  · field_simp

theorem vols_pos (x0s rhos ws : List ℝ) (h : Physical x0s rhos ws) : 0 < (vols ws rhos).sum ∧ ∀ v ∈ vols ws rhos, 0 ≤ v := by
  have key : ∀ ws rs : List ℝ, rs.length = ws.length → (∀ x ∈ rs, 0 < x) → (∀ x ∈ ws, 0 ≤ x) → (∀ v ∈ vols ws rs, 0 ≤ v) ∧ (0 < ws.sum → 0 < (vols ws rs).sum) := by
    intro ws
    induction ws with
    | nil => intro rs _ _ _; simp [vols]
    | cons w ws ih =>
      intro rs hl hr hw
      cases rs with
      | nil => simp at hl
      | cons r rs =>
        obtain ⟨a, b⟩ := ih rs (by simpa using hl) (fun x hx => hr x (List.mem_cons_of_mem _ hx)) (fun x hx => hw x (List.mem_cons_of_mem _ hx))
        have r0 := hr r List.mem_cons_self
        have w0 := hw w List.mem_cons_self
        have q := div_nonneg w0 r0.le
        constructor
        · intro v hv
          rcases List.mem_cons.mp hv with rfl | hv
          · exact q
          · exact a v hv
        · intro hs
          show 0 < ((w / r) :: vols ws rs).sum
          rw [List.sum_cons] at hs ⊢
          have ha : 0 ≤ (vols ws rs).sum := List.sum_nonneg a
          rcases eq_or_lt_of_le w0 with e | e
          · rw [← e] at hs ⊢; have := b (by linarith); simp; exact this
          · have := div_pos e r0; linarith
  obtain ⟨a, b⟩ := key ws rhos h.len2 h.rho h.amount
  exact ⟨b h.some, a⟩

/-- a weighted mean of quotients is between bounds -/
theorem quot_bounds (vs xs : List ℝ) (hl : xs.length = vs.length) (hv : ∀ v ∈ vs, 0 ≤ v) (a b : ℝ) (ha : 0 < a) (hx : ∀ x ∈ xs, a ≤ x ∧ x ≤ b) :
    vs.sum / b ≤ (List.zipWith (· / ·) vs xs).sum ∧ (List.zipWith (· / ·) vs xs).sum ≤ vs.sum / a := by
  induction vs generalizing xs with
  | nil => simp
  | cons v vs ih =>
    cases xs with
    | nil => simp at hl
    | cons x xs =>
      obtain ⟨i1, i2⟩ := ih xs (by simpa using hl) (fun x hx => hv x (List.mem_cons_of_mem _ hx)) (fun x hx' => hx x (List.mem_cons_of_mem _ hx'))
      obtain ⟨b1, b2⟩ := hx x List.mem_cons_self
      have v0 := hv v List.mem_cons_self
      simp only [List.sum_cons, List.zipWith_cons_cons, add_div]
      have q1 : v / b ≤ v / x := div_le_div_of_nonneg_left v0 (by linarith) b2
      have q2 : v / x ≤ v / a := div_le_div_of_nonneg_left v0 ha b1
      constructor <;> linarith

/-- **C57: a mean.** The X0 (and the density) of a mixture given by weights lie between those of its components. -/
theorem between (x0s rhos ws : List ℝ) (h : Physical x0s rhos ws) (a b : ℝ) (ha : 0 < a) (hx : ∀ x ∈ x0s, a ≤ x ∧ x ≤ b) (c d : ℝ) (hc : 0 < c)
    (hr : ∀ r ∈ rhos, c ≤ r ∧ r ≤ d) :
    ∃ X R, mixture x0s rhos (some ws) none = .ok (.num X, .num R) ∧ a ≤ X ∧ X ≤ b ∧ c ≤ R ∧ R ≤ d := by
  refine ⟨_, _, by rw [mixture, mixed_eq _ _ _ h], ?_⟩
  obtain ⟨hv, hv0⟩ := vols_pos _ _ _ h
  have hlen : x0s.length = (vols ws rhos).length := by unfold vols; rw [List.length_zipWith, h.len1, h.len2]; simp
  have hne : ws ≠ [] := by rintro rfl; exact absurd h.some (by simp)
  have hn : 0 < ws.length := List.length_pos_iff.mpr hne
  have hb : 0 < b := by
    have : 0 < x0s.length := by rw [h.len1]; exact hn
    obtain ⟨x, hx'⟩ := List.exists_mem_of_length_pos this
    obtain ⟨p, q⟩ := hx x hx'; linarith
  have hd : 0 < d := by
    have : 0 < rhos.length := by rw [h.len2]; exact hn
    obtain ⟨x, hx'⟩ := List.exists_mem_of_length_pos this
    obtain ⟨p, q⟩ := hr x hx'; linarith
  obtain ⟨q1, q2⟩ := quot_bounds (vols ws rhos) x0s hlen hv0 a b ha hx
  obtain ⟨p1, p2⟩ := quot_bounds ws rhos h.len2 h.amount c d hc hr
  have hq : 0 < (List.zipWith (· / ·) (vols ws rhos) x0s).sum := lt_of_lt_of_le (div_pos hv hb) q1
  change ws.sum / d ≤ (vols ws rhos).sum at p1
  change (vols ws rhos).sum ≤ ws.sum / c at p2
  refine ⟨?_, ?_, ?_, ?_⟩
  · rw [le_div_iff₀ hq]; rw [le_div_iff₀ ha] at q2; linarith
  · rw [div_le_iff₀ hq]; rw [div_le_iff₀ hb] at q1; linarith
  · rw [le_div_iff₀ hv]; rw [le_div_iff₀ hc] at p2; linarith
  · rw [div_le_iff₀ hv]; rw [div_le_iff₀ hd] at p1; linarith

/-- **C57: by volume.** Given fractions by volume, the density is their mean density, and the inverse of the X0 the mean of the inverses. -/
theorem by_volume (x0s rhos vs : List ℝ) (h : Physical x0s rhos vs) :
    mixture x0s rhos none (some vs) = .ok (.num (vs.sum / (List.zipWith (· / ·) vs x0s).sum), .num ((List.zipWith (· * ·) rhos vs).sum / vs.sum)) := by
  have k : ∀ rs vs : List ℝ, rs.length = vs.length → (∀ r ∈ rs, 0 < r) → vols (List.zipWith (· * ·) rs vs) rs = vs := by
    intro rs
    induction rs with
    | nil => intro vs hl _; simp at hl; rw [List.eq_nil_of_length_eq_zero hl.symm]; simp [vols]
    | cons r rs ih =>
      intro vs hl hr
      cases vs with
      | nil => simp at hl
      | cons v vs =>
        have := ih vs (by simpa using hl) fun x hx => hr x (List.mem_cons_of_mem _ hx)
        unfold vols at this ⊢
        simp only [List.zipWith_cons_cons, this]
        congr 1
        rw [mul_comm, mul_div_assoc, div_self (hr r List.mem_cons_self).ne', mul_one]
  have pos : ∀ rs vs : List ℝ, rs.length = vs.length → (∀ r ∈ rs, 0 < r) → (∀ v ∈ vs, 0 ≤ v) →
      (∀ x ∈ List.zipWith (· * ·) rs vs, 0 ≤ x) ∧ (0 < vs.sum → 0 < (List.zipWith (· * ·) rs vs).sum) := by
    intro rs
    induction rs with
    | nil => intro vs hl _ _; simp at hl; rw [List.eq_nil_of_length_eq_zero hl.symm]; simp
    | cons r rs ih =>
      intro vs hl hr hv
      cases vs with
      | nil => simp at hl
      | cons v vs =>
        obtain ⟨a, b⟩ := ih vs (by simpa using hl) (fun x hx => hr x (List.mem_cons_of_mem _ hx)) (fun x hx => hv x (List.mem_cons_of_mem _ hx))
        have r0 := hr r List.mem_cons_self
        have v0 := hv v List.mem_cons_self
        constructor
        · intro x hx
          rcases List.mem_cons.mp hx with rfl | hx
          · exact mul_nonneg r0.le v0
          · exact a x hx
        · intro hs
          simp only [List.zipWith_cons_cons, List.sum_cons] at hs ⊢
          have ha := List.sum_nonneg a
          rcases eq_or_lt_of_le v0 with e | e
          · rw [← e] at hs ⊢; have := b (by linarith); simpa using this
          · have := mul_pos r0 e; linarith
  obtain ⟨p1, p2⟩ := pos rhos vs h.len2 h.rho h.amount
  have hP : Physical x0s rhos (List.zipWith (· * ·) rhos vs) :=
    ⟨by rw [List.length_zipWith, h.len2, h.len1]; simp, by rw [List.length_zipWith, h.len2]; simp, h.x0, h.rho, p1, p2 h.some⟩
  rw [mixture, mixed_eq _ _ _ hP, k rhos vs h.len2 h.rho]

/-- **C57: scale.** Only the proportions matter. -/
theorem scale (x0s rhos ws : List ℝ) (c : ℝ) (hc : 0 < c) (h : Physical x0s rhos ws) :
    mixture x0s rhos (some (ws.map (c * ·))) none = mixture x0s rhos (some ws) none ∧
      mixture x0s rhos none (some (ws.map (c * ·))) = mixture x0s rhos none (some ws) := by
  have hs : (ws.map (c * ·)).sum = c * ws.sum := by rw [List.sum_map_mul_left]; simp
  have hP : Physical x0s rhos (ws.map (c * ·)) := by
    refine ⟨by rw [List.length_map, h.len1], by rw [List.length_map, h.len2], h.x0, h.rho, ?_, by rw [hs]; exact mul_pos hc h.some⟩
    intro x hx
    obtain ⟨w, hw, rfl⟩ := List.mem_map.mp hx
    exact mul_nonneg hc.le (h.amount w hw)
  have q : ∀ ws rs : List ℝ, List.zipWith (· / ·) (ws.map (c * ·)) rs = (List.zipWith (· / ·) ws rs).map (c * ·) := by
    intro ws
    induction ws with
    | nil => intro rs; simp
    | cons w ws ih => intro rs; cases rs with
      | nil => simp
      | cons r rs => simp [ih, mul_div_assoc]
  have q2 : ∀ rs ws : List ℝ, List.zipWith (· * ·) rs (ws.map (c * ·)) = (List.zipWith (· * ·) rs ws).map (c * ·) := by
    intro rs
    induction rs with
    | nil => intro ws; simp
    | cons r rs ih => intro ws; cases ws with
      | nil => simp
      | cons w ws => simp only [List.map_cons, List.zipWith_cons_cons, ih]; congr 1; ring
  have m : ∀ l : List ℝ, (l.map (c * ·)).sum = c * l.sum := fun l => by rw [List.sum_map_mul_left]; simp
  constructor
  · rw [mixture, mixture, mixed_eq _ _ _ hP, mixed_eq _ _ _ h]
    unfold vols
    rw [q, q, m, m, m, mul_div_mul_left _ _ hc.ne', mul_div_mul_left _ _ hc.ne']
  · rw [by_volume _ _ _ hP, by_volume _ _ _ h, q, q2, m, m, m, mul_div_mul_left _ _ hc.ne', mul_div_mul_left _ _ hc.ne']

/-- **C57: one component.** A single component gives its own X0 and density. -/
theorem single (x r w : ℝ) (hx : 0 < x) (hr : 0 < r) (hw : 0 < w) : mixture [x] [r] (some [w]) none = .ok (.num x, .num r) ∧
    mixture [x] [r] none (some [w]) = .ok (.num x, .num r) := by
  have h : Physical [x] [r] [w] := ⟨rfl, rfl, by simpa using hx, by simpa using hr, by simpa using hw.le, by simpa using hw⟩
  constructor
  · rw [mixture, mixed_eq _ _ _ h]
    simp only [vols, List.zipWith_cons_cons, List.zipWith_nil_left, List.sum_cons, List.sum_nil, add_zero]
    congr 3 <;> field_simp
  · rw [by_volume _ _ _ h]
    simp only [List.zipWith_cons_cons, List.zipWith_nil_left, List.sum_cons, List.sum_nil, add_zero]
    congr 3 <;> field_simp

/-- **C57: arguments.** Exactly one kind of fractions must be given. -/
theorem args_error (x0s rhos : List ℝ) (wf vf : Option (List ℝ)) :
    mixture x0s rhos wf vf = .error .valueError ↔ (wf = none ∧ vf = none) ∨ (wf ≠ none ∧ vf ≠ none) := by
  cases wf <;> cases vf <;> simp [mixture]

/-- Fractions that are all zero are not rejected: the result is NaN. -/
theorem zero_fractions_violated (x0s rhos ws : List ℝ) (h0 : ws ≠ []) (h : ws.sum = 0) : mixture x0s rhos (some ws) none = .ok (.nan, .nan) := by
  rw [mixture, mixture.mixed, if_neg h0, if_pos h]

example : Physical [0.36, 0.12] [1000, 2200] [1, 3] :=
  ⟨rfl, rfl, by intro x hx; fin_cases hx <;> norm_num, by intro x hx; fin_cases hx <;> norm_num, by intro x hx; fin_cases hx <;> norm_num, by norm_num⟩

end C57

end

end Tomopt
