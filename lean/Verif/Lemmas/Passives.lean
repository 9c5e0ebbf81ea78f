import Verif.Model.Passives
import Verif.Lemmas.Geometry
import Verif.Spec.Geometry
import Mathlib.Tactic.Linarith
import Mathlib.Tactic.Ring
import Mathlib.Tactic.FieldSimp

/- Rounding, slices and loading of layouts. -/
namespace Tomopt

noncomputable section

theorem pyRound_bounds (x : ℝ) : x - 1 / 2 ≤ pyRound x ∧ (pyRound x : ℝ) ≤ x + 1 / 2 := by
  have h1 := Int.floor_le x
  have h2 := Int.lt_floor_add_one x
  unfold pyRound
  simp only
  split
  · constructor <;> linarith
  · rename_i h
    push Not at h
    split
    · push_cast; constructor <;> linarith
    · rename_i h'
      push Not at h'
      split
      · constructor <;> linarith
      · push_cast; constructor <;> linarith

/-- an integer below a number is below its rounding … -/
theorem le_pyRound (k : ℤ) (x : ℝ) (h : (k : ℝ) - 1 / 2 < x) : k ≤ pyRound x := by
  have := (pyRound_bounds x).1
  have h2 : (k : ℝ) - 1 < pyRound x := by linarith
  have h3 : k - 1 < pyRound x := by exact_mod_cast h2
  omega

theorem pyRound_le (k : ℤ) (x : ℝ) (h : x < (k : ℝ) + 1 / 2) : pyRound x ≤ k := by
  have := (pyRound_bounds x).2
  have h2 : (pyRound x : ℝ) < k + 1 := by linarith
  have h3 : pyRound x < k + 1 := by exact_mod_cast h2
  omega

theorem pyRound_nonneg (x : ℝ) (h : 0 ≤ x) : 0 ≤ pyRound x := le_pyRound 0 x (by push_cast; linarith)

theorem pyRound_le_nat (n : Nat) (x : ℝ) (h : x ≤ n) : pyRound x ≤ n := pyRound_le n x (by push_cast; linarith)

/-- numbers more than one apart round to different integers -/
theorem pyRound_lt (x y : ℝ) (h : x + 1 < y) : pyRound x < pyRound y := by
  have h1 := (pyRound_bounds x).2
  have h2 := (pyRound_bounds y).1
  have : (pyRound x : ℝ) < pyRound y := by linarith
  exact_mod_cast this

namespace Passives

theorem inSlice_iff (n : Nat) (lo hi : ℤ) (k : Nat) (h0 : 0 ≤ lo) (h1 : lo ≤ hi) (hk : k < n) : inSlice n lo hi k = true ↔ lo ≤ k ∧ (k : ℤ) < hi := by
  unfold inSlice sliceIdx
  rw [Bool.and_eq_true, decide_eq_true_iff, decide_eq_true_iff, if_neg (by omega), if_neg (by omega)]
  omega

end Passives

/-- The passive layers of `V` form one contiguous block of `nz` layers of `nx` by `ny` cubic voxels of side `s` from height `zb` upwards, listed top
first, whatever they contain. -/
structure Stack (V : Volume) (s zb : ℝ) (nx ny nz : Nat) : Prop where
  pos : 0 < s
  count : V.passives.length = nz
  nonempty : 0 < nz
  layer : ∀ (i : Nat) (L : PassiveLayer), V.passives[i]? = some L →
    L.size = s ∧ L.lw = (nx * s, ny * s) ∧ L.z = zb + ((nz - i : ℕ) : ℝ) * s

theorem floor_mul_div (n : Nat) (s : ℝ) (hs : 0 < s) : ⌊(n * s) / s⌋.toNat = n := by
  rw [mul_div_assoc, div_self hs.ne', mul_one, Int.floor_natCast, Int.toNat_natCast]

namespace Stack
variable {V : Volume} {s zb : ℝ} {nx ny nz : Nat}

theorem last (h : Stack V s zb nx ny nz) : ∃ L, V.passives.getLast? = some L ∧ L.size = s ∧ L.lw = (nx * s, ny * s) ∧ L.z = zb + s := by
  have h1 := h.nonempty
  have hc := h.count
  have hlt : nz - 1 < V.passives.length := by omega
  refine ⟨V.passives[nz - 1], ?_, ?_⟩
  · rw [List.getLast?_eq_getElem?, hc, List.getElem?_eq_getElem hlt]
  · obtain ⟨a, b, c⟩ := h.layer (nz - 1) _ (List.getElem?_eq_getElem hlt)
    refine ⟨a, b, ?_⟩
    rw [c, show nz - (nz - 1) = 1 by omega]
    simp

theorem first (h : Stack V s zb nx ny nz) : ∃ L, V.passives.head? = some L ∧ L.z = zb + nz * s := by
  have h1 := h.nonempty
  have hlt : 0 < V.passives.length := by rw [h.count]; exact h1
  refine ⟨V.passives[0], ?_, ?_⟩
  · rw [List.head?_eq_getElem?, List.getElem?_eq_getElem hlt]
  · obtain ⟨-, -, c⟩ := h.layer 0 _ (List.getElem?_eq_getElem hlt)
    rw [c]; simp

theorem geo (h : Stack V s zb nx ny nz) : Passives.geoOf V = .ok ⟨(nx * s, ny * s), (zb, zb + nz * s), s⟩ := by
  obtain ⟨L, h1, h2, h3, h4⟩ := h.last
  obtain ⟨F, h5, h6⟩ := h.first
  have e : zb + s - s = zb := by ring
  simp only [Passives.geoOf, Volume.lw, Volume.zRange, Volume.passiveSize, h1, h5, h2, h3, h4, h6, e]

end Stack

/-- loading changes nothing but the content of the passive layers -/
theorem load_layers (f : Passives.Layout) (ls ls' : List AnyLayer) (h : Volume.loadLayers f ls = .ok ls') :
    List.Forall₂ (fun l l' => match l, l' with
      | .detector D, .detector D' => D = D'
      | .passive L, .passive L' => ∃ x, f L.z L.lw L.size = .ok x ∧ L' = { L with radLength := some x }
      | _, _ => False) ls ls' := by
  induction ls generalizing ls' with
  | nil => simp only [Volume.loadLayers, Except.ok.injEq] at h; subst h; exact .nil
  | cons l ls ih =>
    cases l with
    | detector D =>
      rw [Volume.loadLayers] at h
      cases hl : Volume.loadLayers f ls with
      | error e => rw [hl] at h; simp at h
      | ok ms =>
        rw [hl] at h
        simp only [Except.ok.injEq] at h
        subst h
        exact .cons rfl (ih ms hl)
    | passive L =>
      rw [Volume.loadLayers] at h
      cases hL : L.load f with
      | error e => rw [hL] at h; simp at h
      | ok L' =>
        rw [hL] at h
        simp only at h
        cases hl : Volume.loadLayers f ls with
        | error e => rw [hl] at h; simp at h
        | ok ms =>
          rw [hl] at h
          simp only [Except.ok.injEq] at h
          subst h
          refine .cons ?_ (ih ms hl)
          unfold PassiveLayer.load at hL
          cases hf : f L.z L.lw L.size with
          | error e => rw [hf] at hL; simp at hL
          | ok x =>
            rw [hf] at hL
            simp only [Except.ok.injEq] at hL
            exact ⟨x, hf, hL.symm⟩

/-- … and the passive layers are those of before, with the returned content -/
theorem load_passives (f : Passives.Layout) (V V' : Volume) (h : V.load f = .ok V') :
    List.Forall₂ (fun L L' => ∃ x, f L.z L.lw L.size = .ok x ∧ L' = { L with radLength := some x }) V.passives V'.passives := by
  unfold Volume.load at h
  cases hl : Volume.loadLayers f V.layers with
  | error e => rw [hl] at h; simp at h
  | ok ls =>
    rw [hl] at h
    simp only [Except.ok.injEq] at h
    subst h
    have := load_layers f _ _ hl
    unfold Volume.passives
    simp only
    clear hl
    generalize V.layers = as at this
    induction this with
    | nil => exact .nil
    | cons hd _ ih =>
      rename_i a b l₁ l₂ _
      cases a with
      | detector D => cases b with
        | detector D' => simpa using ih
        | passive L => exact absurd hd (by simp)
      | passive L => cases b with
        | detector D' => exact absurd hd (by simp)
        | passive L' =>
          simp only [List.filterMap_cons]
          exact .cons hd ih

theorem load_ok (f : Passives.Layout) (V : Volume) (h : ∀ L ∈ V.passives, ∃ x, f L.z L.lw L.size = .ok x) : ∃ V', V.load f = .ok V' := by
  have key : ∀ ls : List AnyLayer, (∀ L ∈ (ls.filterMap fun l => match l with | .passive L => some L | _ => none), ∃ x, f L.z L.lw L.size = .ok x) →
      ∃ ls', Volume.loadLayers f ls = .ok ls' := by
    intro ls
    induction ls with
    | nil => intro _; exact ⟨[], rfl⟩
    | cons l ls ih =>
      intro h
      cases l with
      | detector D =>
        obtain ⟨ls', h'⟩ := ih (by simpa using h)
        exact ⟨_, by rw [Volume.loadLayers, h']⟩
      | passive L =>
        simp only [List.filterMap_cons, List.mem_cons, forall_eq_or_imp] at h
        obtain ⟨⟨x, hx⟩, h2⟩ := h
        obtain ⟨ls', h'⟩ := ih h2
        exact ⟨.passive { L with radLength := some x } :: ls', by simp only [Volume.loadLayers, PassiveLayer.load, hx, h']⟩
  obtain ⟨ls, hl⟩ := key V.layers h
  exact ⟨_, by rw [Volume.load, hl]⟩

/-- a layout that always returns a grid of the right shape -/
structure Shaped (f : Passives.Layout) (s : ℝ) (nx ny : Nat) (val : ℝ → Nat → Nat → ℝ) : Prop where
  grid : ∀ z, ∃ cube, f z (nx * s, ny * s) s = .ok cube ∧ cube.length = nx ∧ ∀ ix < nx, ∃ col, cube[ix]? = some col ∧ col.length = ny ∧
    ∀ iy < ny, col[iy]? = some (val z ix iy)

/-- Loading such a layout into a stack of layers always succeeds, and fills each voxel with the value for its layer's top. -/
theorem load_block {V : Volume} {s zb : ℝ} {nx ny nz : Nat} (h : Stack V s zb nx ny nz) (f : Passives.Layout) (val : ℝ → Nat → Nat → ℝ)
    (hf : Shaped f s nx ny val) : ∃ V', V.load f = .ok V' ∧ Block V' s zb nx ny nz (fun iz ix iy => val (zb + (iz + 1) * s) ix iy) := by
  have hok : ∀ L ∈ V.passives, ∃ x, f L.z L.lw L.size = .ok x := by
    intro L hL
    obtain ⟨i, hi⟩ := List.getElem?_of_mem hL
    obtain ⟨a, b, c⟩ := h.layer i L hi
    obtain ⟨cube, h1, -⟩ := hf.grid L.z
    exact ⟨cube, by rw [a, b]; exact h1⟩
  obtain ⟨V', hV'⟩ := load_ok f V hok
  have hp := load_passives f V V' hV'
  refine ⟨V', hV', h.pos, by rw [← hp.length_eq, h.count], h.nonempty, ?_⟩
  intro i L' hi'
  have hlen : i < V.passives.length := by
    rw [hp.length_eq]
    exact (List.getElem?_eq_some_iff.mp hi').1
  have hget := List.forall₂_iff_get.mp hp
  obtain ⟨hi2, hL'⟩ := List.getElem?_eq_some_iff.mp hi'
  obtain ⟨x, hx, hLx⟩ := hget.2 i hlen hi2
  simp only [List.get_eq_getElem] at hx hLx
  rw [hL'] at hLx
  obtain ⟨a, b, c⟩ := h.layer i _ (List.getElem?_eq_getElem hlen)
  obtain ⟨cube, h1, h2, h3⟩ := hf.grid (V.passives[i]).z
  rw [a, b] at hx
  rw [hx, Except.ok.injEq] at h1
  subst h1
  refine ⟨by rw [hLx]; exact a, by rw [hLx]; exact b, by rw [hLx]; exact c, x, by rw [hLx], h2, ?_⟩
  intro ix hix
  obtain ⟨col, h4, h5, h6⟩ := h3 ix hix
  refine ⟨col, h4, h5, ?_⟩
  intro iy hiy
  rw [h6 iy hiy, c]
  have hlt : i < nz := by rw [← h.count]; exact hlen
  have : ((nz - i : ℕ) : ℝ) = ((nz - 1 - i : ℕ) : ℝ) + 1 := by
    rw [show nz - i = (nz - 1 - i) + 1 by omega]; push_cast; ring
  rw [this]

end

end Tomopt
