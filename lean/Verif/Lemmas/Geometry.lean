import Verif.Spec.Geometry
import Verif.Lemmas.Muon
import Mathlib.Tactic.Ring
import Mathlib.Tactic.Linarith
import Mathlib.Tactic.NormNum
import Mathlib.Tactic.FieldSimp

/- Helper lemmas for the voxel geometry. -/
namespace Tomopt

noncomputable section

theorem pyRound_int (n : ℤ) : pyRound (n : ℝ) = n := by
  unfold pyRound
  simp

theorem pyRound_nat (n : ℕ) : pyRound (n : ℝ) = n := by
  have := pyRound_int n
  simpa using this

theorem irange_nat (n : ℕ) : irange 0 n = (List.range n).map fun (i : Nat) => (i : ℤ) := by
  simp [irange]

theorem irange_shift (k : ℤ) (n : ℕ) : irange k (k + n) = (List.range n).map fun (i : Nat) => k + i := by
  simp [irange]

/-- nested enumeration: element `i * n + j` -/
theorem flatMap_range_get {β : Type} (n : Nat) (f : Nat → List β) (hf : ∀ i, (f i).length = n) : ∀ (m i j : Nat), i < m → j < n →
    ((List.range m).flatMap f)[i * n + j]? = (f i)[j]? := by
  intro m
  induction m with
  | zero => intro i j h; omega
  | succ m ih =>
    intro i j hi hj
    rw [List.range_succ, List.flatMap_append, List.flatMap_singleton]
    have hlen : ((List.range m).flatMap f).length = m * n := by
      rw [List.length_flatMap]
      simp [hf, List.map_const']
    by_cases h : i < m
    · rw [List.getElem?_append_left]
      · exact ih i j h hj
      · rw [hlen]
        calc i * n + j < i * n + n := by omega
          _ = (i + 1) * n := by ring
          _ ≤ m * n := Nat.mul_le_mul_right n h
    · have : i = m := by omega
      subst this
      rw [List.getElem?_append_right (by omega), hlen]
      congr 1; omega

theorem flatMap_range_length {β : Type} (n : Nat) (f : Nat → List β) (hf : ∀ i, (f i).length = n) (m : Nat) :
    ((List.range m).flatMap f).length = m * n := by
  rw [List.length_flatMap]
  simp [hf, List.map_const']

theorem floor_voxel (s x : ℝ) (hs : 0 < s) (i : ℕ) (h1 : i * s ≤ x) (h2 : x < (i + 1) * s) : ⌊x / s⌋ = i := by
  rw [Int.floor_eq_iff]
  constructor
  · rw [le_div_iff₀ hs]; simpa using h1
  · rw [div_lt_iff₀ hs]; simpa using h2

namespace Block
variable {V : Volume} {s zb : ℝ} {nx ny nz : Nat} {mat : Nat → Nat → Nat → ℝ}

theorem last (h : Block V s zb nx ny nz mat) : ∃ L, V.passives.getLast? = some L ∧ L.size = s ∧ L.lw = (nx * s, ny * s) ∧ L.z = zb + s := by
  have hn := h.nonempty
  have hc := h.count
  obtain ⟨L, hL⟩ : ∃ L, V.passives[nz - 1]? = some L := by
    rw [List.getElem?_eq_getElem (by omega)]; exact ⟨_, rfl⟩
  obtain ⟨h1, h2, h3, _⟩ := h.layer _ L hL
  refine ⟨L, by rw [List.getLast?_eq_getElem?, hc]; exact hL, h1, h2, ?_⟩
  rw [h3, show nz - (nz - 1) = 1 by omega]; simp

theorem first (h : Block V s zb nx ny nz mat) : ∃ L, V.passives.head? = some L ∧ L.z = zb + nz * s := by
  have hn := h.nonempty
  have hc := h.count
  obtain ⟨L, hL⟩ : ∃ L, V.passives[0]? = some L := by
    rw [List.getElem?_eq_getElem (by omega)]; exact ⟨_, rfl⟩
  obtain ⟨_, _, h3, _⟩ := h.layer _ L hL
  exact ⟨L, by rw [List.head?_eq_getElem?]; exact hL, by rw [h3, Nat.sub_zero]⟩

theorem lw_eq (h : Block V s zb nx ny nz mat) : V.lw = .ok (nx * s, ny * s) := by
  obtain ⟨L, e, _, e2, _⟩ := h.last
  simp [Volume.lw, e, e2]

theorem size_eq (h : Block V s zb nx ny nz mat) : V.passiveSize = .ok s := by
  obtain ⟨L, e, e1, _⟩ := h.last
  simp [Volume.passiveSize, e, e1]

theorem zRange_eq (h : Block V s zb nx ny nz mat) : V.zRange = .ok (zb, zb + nz * s) := by
  obtain ⟨L, e, e1, _, e3⟩ := h.last
  obtain ⟨T, f, f1⟩ := h.first
  simp [Volume.zRange, e, e1, e3, f, f1]

end Block

end

end Tomopt
