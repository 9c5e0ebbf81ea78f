import Verif.Lemmas.Geometry
import Mathlib.Data.List.Nodup

/- C15-C18, C69: voxel geometry. -/
namespace Tomopt

noncomputable section

variable {V : Volume} {s zb : ℝ} {nx ny nz : Nat} {mat : Nat → Nat → Nat → ℝ}

namespace C15

/-- the grid of a block whose bottom is a multiple of the voxel size -/
theorem edges_eq (h : Block V s zb nx ny nz mat) (k : ℤ) (hz : zb = k * s) :
    V.xyzEdges = .ok ((List.range nx).flatMap fun (ix : Nat) => (List.range ny).flatMap fun (iy : Nat) => (List.range nz).map fun (iz : Nat) =>
      ((ix : ℝ) * s, (iy : ℝ) * s, zb + iz * s)) := by
  have hs := h.pos.ne'
  have e1 : (nx : ℝ) * s / s = nx := by field_simp
  have e2 : (ny : ℝ) * s / s = ny := by field_simp
  have e3 : zb / s = k := by rw [hz]; field_simp
  have e4 : (zb + nz * s) / s = ((k + nz : ℤ) : ℝ) := by rw [hz]; push_cast; field_simp
  simp only [Volume.xyzEdges, h.lw_eq, h.size_eq, h.zRange_eq, bind, Except.bind, Volume.gridOf, e1, e2, e3, e4, pyRound_nat, pyRound_int,
    irange_nat, irange_shift, List.flatMap_map, List.map_map, Except.ok.injEq]
  congr 1; funext ix; congr 1; funext iy; congr 1; funext iz
  simp only [Function.comp, Prod.mk.injEq, Int.cast_natCast]
  refine ⟨by ring, by ring, ?_⟩
  push_cast; rw [hz]; ring

/-- **C15.** For a block whose bottom is a whole number of voxels above zero: `xyz_edges` has one row per voxel, row `(ix*ny + iy)*nz + iz` is the low
corner of voxel (ix, iy, iz) (so z is fastest and row 0 is the lowest corner), no row occurs twice, and every row index is of this form for exactly one
voxel. Centres are half a voxel further. -/
theorem edges_spec (h : Block V s zb nx ny nz mat) (k : ℤ) (hz : zb = k * s) :
    ∃ es, V.xyzEdges = .ok es ∧ es.length = nx * ny * nz ∧
      (∀ ix iy iz, ix < nx → iy < ny → iz < nz → es[(ix * ny + iy) * nz + iz]? = some ((ix : ℝ) * s, (iy : ℝ) * s, zb + iz * s)) ∧
      (∀ i < nx * ny * nz, ∃! v : Nat × Nat × Nat, v.1 < nx ∧ v.2.1 < ny ∧ v.2.2 < nz ∧ i = (v.1 * ny + v.2.1) * nz + v.2.2) ∧
      es.Nodup ∧ V.xyzCentres = .ok (es.map fun e => (e.1 + s / 2, e.2.1 + s / 2, e.2.2 + s / 2)) := by
  have hnz := h.nonempty
  have hin : ∀ ix : Nat, ((List.range ny).flatMap fun (iy : Nat) => (List.range nz).map fun (iz : Nat) =>
      ((ix : ℝ) * s, (iy : ℝ) * s, zb + iz * s)).length = ny * nz := fun ix =>
    flatMap_range_length nz _ (by simp) ny
  have hget : ∀ ix iy iz, ix < nx → iy < ny → iz < nz → ((List.range nx).flatMap fun (ix : Nat) => (List.range ny).flatMap fun (iy : Nat) =>
      (List.range nz).map fun (iz : Nat) => ((ix : ℝ) * s, (iy : ℝ) * s, zb + iz * s))[(ix * ny + iy) * nz + iz]? =
        some ((ix : ℝ) * s, (iy : ℝ) * s, zb + iz * s) := by
    intro ix iy iz h1 h2 h3
    have hlt : iy * nz + iz < ny * nz := by
      calc iy * nz + iz < iy * nz + nz := by omega
        _ = (iy + 1) * nz := by ring
        _ ≤ ny * nz := Nat.mul_le_mul_right nz h2
    rw [show (ix * ny + iy) * nz + iz = ix * (ny * nz) + (iy * nz + iz) by ring,
      flatMap_range_get (ny * nz) _ hin nx ix _ h1 hlt, flatMap_range_get nz _ (by simp) ny iy iz h2 h3]
    simp [h3]
  have hlen : ((List.range nx).flatMap fun (ix : Nat) => (List.range ny).flatMap fun (iy : Nat) =>
      (List.range nz).map fun (iz : Nat) => ((ix : ℝ) * s, (iy : ℝ) * s, zb + iz * s)).length = nx * ny * nz := by
    rw [flatMap_range_length (ny * nz) _ hin nx, Nat.mul_assoc]
  have huniq : ∀ i < nx * ny * nz, ∃! v : Nat × Nat × Nat, v.1 < nx ∧ v.2.1 < ny ∧ v.2.2 < nz ∧ i = (v.1 * ny + v.2.1) * nz + v.2.2 := by
    intro i hi
    have hny : 0 < ny := by
      rcases Nat.eq_zero_or_pos ny with h0 | h0
      · simp [h0] at hi
      · exact h0
    refine ⟨(i / nz / ny, i / nz % ny, i % nz), ⟨?_, Nat.mod_lt _ hny, Nat.mod_lt _ hnz, ?_⟩, ?_⟩
    · rw [Nat.div_div_eq_div_mul, Nat.div_lt_iff_lt_mul (by positivity)]
      calc i < nx * ny * nz := hi
        _ = nx * (nz * ny) := by ring
    · simp only
      rw [Nat.div_add_mod', Nat.div_add_mod']
    · rintro ⟨a, c, d⟩ ⟨_, h2, h3, rfl⟩
      simp only at h2 h3 ⊢
      have e1 : ((a * ny + c) * nz + d) / nz = a * ny + c := by
        rw [Nat.add_comm, Nat.add_mul_div_right _ _ hnz, Nat.div_eq_of_lt h3, Nat.zero_add]
      have e2 : ((a * ny + c) * nz + d) % nz = d := by
        rw [Nat.add_comm, Nat.add_mul_mod_self_right, Nat.mod_eq_of_lt h3]
      have e3 : (a * ny + c) / ny = a := by
        rw [Nat.add_comm, Nat.add_mul_div_right _ _ hny, Nat.div_eq_of_lt h2, Nat.zero_add]
      have e4 : (a * ny + c) % ny = c := by
        rw [Nat.add_comm, Nat.add_mul_mod_self_right, Nat.mod_eq_of_lt h2]
      rw [e1, e2, e3, e4]
  refine ⟨_, edges_eq h k hz, hlen, hget, huniq, ?_, ?_⟩
  · rw [List.nodup_iff_injective_getElem]
    intro ⟨i, hi⟩ ⟨j, hj⟩ hij
    simp only at hij
    rw [hlen] at hi hj
    obtain ⟨⟨a, c, d⟩, ⟨a1, a2, a3, ai⟩, _⟩ := huniq i hi
    obtain ⟨⟨a', c', d'⟩, ⟨b1, b2, b3, bj⟩, _⟩ := huniq j hj
    simp only at *
    have g1 := hget a c d a1 a2 a3
    have g2 := hget a' c' d' b1 b2 b3
    rw [← ai, List.getElem?_eq_getElem (by rw [hlen]; exact hi), hij] at g1
    rw [← bj, List.getElem?_eq_getElem (by rw [hlen]; exact hj)] at g2
    rw [g1] at g2
    have hs := h.pos
    simp only [Option.some.injEq, Prod.mk.injEq, mul_eq_mul_right_iff, Nat.cast_inj, hs.ne', or_false, add_right_inj] at g2
    obtain ⟨q1, q2, q3⟩ := g2
    simp only [Fin.mk.injEq]
    rw [ai, bj, q1, q2, q3]
  · simp only [Volume.xyzCentres, edges_eq h k hz, h.size_eq, bind, Except.bind]

/-- **Violated** when the bottom of the block is not a whole number of voxels above zero: three layers of one voxel of side 1 from 2.5 to 5.5 are
listed as four voxels, from 2 to 6 (python rounds halves to even), so there is a row for a voxel that does not exist and every edge is half a voxel off. -/
theorem edges_misaligned_violated : ∃ V : Volume, Block V 1 2.5 1 1 3 (fun _ _ _ => 1) ∧
    V.xyzEdges = .ok [(0, 0, 2), (0, 0, 3), (0, 0, 4), (0, 0, 5)] := by
  refine ⟨⟨[.passive ⟨(1, 1), 5.5, 1, 0.1, "pdg", some [[1]]⟩, .passive ⟨(1, 1), 4.5, 1, 0.1, "pdg", some [[1]]⟩,
    .passive ⟨(1, 1), 3.5, 1, 0.1, "pdg", some [[1]]⟩], none, [], []⟩, ?_, ?_⟩
  · refine ⟨by norm_num, rfl, by norm_num, ?_⟩
    intro i L hL
    simp only [Volume.passives, List.filterMap_cons, List.filterMap_nil] at hL
    match i, hL with
    | 0, hL => simp at hL; subst hL; norm_num
    | 1, hL => simp at hL; subst hL; norm_num
    | 2, hL => simp at hL; subst hL; norm_num
    | i + 3, hL => simp at hL
  · have r1 : pyRound 2.5 = 2 := by
      have : ⌊(2.5 : ℝ)⌋ = 2 := by rw [Int.floor_eq_iff]; norm_num
      simp only [pyRound, this]; norm_num
    have r2 : pyRound 5.5 = 6 := by
      have : ⌊(5.5 : ℝ)⌋ = 5 := by rw [Int.floor_eq_iff]; norm_num
      simp only [pyRound, this]; norm_num
    have r3 : pyRound 1 = 1 := by simpa using pyRound_nat 1
    have r4 : (3.5 : ℝ) - 1 = 2.5 := by norm_num
    simp only [Volume.xyzEdges, Volume.lw, Volume.passiveSize, Volume.zRange, Volume.passives, List.filterMap_cons, List.filterMap_nil,
      List.getLast?_cons_cons, List.getLast?_singleton, List.head?_cons, bind, Except.bind, Volume.gridOf, div_one, r1, r2, r3, r4]
    simp [irange, List.range_succ]

end C15

namespace C16

/-- **C16.** For any point in voxel (ix, iy, iz) of the block, look-up returns exactly these indices, and the cube of radiation lengths holds at
[iz][ix][iy] the material of that voxel, which is also what the passive layer containing the point holds in its cell (ix, iy). -/
theorem lookup_correct (h : Block V s zb nx ny nz mat) (qs : List (ℝ × ℝ × ℝ)) (vs : List (Nat × Nat × Nat))
    (hq : List.Forall₂ (fun q v => v.1 < nx ∧ v.2.1 < ny ∧ v.2.2 < nz ∧ InVoxel s zb q v.1 v.2.1 v.2.2) qs vs) :
    ∃ t, V.lookup qs = .ok (vs.map fun v => ((v.1 : ℤ), (v.2.1 : ℤ), (v.2.2 : ℤ)), t) := by
  have hs := h.pos
  simp only [Volume.lookup, h.lw_eq, h.zRange_eq, h.size_eq, bind, Except.bind]
  have hin : qs.any (Volume.outsideRow (nx * s, ny * s) (zb, zb + nz * s)) = false := by
    rw [List.any_eq_false]
    intro q hqm
    obtain ⟨i, hi, rfl⟩ := List.mem_iff_getElem.mp hqm
    have hi' : i < vs.length := by rw [← hq.length_eq]; exact hi
    obtain ⟨v1, v2, v3, w1, w2, w3, w4, w5, w6⟩ := (List.forall₂_iff_get.mp hq).2 i hi hi'
    simp only [List.get_eq_getElem] at *
    have c1 : ((vs[i].1 : ℝ) + 1) * s ≤ nx * s := mul_le_mul_of_nonneg_right (by exact_mod_cast v1) hs.le
    have c2 : ((vs[i].2.1 : ℝ) + 1) * s ≤ ny * s := mul_le_mul_of_nonneg_right (by exact_mod_cast v2) hs.le
    have c3 : ((vs[i].2.2 : ℝ) + 1) * s ≤ nz * s := mul_le_mul_of_nonneg_right (by exact_mod_cast v3) hs.le
    have d1 : 0 ≤ (vs[i].1 : ℝ) * s := by positivity
    have d2 : 0 ≤ (vs[i].2.1 : ℝ) * s := by positivity
    have d3 : 0 ≤ (vs[i].2.2 : ℝ) * s := by positivity
    simp only [Volume.outsideRow, Bool.or_eq_true, decide_eq_true_eq, gt_iff_lt, not_or, not_lt]
    refine ⟨⟨⟨⟨⟨by linarith, by linarith⟩, by linarith⟩, by linarith⟩, by linarith⟩, by linarith⟩
  rw [hin]
  refine ⟨qs.map fun q => (q.1, q.2.1, q.2.2 - zb), ?_⟩
  simp only [Bool.false_eq_true, if_false, Except.ok.injEq, Prod.mk.injEq, List.map_map, and_true]
  clear hin
  induction hq with
  | nil => rfl
  | @cons q v qs vs hv _ ih =>
    obtain ⟨_, _, _, w1, w2, w3, w4, w5, w6⟩ := hv
    simp only [List.map_cons, List.cons.injEq]
    refine ⟨?_, ih⟩
    simp only [Function.comp, Prod.mk.injEq]
    exact ⟨floor_voxel s _ hs _ w1 w2, floor_voxel s _ hs _ w3 w4, floor_voxel s _ hs _ (by linarith) (by linarith)⟩

theorem cube_correct (h : Block V s zb nx ny nz mat) :
    ∃ cube, V.radCube = .ok cube ∧ cube.length = nz ∧
      ∀ ix iy iz, ix < nx → iy < ny → iz < nz → ∃ lay col, cube[iz]? = some lay ∧ lay[ix]? = some col ∧ col[iy]? = some (mat iz ix iy) := by
  have hsome : V.passives.reverse.filterMap (·.radLength) = V.passives.reverse.map fun L => L.radLength.getD [] := by
    rw [← List.filterMap_eq_map]
    apply List.filterMap_congr
    intro L hL
    obtain ⟨i, hi⟩ := List.mem_iff_getElem?.mp (List.mem_reverse.mp hL)
    obtain ⟨_, _, _, cube, hc, _⟩ := h.layer i L hi
    simp [hc]
  have hn := h.nonempty
  refine ⟨V.passives.reverse.map fun L => L.radLength.getD [], ?_, by simp [h.count], ?_⟩
  · simp only [Volume.radCube, hsome, List.length_reverse, List.length_map, h.count]
    rw [if_neg (by omega), if_pos (by omega)]
  · intro ix iy iz h1 h2 h3
    have hl : nz - 1 - iz < V.passives.length := by rw [h.count]; omega
    obtain ⟨_, _, _, cube, hc, _, hcol⟩ := h.layer (nz - 1 - iz) (V.passives[nz - 1 - iz]) (List.getElem?_eq_getElem hl)
    obtain ⟨col, hcol1, _, hcol2⟩ := hcol ix h1
    refine ⟨cube, col, ?_, hcol1, ?_⟩
    · rw [List.getElem?_map, List.getElem?_reverse (by rw [h.count]; exact h3), h.count, List.getElem?_eq_getElem hl]
      simp [hc]
    · rw [hcol2 iy h2, show nz - 1 - (nz - 1 - iz) = iz by omega]

/-- The passive layer containing the voxel holds the same material in the same cell. -/
theorem layer_agrees (h : Block V s zb nx ny nz mat) (i : Nat) (L : PassiveLayer) (hL : V.passives[i]? = some L) (q : ℝ × ℝ × ℝ)
    (hz : L.z - L.size ≤ q.2.2 ∧ q.2.2 < L.z) (ix iy : Nat) (hx : ix < nx) (hy : iy < ny)
    (hxy : ix * s ≤ q.1 ∧ q.1 < (ix + 1) * s ∧ iy * s ≤ q.2.1 ∧ q.2.1 < (iy + 1) * s) :
    InVoxel s zb q ix iy (nz - 1 - i) ∧ ∃ cube col, L.radLength = some cube ∧ cube[ix]? = some col ∧ col[iy]? = some (mat (nz - 1 - i) ix iy) := by
  obtain ⟨h1, _, h3, cube, hc, _, hcol⟩ := h.layer i L hL
  obtain ⟨col, e1, _, e2⟩ := hcol ix hx
  have hi : i < nz := by rw [← h.count]; exact (List.getElem?_eq_some_iff.mp hL).1
  refine ⟨⟨hxy.1, hxy.2.1, hxy.2.2.1, hxy.2.2.2, ?_, ?_⟩, cube, col, hc, e1, e2 iy hy⟩
  · have : ((nz - i : ℕ) : ℝ) = ((nz - 1 - i : ℕ) : ℝ) + 1 := by
      have : nz - i = (nz - 1 - i) + 1 := by omega
      rw [this]; push_cast; ring
    rw [h3, h1, this] at hz
    nlinarith [hz.1]
  · have : ((nz - i : ℕ) : ℝ) = ((nz - 1 - i : ℕ) : ℝ) + 1 := by
      have : nz - i = (nz - 1 - i) + 1 := by omega
      rw [this]; push_cast; ring
    rw [h3, this] at hz
    exact hz.2

/-- witness used by the examples: two layers of 2 by 1 voxels of side 1 over a detector of height 3 -/
def demo : Volume := ⟨[.passive ⟨(2, 1), 5, 1, 0.1, "pdg", some [[10], [11]]⟩, .passive ⟨(2, 1), 4, 1, 0.1, "pdg", some [[20], [21]]⟩,
  .detector ⟨"below", (2, 1), 3, 3, []⟩], none, [], []⟩

def demoMat (iz ix _iy : Nat) : ℝ := if iz = 0 then (if ix = 0 then 20 else 21) else (if ix = 0 then 10 else 11)

theorem demo_block : Block demo 1 3 2 1 2 demoMat := by
  refine ⟨by norm_num, rfl, by norm_num, ?_⟩
  intro i L hL
  simp only [demo, Volume.passives, List.filterMap_cons, List.filterMap_nil] at hL
  have key : ∀ ix : Nat, ix < 2 → ix = 0 ∨ ix = 1 := by omega
  match i, hL with
  | 0, hL =>
    simp at hL; subst hL
    refine ⟨rfl, by norm_num, by norm_num, _, rfl, rfl, ?_⟩
    intro ix hx
    rcases key ix hx with rfl | rfl <;> simp [demoMat]
  | 1, hL =>
    simp at hL; subst hL
    refine ⟨rfl, by norm_num, by norm_num, _, rfl, rfl, ?_⟩
    intro ix hx
    rcases key ix hx with rfl | rfl <;> simp [demoMat]
  | i + 2, hL => simp at hL

/-- Non-vacuity (C15, C16): the demo volume is a block, a point in its upper right voxel. -/
example : Block demo 1 3 2 1 2 demoMat ∧ (3 : ℝ) = ((3 : ℤ) : ℝ) * 1 ∧
    ∃ t, demo.lookup [(1.5, 0.5, 4.5)] = .ok ([(1, 0, 1)], t) := by
  refine ⟨demo_block, by norm_num, ?_⟩
  simpa using lookup_correct demo_block [(1.5, 0.5, 4.5)] [(1, 0, 1)] (.cons ⟨by norm_num, by norm_num, by norm_num, by
    simp only [InVoxel]; norm_num⟩ .nil)

end C16

namespace C17

/-- **C17, what holds**: a tensor all of whose points are inside or outside strictly: if some point is outside it is a ValueError, and if all
points are in the half-open block the indices are in range. Missing: points exactly on the high faces (see below). -/
theorem lookup_in_range_partial (h : Block V s zb nx ny nz mat) (qs : List (ℝ × ℝ × ℝ)) :
    ((∃ q ∈ qs, q.1 < 0 ∨ nx * s < q.1 ∨ q.2.1 < 0 ∨ ny * s < q.2.1 ∨ q.2.2 < zb ∨ zb + nz * s < q.2.2) →
      V.lookup qs = .error .valueError) ∧
    ((∀ q ∈ qs, 0 ≤ q.1 ∧ q.1 < nx * s ∧ 0 ≤ q.2.1 ∧ q.2.1 < ny * s ∧ zb ≤ q.2.2 ∧ q.2.2 < zb + nz * s) →
      ∃ idx t, V.lookup qs = .ok (idx, t) ∧ idx.length = qs.length ∧
        ∀ v ∈ idx, 0 ≤ v.1 ∧ v.1 < nx ∧ 0 ≤ v.2.1 ∧ v.2.1 < ny ∧ 0 ≤ v.2.2 ∧ v.2.2 < nz) := by
  have hs := h.pos
  constructor
  · rintro ⟨q, hq, hout⟩
    simp only [Volume.lookup, h.lw_eq, h.zRange_eq, h.size_eq, bind, Except.bind]
    rw [if_pos]
    rw [List.any_eq_true]
    refine ⟨q, hq, ?_⟩
    simp only [Volume.outsideRow, Bool.or_eq_true, decide_eq_true_eq, gt_iff_lt]
    tauto
  · intro hall
    simp only [Volume.lookup, h.lw_eq, h.zRange_eq, h.size_eq, bind, Except.bind]
    rw [if_neg]
    · refine ⟨_, _, rfl, by simp, ?_⟩
      intro v hv
      simp only [List.map_map, List.mem_map, Function.comp] at hv
      obtain ⟨q, hq, rfl⟩ := hv
      obtain ⟨w1, w2, w3, w4, w5, w6⟩ := hall q hq
      have fl : ∀ (x : ℝ) (n : ℕ), 0 ≤ x → x < n * s → 0 ≤ ⌊x / s⌋ ∧ ⌊x / s⌋ < n := by
        intro x n h0 h1
        refine ⟨Int.floor_nonneg.mpr (by positivity), ?_⟩
        rw [Int.floor_lt, div_lt_iff₀ hs]
        simpa using h1
      obtain ⟨a1, a2⟩ := fl _ nx w1 w2
      obtain ⟨b1, b2⟩ := fl _ ny w3 w4
      obtain ⟨c1, c2⟩ := fl (q.2.2 - zb) nz (by linarith) (by linarith)
      exact ⟨a1, a2, b1, b2, c1, c2⟩
    · rw [Bool.not_eq_true, List.any_eq_false]
      intro q hq
      obtain ⟨w1, w2, w3, w4, w5, w6⟩ := hall q hq
      simp only [Volume.outsideRow, Bool.or_eq_true, decide_eq_true_eq, gt_iff_lt, not_or, not_lt]
      refine ⟨⟨⟨⟨⟨by linarith, by linarith⟩, by linarith⟩, by linarith⟩, by linarith⟩, by linarith⟩

/-- **Violated** on the high faces, for every block: a point exactly at the far x side (or y side, or at the top) is accepted and gets an index one past
the last voxel. -/
theorem high_face_violated (h : Block V s zb nx ny nz mat) :
    (∃ t, V.lookup [((nx : ℝ) * s, 0, zb)] = .ok ([((nx : ℤ), 0, 0)], t)) ∧
    (∃ t, V.lookup [(0, (ny : ℝ) * s, zb)] = .ok ([(0, (ny : ℤ), 0)], t)) ∧
    (∃ t, V.lookup [(0, 0, zb + nz * s)] = .ok ([(0, 0, (nz : ℤ))], t)) := by
  have hs := h.pos
  have e : ∀ n : ℕ, ⌊(n : ℝ) * s / s⌋ = n := by
    intro n
    rw [mul_div_cancel_right₀ _ hs.ne']; simp
  have hx : 0 ≤ (nx : ℝ) * s := by positivity
  have hy : 0 ≤ (ny : ℝ) * s := by positivity
  have hz : 0 ≤ (nz : ℝ) * s := by positivity
  simp only [Volume.lookup, h.lw_eq, h.zRange_eq, h.size_eq, bind, Except.bind]
  refine ⟨⟨[((nx : ℝ) * s, 0, 0)], ?_⟩, ⟨[(0, (ny : ℝ) * s, 0)], ?_⟩, ⟨[(0, 0, (nz : ℝ) * s)], ?_⟩⟩
  · rw [if_neg]
    · simp only [List.map_cons, List.map_nil, e, sub_self, zero_div, Int.floor_zero]
    · simp [Volume.outsideRow, hx, hy, hz]
  · rw [if_neg]
    · simp only [List.map_cons, List.map_nil, e, sub_self, zero_div, Int.floor_zero]
    · simp [Volume.outsideRow, hx, hy, hz]
  · rw [if_neg]
    · simp only [List.map_cons, List.map_nil, add_sub_cancel_left, e, zero_div, Int.floor_zero]
    · simp [Volume.outsideRow, hx, hy, hz]

example : ∃ t, C16.demo.lookup [(2, 0, 3)] = .ok ([(2, 0, 0)], t) := by
  have := (high_face_violated C16.demo_block).1
  simpa using this

end C17

namespace C18

/-- **Violated.** Looking up a non-empty tensor in a block whose bottom is above zero changes the caller's tensor: the heights are lowered by the
height of the block's bottom. -/
theorem argument_changed_violated (h : Block V s zb nx ny nz mat) (hz : zb ≠ 0) (qs : List (ℝ × ℝ × ℝ)) (hne : qs ≠ []) (idx t)
    (hl : V.lookup qs = .ok (idx, t)) : t = qs.map (fun q => (q.1, q.2.1, q.2.2 - zb)) ∧ t ≠ qs := by
  simp only [Volume.lookup, h.lw_eq, h.zRange_eq, h.size_eq, bind, Except.bind] at hl
  split at hl
  · simp at hl
  · simp only [Except.ok.injEq, Prod.mk.injEq] at hl
    obtain ⟨_, rfl⟩ := hl
    refine ⟨rfl, ?_⟩
    cases qs with
    | nil => exact absurd rfl hne
    | cons q qs =>
      intro he
      simp only [List.map_cons, List.cons.injEq] at he
      have := congrArg (fun x => x.2.2) he.1
      simp at this
      exact hz this

/-- **Violated.** So repeating the look-up with the same tensor gives a different answer: here the second call raises. -/
theorem repeat_violated : ∃ V : Volume, ∃ qs idx t, V.lookup qs = .ok (idx, t) ∧ V.lookup t = .error .valueError := by
  refine ⟨C16.demo, [(1.5, 0.5, 4.5)], [(1, 0, 1)], [(1.5, 0.5, 1.5)], ?_, ?_⟩
  · have h := C16.lookup_correct C16.demo_block [(1.5, 0.5, 4.5)] [(1, 0, 1)] (.cons ⟨by norm_num, by norm_num, by norm_num, by
      simp only [InVoxel]; norm_num⟩ .nil)
    obtain ⟨t, ht⟩ := h
    have h2 := (argument_changed_violated C16.demo_block (by norm_num) _ (by simp) _ _ ht).1
    rw [ht, h2]
    norm_num
  · apply (C17.lookup_in_range_partial C16.demo_block _).1
    refine ⟨(1.5, 0.5, 1.5), by simp, ?_⟩
    norm_num

/-- **C18, what holds**: with the bottom at zero the tensor keeps its values, and looking it up again gives the same answer. Missing: every other block. -/
theorem bottom_zero_partial (h : Block V s 0 nx ny nz mat) (qs : List (ℝ × ℝ × ℝ)) (idx t) (hl : V.lookup qs = .ok (idx, t)) :
    t = qs ∧ V.lookup t = .ok (idx, t) := by
  have ht : t = qs := by
    simp only [Volume.lookup, h.lw_eq, h.zRange_eq, h.size_eq, bind, Except.bind] at hl
    split at hl
    · simp at hl
    · simp only [Except.ok.injEq, Prod.mk.injEq] at hl
      rw [← hl.2]
      simp
  exact ⟨ht, by rw [ht] at hl ⊢; exact hl⟩

example : ∃ V : Volume, Block V 1 0 1 1 1 (fun _ _ _ => 5) := by
  refine ⟨⟨[.passive ⟨(1, 1), 1, 1, 0.1, "pdg", some [[5]]⟩], none, [], []⟩, by norm_num, rfl, by norm_num, ?_⟩
  intro i L hL
  simp only [Volume.passives, List.filterMap_cons, List.filterMap_nil] at hL
  match i, hL with
  | 0, hL => simp at hL; subst hL; norm_num
  | i + 1, hL => simp at hL

end C18

end

end Tomopt
