import Verif.Props.C113

/- C115: looking up the voxel of a position in the volume, with floating-point rounding. -/
namespace Tomopt

noncomputable section
open Floats

namespace C115

variable (p : Nat) (hp : 1 ≤ p) (fl : ℝ → ℝ) (hf : Nearest p fl) (s : ℝ) (hs : 0 < s)

include hp hf hs

/-- one coordinate: a position that is a little away from the faces of a voxel -/
theorem coord (k : ℤ) (hk : 0 ≤ k) (hkp : k + 1 ≤ 2 ^ p) (y : ℝ) (h1 : (k + 2 * (k + 1) / 2 ^ p) * s ≤ y) (h2 : y ≤ (k + 1 - 2 * (k + 1) / 2 ^ p) * s) : ⌊fl (y / fl s)⌋ = k := by
  have hk' : (0 : ℝ) ≤ k := by exact_mod_cast hk
  set ε : ℝ := 1 / 2 ^ p with hε
  have e0 : 0 < ε := by positivity
  have e1 : ε ≤ 1 / 2 := by
    rw [hε]
    refine one_div_le_one_div_of_le (by norm_num) ?_
    calc (2 : ℝ) = 2 ^ 1 := by norm_num
      _ ≤ 2 ^ p := pow_le_pow_right₀ (by norm_num) hp
  have ee : 2 * ((k : ℝ) + 1) / 2 ^ p = 2 * (k + 1) * ε := by rw [hε]; ring
  rw [ee] at h1 h2
  have hr := nearest_rel p p hp (le_refl _) fl hf s
  rw [abs_of_pos hs, ← hε, abs_le] at hr
  have t0 : 0 < fl s := by nlinarith
  have hkf : IsFloat p (k : ℝ) := isFloat_int p k (by rw [abs_of_nonneg hk]; omega)
  rw [Int.floor_eq_iff]
  constructor
  · refine nearest_ge p fl hf _ _ hkf ?_
    rw [le_div_iff₀ t0]
    have : (k : ℝ) * fl s ≤ k * (s * (1 + ε)) := mul_le_mul_of_nonneg_left (by linarith [hr.2]) hk'
    have : 0 ≤ (k * ε + 2 * ε) * s := by positivity
    nlinarith
  · have hq := nearest_rel p p hp (le_refl _) fl hf (y / fl s)
    have hy : 0 ≤ y := le_trans (by positivity) h1
    rw [abs_of_nonneg (div_nonneg hy t0.le), ← hε, abs_le] at hq
    have hb : y / fl s * (1 + ε) < k + 1 := by
      rw [div_mul_eq_mul_div, div_lt_iff₀ t0]
      have a1 : y * (1 + ε) ≤ (k + 1 - 2 * (k + 1) * ε) * s * (1 + ε) := mul_le_mul_of_nonneg_right h2 (by linarith)
      have a2 : ((k : ℝ) + 1) * (s * (1 - ε)) ≤ (k + 1) * fl s := mul_le_mul_of_nonneg_left (by linarith [hr.1]) (by linarith)
      have a3 : 0 < (k + 1) * (ε * ε) * s := by positivity
      nlinarith
    linarith [hq.2]

variable (flw : ℝ → ℝ) (pw : Nat) (hpw : p ≤ pw) (hw : Nearest pw flw)

include hpw hw

/-- **C115: look-up.** A volume with `nx` by `ny` voxels of size `s` per layer and layers from the `K0`-th to the `K1`-th multiple of the size; side lengths and heights of the layers are rounded, and so are the size
and all results of the look-up. Every position whose distance to the faces of its voxel is at least `8 * N / 2^p` of the size is looked up as this voxel, where `N` is the largest of the numbers. -/
theorem interior (nx ny K0 K1 N i j K : ℤ) (hN : nx ≤ N ∧ ny ≤ N ∧ K1 ≤ N) (hNp : 16 * N ≤ 2 ^ p) (hi : 0 ≤ i ∧ i < nx) (hj : 0 ≤ j ∧ j < ny) (hK : 0 ≤ K0 ∧ K0 ≤ K ∧ K < K1) (x y z : ℝ)
    (hx : (i + 8 * N / 2 ^ p) * s ≤ x ∧ x ≤ (i + 1 - 8 * N / 2 ^ p) * s) (hy : (j + 8 * N / 2 ^ p) * s ≤ y ∧ y ≤ (j + 1 - 8 * N / 2 ^ p) * s)
    (hz : (K + 8 * N / 2 ^ p) * s ≤ z ∧ z ≤ (K + 1 - 8 * N / 2 ^ p) * s) :
    Volume.lookupRowFl fl (flw (nx * s), flw (ny * s)) (Volume.zRangeFl fl (flw ((K0 + 1) * s)) (flw (K1 * s)) (fl s)) (fl s) (x, y, z) = .ok (i, j, K - K0) := by
  have hpp : (0 : ℝ) < 2 ^ p := by positivity
  have key : ∀ (n k : ℤ) (v : ℝ), n ≤ N → 0 ≤ k → k < n → (k + 8 * N / 2 ^ p) * s ≤ v → v ≤ (k + 1 - 8 * N / 2 ^ p) * s → 0 ≤ v ∧ v ≤ flw (n * s) ∧ ⌊fl (v / fl s)⌋ = k := by
    intro n k v hn h0 h1 hv1 hv2
    have h0' : (0 : ℝ) ≤ k := by exact_mod_cast h0
    have h1' : (k : ℝ) + 1 ≤ n := by exact_mod_cast h1
    have hn' : (n : ℝ) ≤ N := by exact_mod_cast hn
    have hd : 2 * ((k : ℝ) + 1) / 2 ^ p ≤ 8 * N / 2 ^ p := div_le_div_of_nonneg_right (by linarith) hpp.le
    have hr := nearest_rel p pw hp hpw flw hw (n * s)
    have hns : (0 : ℝ) ≤ n * s := mul_nonneg (by linarith) hs.le
    rw [abs_of_nonneg hns, abs_le] at hr
    refine ⟨le_trans (mul_nonneg (add_nonneg h0' (div_nonneg (by linarith) hpp.le)) hs.le) hv1, ?_, ?_⟩
    · have a1 : 1 / 2 ^ p * (n * s) ≤ 8 * N / 2 ^ p * s := by
        have : (1 : ℝ) / 2 ^ p * n ≤ 8 * N / 2 ^ p := by
          rw [div_mul_eq_mul_div, one_mul]
          exact div_le_div_of_nonneg_right (by linarith) hpp.le
        have := mul_le_mul_of_nonneg_right this hs.le
        linarith
      have a2 : ((k : ℝ) + 1) * s ≤ n * s := mul_le_mul_of_nonneg_right h1' hs.le
      linarith [hr.1]
    · refine coord p hp fl hf s hs k h0 (by omega) v (le_trans (mul_le_mul_of_nonneg_right (by linarith) hs.le) hv1) (le_trans hv2 (mul_le_mul_of_nonneg_right (by linarith) hs.le))
  obtain ⟨x0, x1, x2⟩ := key nx i x hN.1 hi.1 hi.2 hx.1 hx.2
  obtain ⟨y0, y1, y2⟩ := key ny j y hN.2.1 hj.1 hj.2 hy.1 hy.2
  obtain ⟨-, z1, -⟩ := key K1 K z hN.2.2 (by omega) hK.2.2 hz.1 hz.2
  have k0 : (0 : ℝ) ≤ K0 := by exact_mod_cast hK.1
  have k1 : (K0 : ℝ) ≤ K := by exact_mod_cast hK.2.1
  have k2 : (K : ℝ) + 1 ≤ N := by exact_mod_cast (show K + 1 ≤ N by omega)
  have hN16 : (16 : ℝ) * N ≤ 2 ^ p := by exact_mod_cast hNp
  set ε : ℝ := 1 / 2 ^ p with hε
  have e0 : 0 < ε := by positivity
  have eN : N * ε ≤ 1 / 16 := by
    rw [hε, mul_one_div, div_le_iff₀ hpp]
    linarith
  have e16 : ε ≤ 1 / 16 := by nlinarith
  have e8 : 8 * (N : ℝ) / 2 ^ p = 8 * (N * ε) := by rw [hε]; ring
  rw [e8] at hz
  -- the bottom of the passive volume
  have hb1 := nearest_rel p pw hp hpw flw hw ((K0 + 1) * s)
  rw [abs_of_nonneg (by positivity : 0 ≤ ((K0 : ℝ) + 1) * s), ← hε, abs_le] at hb1
  have hb2 := nearest_rel p p hp (le_refl _) fl hf s
  rw [abs_of_pos hs, ← hε, abs_le] at hb2
  have hb3 := nearest_rel p p hp (le_refl _) fl hf (flw ((K0 + 1) * s) - fl s)
  rw [← hε] at hb3
  set zB := flw ((K0 + 1) * s) with hzB
  have eK0 : K0 * ε ≤ N * ε := mul_le_mul_of_nonneg_right (by linarith) e0.le
  have hd1 : |zB - fl s - K0 * s| ≤ ε * ((K0 + 2) * s) := by
    rw [abs_le]
    constructor <;> linarith [hb1.1, hb1.2, hb2.1, hb2.2]
  have hd2 : |zB - fl s| ≤ (K0 + 1 / 4) * s := by
    have : ε * ((K0 + 2) * s) ≤ 1 / 4 * s := by
      have : (K0 * ε + 2 * ε) * s ≤ 1 / 4 * s := mul_le_mul_of_nonneg_right (by linarith) hs.le
      linarith
    have h3 : |(K0 : ℝ) * s| = K0 * s := abs_of_nonneg (by positivity)
    have := abs_add_le (zB - fl s - K0 * s) (K0 * s)
    rw [sub_add_cancel, h3] at this
    linarith
  have hd3 : |fl (zB - fl s) - K0 * s| ≤ ε * ((2 * K0 + 9 / 4) * s) := by
    have h4 := mul_le_mul_of_nonneg_left hd2 e0.le
    have := abs_add_le (fl (zB - fl s) - (zB - fl s)) (zB - fl s - K0 * s)
    rw [sub_add_sub_cancel] at this
    linarith
  set z0 := fl (zB - fl s) with hz0
  rw [abs_le] at hd3
  -- the difference
  have hdz := nearest_rel p p hp (le_refl _) fl hf (z - z0)
  rw [← hε] at hdz
  have hNK : (K : ℝ) * ε + ε ≤ N * ε := by
    have := mul_le_mul_of_nonneg_right k2 e0.le
    linarith
  have hKK : (K0 : ℝ) * ε ≤ K * ε := mul_le_mul_of_nonneg_right k1 e0.le
  have hK0e : 0 ≤ (K0 : ℝ) * ε := by positivity
  have s1 : z - z0 ≤ (K - K0 + 1 - 8 * (N * ε) + (2 * K0 + 9 / 4) * ε) * s := by linarith [hd3.1, hz.2]
  have s2 : (K - K0 + 8 * (N * ε) - (2 * K0 + 9 / 4) * ε) * s ≤ z - z0 := by linarith [hd3.2, hz.1]
  have c1 : (K - K0 + 1 - 8 * (N * ε) + (2 * K0 + 9 / 4) * ε) * s ≤ (K - K0 + 1) * s := mul_le_mul_of_nonneg_right (by linarith) hs.le
  have c2 : 0 ≤ z - z0 := le_trans (mul_nonneg (by linarith) hs.le) s2
  rw [abs_of_nonneg c2, abs_le] at hdz
  have c3 : ε * (z - z0) ≤ ε * ((K - K0 + 1) * s) := mul_le_mul_of_nonneg_left (by linarith) e0.le
  have hzf : ⌊fl (fl (z - z0) / fl s)⌋ = K - K0 := by
    refine coord p hp fl hf s hs (K - K0) (by omega) (by omega) _ ?_ ?_
    · have : 2 * (((K - K0 : ℤ) : ℝ) + 1) / 2 ^ p = 2 * (K - K0 + 1) * ε := by rw [hε]; push_cast; ring
      rw [this]
      push_cast
      have : (K - K0 + 2 * (K - K0 + 1) * ε) * s ≤ (K - K0 + 8 * (N * ε) - (2 * K0 + 9 / 4) * ε - ε * (K - K0 + 1)) * s := mul_le_mul_of_nonneg_right (by linarith) hs.le
      linarith [hdz.1]
    · have : 2 * (((K - K0 : ℤ) : ℝ) + 1) / 2 ^ p = 2 * (K - K0 + 1) * ε := by rw [hε]; push_cast; ring
      rw [this]
      push_cast
      have : (K - K0 + 1 - 8 * (N * ε) + (2 * K0 + 9 / 4) * ε + ε * (K - K0 + 1)) * s ≤ (K - K0 + 1 - 2 * (K - K0 + 1) * ε) * s := mul_le_mul_of_nonneg_right (by linarith) hs.le
      linarith [hdz.2]
  unfold Volume.lookupRowFl Volume.zRangeFl
  rw [if_neg]
  · simp only [x2, y2]
    rw [← hz0, hzf]
  · simp only [Volume.outsideRow, Bool.or_eq_true, decide_eq_true_eq]
    rw [← hz0]
    rintro (((((h | h) | h) | h) | h) | h) <;> linarith

omit hpw hw flw pw in
/-- the reported centre of a voxel is close to its centre -/
theorem centre_close (fl64 : ℝ → ℝ) (p64 : Nat) (hp64 : p ≤ p64) (h64 : Nearest p64 fl64) (N k : ℤ) (hNp : 32 * N ≤ 2 ^ p) (h0 : 0 ≤ k) (h1 : k < N) :
    (k + 8 * N / 2 ^ p) * s ≤ Volume.centreFl fl fl64 s k ∧ Volume.centreFl fl fl64 s k ≤ (k + 1 - 8 * N / 2 ^ p) * s := by
  have hpp : (0 : ℝ) < 2 ^ p := by positivity
  have h0' : (0 : ℝ) ≤ k := by exact_mod_cast h0
  have h1' : (k : ℝ) + 1 ≤ N := by exact_mod_cast h1
  have hN32 : (32 : ℝ) * N ≤ 2 ^ p := by exact_mod_cast hNp
  have a := nearest_rel p p64 hp hp64 fl64 h64 (s * k)
  have b := nearest_rel p p hp (le_refl _) fl hf (fl64 (s * k))
  have c := nearest_rel p p64 hp hp64 fl64 h64 (s / 2)
  have d := nearest_rel p p hp (le_refl _) fl hf (fl64 (s / 2))
  have e := nearest_rel p p hp (le_refl _) fl hf (Volume.edgeFl fl fl64 s k + fl (fl64 (s / 2)))
  unfold Volume.centreFl
  unfold Volume.edgeFl at e ⊢
  set ε : ℝ := 1 / 2 ^ p with hε
  have e0 : 0 < ε := by positivity
  have e8 : 8 * (N : ℝ) / 2 ^ p = 8 * (N * ε) := by rw [hε]; ring
  rw [e8]
  have eN : N * ε ≤ 1 / 32 := by
    rw [hε, mul_one_div, div_le_iff₀ hpp]
    linarith
  have hke : (k : ℝ) * ε + ε ≤ N * ε := by
    have := mul_le_mul_of_nonneg_right h1' e0.le
    linarith
  have hk0 : 0 ≤ (k : ℝ) * ε := by positivity
  have e32 : ε ≤ 1 / 32 := by linarith
  rw [abs_of_nonneg (by positivity : 0 ≤ s * (k : ℝ)), abs_le] at a
  rw [abs_of_pos (by positivity : 0 < s / 2), abs_le] at c
  have ksn : 0 ≤ (k : ℝ) * s := by positivity
  have a0 : 0 ≤ fl64 (s * k) := by
    have : ε * (s * k) ≤ 1 / 32 * (s * k) := mul_le_mul_of_nonneg_right e32 (by positivity)
    linarith [a.1]
  have c0 : 0 ≤ fl64 (s / 2) := by
    have : ε * (s / 2) ≤ 1 / 32 * (s / 2) := mul_le_mul_of_nonneg_right e32 (by positivity)
    linarith [c.1]
  rw [abs_of_nonneg a0, abs_le] at b
  rw [abs_of_nonneg c0, abs_le] at d
  have b0 : 0 ≤ fl (fl64 (s * k)) := by
    have := mul_le_mul_of_nonneg_right e32 a0
    linarith [b.1]
  have d0 : 0 ≤ fl (fl64 (s / 2)) := by
    have := mul_le_mul_of_nonneg_right e32 c0
    linarith [d.1]
  rw [abs_of_nonneg (add_nonneg b0 d0), abs_le] at e
  set u := fl (fl64 (s * k))
  set v := fl (fl64 (s / 2))
  set r := fl64 (s * k)
  set q := fl64 (s / 2)
  -- upper and lower bounds of everything by the exact values
  have r1 : r ≤ k * s * (1 + ε) := by linarith [a.2]
  have r2 : k * s * (1 - ε) ≤ r := by linarith [a.1]
  have q1 : q ≤ s / 2 * (1 + ε) := by linarith [c.2]
  have q2 : s / 2 * (1 - ε) ≤ q := by linarith [c.1]
  have u1 : u ≤ k * s * (1 + ε) * (1 + ε) := by
    have := mul_le_mul_of_nonneg_right r1 (show 0 ≤ 1 + ε by linarith)
    linarith [b.2]
  have u2 : k * s * (1 - ε) * (1 - ε) ≤ u := by
    have := mul_le_mul_of_nonneg_right r2 (show 0 ≤ 1 - ε by linarith)
    linarith [b.1]
  have v1 : v ≤ s / 2 * (1 + ε) * (1 + ε) := by
    have := mul_le_mul_of_nonneg_right q1 (show 0 ≤ 1 + ε by linarith)
    linarith [d.2]
  have v2 : s / 2 * (1 - ε) * (1 - ε) ≤ v := by
    have := mul_le_mul_of_nonneg_right q2 (show 0 ≤ 1 - ε by linarith)
    linarith [d.1]
  have t1 : fl (u + v) ≤ (k + 1 / 2) * s * ((1 + ε) * (1 + ε) * (1 + ε)) := by
    have := mul_le_mul_of_nonneg_right (add_le_add u1 v1) (show 0 ≤ 1 + ε by linarith)
    linarith [e.2]
  have t2 : (k + 1 / 2) * s * ((1 - ε) * (1 - ε) * (1 - ε)) ≤ fl (u + v) := by
    have := mul_le_mul_of_nonneg_right (add_le_add u2 v2) (show 0 ≤ 1 - ε by linarith)
    linarith [e.1]
  have ee : ε * ε ≤ ε * (1 / 32) := mul_le_mul_of_nonneg_left e32 e0.le
  have ee0 : 0 ≤ ε * ε := by positivity
  have eee : ε * ε * ε ≤ ε * (1 / 32) := by
    have := mul_le_mul_of_nonneg_left e32 ee0
    linarith
  have p1 : (1 + ε) * (1 + ε) * (1 + ε) ≤ 1 + 4 * ε := by linarith
  have p2 : 1 - 4 * ε ≤ (1 - ε) * (1 - ε) * (1 - ε) := by linarith
  have hks : 0 ≤ ((k : ℝ) + 1 / 2) * s := by positivity
  have t3 := mul_le_mul_of_nonneg_left p1 hks
  have t4 := mul_le_mul_of_nonneg_left p2 hks
  constructor
  · have : ((k : ℝ) + 8 * (N * ε)) * s ≤ (k + 1 / 2) * (1 - 4 * ε) * s := mul_le_mul_of_nonneg_right (by linarith) hs.le
    linarith
  · have : ((k : ℝ) + 1 / 2) * (1 + 4 * ε) * s ≤ (k + 1 - 8 * (N * ε)) * s := mul_le_mul_of_nonneg_right (by linarith) hs.le
    linarith

/-- **C115: centres.** In particular, the centre of a voxel as the volume reports it — its low edge and half of the size are rounded, and so is their sum — is looked up as this voxel, for up to `2^p / 32` voxels. -/
theorem centres (fl64 : ℝ → ℝ) (p64 : Nat) (hp64 : p ≤ p64) (h64 : Nearest p64 fl64) (nx ny K0 K1 N i j K : ℤ) (hN : nx ≤ N ∧ ny ≤ N ∧ K1 ≤ N) (hNp : 32 * N ≤ 2 ^ p) (hi : 0 ≤ i ∧ i < nx)
    (hj : 0 ≤ j ∧ j < ny) (hK : 0 ≤ K0 ∧ K0 ≤ K ∧ K < K1) :
    Volume.lookupRowFl fl (flw (nx * s), flw (ny * s)) (Volume.zRangeFl fl (flw ((K0 + 1) * s)) (flw (K1 * s)) (fl s)) (fl s)
      (Volume.centreFl fl fl64 s i, Volume.centreFl fl fl64 s j, Volume.centreFl fl fl64 s K) = .ok (i, j, K - K0) := by
  have key := fun k => centre_close p hp fl hf s hs fl64 p64 hp64 h64 N k hNp
  exact interior p hp fl hf s hs flw pw hpw hw nx ny K0 K1 N i j K hN (by omega) hi hj hK _ _ _ (key i hi.1 (by omega)) (key j hj.1 (by omega))
    (key K (by omega) (by omega))

omit hp hf hs hpw hw p fl s flw pw in
/-- **C115: edges.** Single precision, twenty by twenty voxels of 0.1 m: the low edge of voxel 13 as the volume reports it is looked up as voxel 12. -/
theorem edge_violated (fl fl64 : ℝ → ℝ) (hf : Nearest 24 fl) (h64 : Nearest 53 fl64) :
    let s := fl64 0.1
    let e := Volume.edgeFl fl fl64 s 13
    Volume.lookupRowFl fl (fl 2, fl 2) (Volume.zRangeFl fl (fl 0.1) (fl 1) (fl s)) (fl s) (e, e, 0) = .ok (12, 12, 0) := by
  intro s e
  have hs : fl 0.1 = 13421773 * (2 : ℝ) ^ (-27 : ℤ) := by
    have := nearest_eq 24 (by norm_num) fl hf (-4) 13421773 0.1 (by norm_num) (by norm_num) (by norm_num)
    simpa using this
  have hs64 : |fl64 0.1 - 0.1| ≤ 1 / 2 ^ 53 * 0.1 := by
    have := nearest_rel 53 53 (by norm_num) (le_refl _) fl64 h64 0.1
    rwa [abs_of_pos (by norm_num : (0 : ℝ) < 0.1)] at this
  have hsB : |s - 0.1| ≤ 1 / 2 ^ 50 := le_trans hs64 (by norm_num)
  rw [abs_le] at hsB
  have hss : fl s = 13421773 * (2 : ℝ) ^ (-27 : ℤ) := by
    have := nearest_eq 24 (by norm_num) fl hf (-4) 13421773 s (by norm_num at hsB ⊢; linarith [hsB.1]) (by norm_num) (by
      rw [abs_lt]
      norm_num at hsB ⊢
      constructor <;> linarith [hsB.1, hsB.2])
    simpa using this
  have hr : |fl64 (s * 13) - s * 13| ≤ 1 / 2 ^ 50 := by
    have h1 := nearest_rel 53 53 (by norm_num) (le_refl _) fl64 h64 (s * 13)
    have h2 : |s * 13| ≤ 2 := by
      rw [abs_le]
      norm_num at hsB ⊢
      constructor <;> linarith [hsB.1, hsB.2]
    refine le_trans h1 (le_trans (mul_le_mul_of_nonneg_left h2 (by positivity)) (by norm_num))
  rw [abs_le] at hr
  have he : e = 10905190 * (2 : ℝ) ^ (-23 : ℤ) := by
    show fl (fl64 (s * ((13 : ℤ) : ℝ))) = _
    push_cast
    have := nearest_eq 24 (by norm_num) fl hf 0 10905190 (fl64 (s * 13)) (by norm_num at hsB hr ⊢; linarith [hsB.1, hr.1]) (by norm_num) (by
      rw [abs_lt]
      norm_num at hsB hr ⊢
      constructor <;> linarith [hsB.1, hsB.2, hr.1, hr.2])
    simpa using this
  have hx : fl (e / fl s) = 13631487 * (2 : ℝ) ^ (-20 : ℤ) := by
    rw [hss, he]
    have := nearest_eq 24 (by norm_num) fl hf 3 13631487 (10905190 * (2 : ℝ) ^ (-23 : ℤ) / (13421773 * (2 : ℝ) ^ (-27 : ℤ))) (by norm_num) (by norm_num) (by norm_num)
    rw [this]
    norm_num
  have hfl : ⌊(13631487 * (2 : ℝ) ^ (-20 : ℤ))⌋ = 12 := by
    rw [Int.floor_eq_iff]
    norm_num
  have h0 : fl 0 = 0 := nearest_self 24 fl hf 0 (isFloat_zero 24)
  have h2 : fl 2 = 2 := by
    have := isFloat_int 24 2 (by norm_num)
    exact nearest_self 24 fl hf 2 (by simpa using this)
  have h1 : fl 1 = 1 := by
    have := isFloat_int 24 1 (by norm_num)
    exact nearest_self 24 fl hf 1 (by simpa using this)
  unfold Volume.lookupRowFl Volume.zRangeFl
  rw [hs, ← hss, sub_self, h0, h1, h2, if_neg]
  · simp only [hx, hfl, sub_self, h0, zero_div, Int.floor_zero]
  · simp only [Volume.outsideRow, Bool.or_eq_true, decide_eq_true_eq, he]
    norm_num

/-- The hypotheses of `interior` and `centres` hold in single precision for twenty by thirty voxels of 0.1 m and layers from 0.3 m to 0.8 m. -/
example : ∃ fl fl64, Nearest 24 fl ∧ Nearest 53 fl64 ∧ (0 : ℝ) < fl64 0.1 ∧ (20 : ℤ) ≤ 30 ∧ (8 : ℤ) ≤ 30 ∧ (32 * 30 : ℤ) ≤ 2 ^ 24 ∧ (7 + 8 * (30 : ℤ) / 2 ^ 24) * 0.1 ≤ (0.75 : ℝ) ∧
    (0.75 : ℝ) ≤ (7 + 1 - 8 * (30 : ℤ) / 2 ^ 24) * 0.1 := by
  obtain ⟨fl, hf⟩ := rounding_exists 24 (by norm_num)
  obtain ⟨fl64, h64⟩ := rounding_exists 53 (by norm_num)
  exact ⟨fl, fl64, hf, h64, lt_of_lt_of_le (by norm_num : (0 : ℝ) < 1 * 2 ^ (-4 : ℤ)) (nearest_ge 53 fl64 h64 0.1 _ ⟨1, -4, by norm_num, by norm_num⟩ (by norm_num)), by norm_num, by norm_num, by norm_num, by norm_num, by norm_num⟩

end C115

end

end Tomopt
