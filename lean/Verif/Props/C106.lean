import Verif.Lemmas.Unbiased
import Verif.Props.C101
import Verif.Props.C104
import Mathlib.Probability.Distributions.Gaussian.Real
import Mathlib.Probability.HasLawExists

/- C106: noise does not bias fitted tracks. -/
namespace Tomopt

noncomputable section
open Scatter MeasureTheory ProbabilityTheory

/-- where the line of a track passes height `h` -/
def Track.atZ (t : Track) (h : ℝ) : ℝ × ℝ := ((t.point ((h - t.2.2.2) / t.1.2.2)).1, (t.point ((h - t.2.2.2) / t.1.2.2)).2.1)

namespace C106

variable {n : Nat} {Ω : Type} [MeasurableSpace Ω]

/-- measured positions `x`, `y` at heights `z` with uncertainties `u`, `v` -/
def measured (x y z u v : Fin n → ℝ) : List C26.Meas := List.ofFn fun k => ((x k, y k, z k), u k, v k)

/-- the fitted track as a weighted sum of the hits -/
theorem track_share (lw : ℝ × ℝ) (h2 : 2 ≤ n) (x y z u v : Fin n → ℝ) (hu : ∀ k, 0 < u k) (hv : ∀ k, 0 < v k) (hz : z ⟨0, by omega⟩ ≠ z ⟨1, by omega⟩) :
    ∃ t, trajectory lw (C26.rows (measured x y z u v)) = .ok (some t) ∧ t.1.2.2 = z ⟨1, by omega⟩ - z ⟨0, by omega⟩ ∧
      ∀ h, t.atZ h = (∑ k, share z u h k * x k, ∑ k, share z v h k * y k) := by
  obtain ⟨ax, bx, fx, sx⟩ := fit_share x z u hu _ _ hz
  obtain ⟨ay, bY, fy, sy⟩ := fit_share y z v hv _ _ hz
  have e1 := C26.axisPts_x lw (measured x y z u v) (by
    intro m hm
    obtain ⟨k, rfl⟩ := List.mem_ofFn.mp hm
    exact hu k)
  have e2 := C26.axisPts_y lw (measured x y z u v) (by
    intro m hm
    obtain ⟨k, rfl⟩ := List.mem_ofFn.mp hm
    exact hv k)
  have p1 : C26.xPts (measured x y z u v) = points x z u := by simp only [C26.xPts, measured, points, List.map_ofFn]; rfl
  have p2 : C26.yPts (measured x y z u v) = points y z v := by simp only [C26.yPts, measured, points, List.map_ofFn]; rfl
  rw [p1] at e1
  rw [p2] at e2
  have g0 : (C26.rows (measured x y z u v))[0]? = some ((.num (x ⟨0, by omega⟩), .num (y ⟨0, by omega⟩), .num (z ⟨0, by omega⟩)), (.num (u ⟨0, by omega⟩), .num (v ⟨0, by omega⟩), .num 0)) := by
    rw [List.getElem?_eq_getElem (by simp [C26.rows, measured]; omega)]
    simp [C26.rows, measured]
  have g1 : (C26.rows (measured x y z u v))[1]? = some ((.num (x ⟨1, by omega⟩), .num (y ⟨1, by omega⟩), .num (z ⟨1, by omega⟩)), (.num (u ⟨1, by omega⟩), .num (v ⟨1, by omega⟩), .num 0)) := by
    rw [List.getElem?_eq_getElem (by simp [C26.rows, measured]; omega)]
    simp [C26.rows, measured]
  simp only [trajectory, g0, g1, e1, e2, Option.bind_eq_bind, Option.bind_some, fx, fy, hitCoord, calcXYZ]
  refine ⟨_, rfl, rfl, fun h => ?_⟩
  rw [← sx h, ← sy h]
  have hd : z ⟨1, by omega⟩ - z ⟨0, by omega⟩ ≠ 0 := sub_ne_zero.mpr hz.symm
  simp only [Track.atZ, Track.point, Prod.mk.injEq]
  constructor <;> field_simp <;> ring

/-- **C106: no bias.** Hits at two or more panels, the first two at different heights, whose measured positions scatter in any way about the points of a straight line: the track is always
found, is never horizontal, and the mean of the position at which it passes any height is the position at which the straight line does, whatever the uncertainties. -/
theorem unbiased (P : Measure Ω) (lw : ℝ × ℝ) (h2 : 2 ≤ n) (z u v : Fin n → ℝ) (hu : ∀ k, 0 < u k) (hv : ∀ k, 0 < v k)
    (hz : z ⟨0, by omega⟩ ≠ z ⟨1, by omega⟩) (X Y : Fin n → Ω → ℝ) (iX : ∀ k, Integrable (X k) P) (iY : ∀ k, Integrable (Y k) P) (a b c d : ℝ)
    (mX : ∀ k, ∫ ω, X k ω ∂P = a + b * z k) (mY : ∀ k, ∫ ω, Y k ω ∂P = c + d * z k) :
    ∃ t : Ω → Track, (∀ ω, trajectory lw (C26.rows (measured (X · ω) (Y · ω) z u v)) = .ok (some (t ω)) ∧ (t ω).1.2.2 ≠ 0) ∧
      ∀ h, (Integrable (fun ω => ((t ω).atZ h).1) P ∧ ∫ ω, ((t ω).atZ h).1 ∂P = a + b * h) ∧
        (Integrable (fun ω => ((t ω).atZ h).2) P ∧ ∫ ω, ((t ω).atZ h).2 ∂P = c + d * h) := by
  choose t ht hd hs using fun ω => track_share lw h2 (X · ω) (Y · ω) z u v hu hv hz
  refine ⟨t, fun ω => ⟨ht ω, by rw [hd ω]; exact sub_ne_zero.mpr hz.symm⟩, fun h => ?_⟩
  simp only [hs]
  obtain ⟨a1, a2⟩ := share_line z u hu _ _ hz h
  obtain ⟨b1, b2⟩ := share_line z v hv _ _ hz h
  exact ⟨mean_weighted P X iX z _ a b h mX a1 a2, mean_weighted P Y iY z _ c d h mY b1 b2⟩

/-- **C106: precision.** If the errors of the hits are independent and their standard deviations are the stated uncertainties up to a common factor `s`, the variance of the position at
height `h` is `s² (1/W + (h - z̄)² / ∑ (z - z̄)²/u²)`, with `W = ∑ 1/u²` and `z̄` the mean height with weights `1/u²`. -/
theorem precision (P : Measure Ω) (lw : ℝ × ℝ) (h2 : 2 ≤ n) (z u v : Fin n → ℝ) (hu : ∀ k, 0 < u k) (hv : ∀ k, 0 < v k)
    (hz : z ⟨0, by omega⟩ ≠ z ⟨1, by omega⟩) (X Y : Fin n → Ω → ℝ) (t : Ω → Track)
    (ht : ∀ ω, trajectory lw (C26.rows (measured (X · ω) (Y · ω) z u v)) = .ok (some (t ω))) (s : ℝ) (h : ℝ) :
    ((∀ k, MemLp (X k) 2 P) → (Pairwise fun k l => IndepFun (X k) (X l) P) → (∀ k, variance (X k) P = (s * u k) ^ 2) →
      let W := ∑ k, 1 / u k ^ 2
      let zm := (∑ k, z k / u k ^ 2) / W
      variance (fun ω => ((t ω).atZ h).1) P = s ^ 2 * (1 / W + (h - zm) ^ 2 / ∑ k, (z k - zm) ^ 2 / u k ^ 2)) ∧
    ((∀ k, MemLp (Y k) 2 P) → (Pairwise fun k l => IndepFun (Y k) (Y l) P) → (∀ k, variance (Y k) P = (s * v k) ^ 2) →
      let W := ∑ k, 1 / v k ^ 2
      let zm := (∑ k, z k / v k ^ 2) / W
      variance (fun ω => ((t ω).atZ h).2) P = s ^ 2 * (1 / W + (h - zm) ^ 2 / ∑ k, (z k - zm) ^ 2 / v k ^ 2)) := by
  choose t' ht' _ hs using fun ω => track_share lw h2 (X · ω) (Y · ω) z u v hu hv hz
  have e : t' = t := funext fun ω => by
    have := ht' ω
    rw [ht ω] at this
    simpa using this.symm
  subst e
  simp only [hs]
  have key : ∀ (X : Fin n → Ω → ℝ) (u : Fin n → ℝ), (∀ k, 0 < u k) → (∀ k, MemLp (X k) 2 P) → (Pairwise fun k l => IndepFun (X k) (X l) P) →
      (∀ k, variance (X k) P = (s * u k) ^ 2) → variance (fun ω => ∑ k, share z u h k * X k ω) P =
        s ^ 2 * (1 / S0 u + (h - S1 z u / S0 u) ^ 2 / ∑ k, (z k - S1 z u / S0 u) ^ 2 / u k ^ 2) := by
    intro X u hu m2 hi hvar
    rw [variance_weighted P X m2 hi _ (fun k => s * u k) hvar, ← share_var z u hu _ _ hz h, Finset.mul_sum]
    exact Finset.sum_congr rfl fun k _ => by ring
  exact ⟨fun m2 hi hvar => key X u hu m2 hi hvar, fun m2 hi hvar => key Y v hv m2 hi hvar⟩

/-- **C106: best.** Under the same conditions no other way of adding up the measured positions that is right for every straight line has a smaller variance, at any height. -/
theorem best (P : Measure Ω) (lw : ℝ × ℝ) (h2 : 2 ≤ n) (z u v : Fin n → ℝ) (hu : ∀ k, 0 < u k) (hv : ∀ k, 0 < v k)
    (hz : z ⟨0, by omega⟩ ≠ z ⟨1, by omega⟩) (X Y : Fin n → Ω → ℝ) (t : Ω → Track)
    (ht : ∀ ω, trajectory lw (C26.rows (measured (X · ω) (Y · ω) z u v)) = .ok (some (t ω))) (s : ℝ) (h : ℝ) (d : Fin n → ℝ)
    (hd : ∀ a b : ℝ, ∑ k, d k * (a + b * z k) = a + b * h) :
    ((∀ k, MemLp (X k) 2 P) → (Pairwise fun k l => IndepFun (X k) (X l) P) → (∀ k, variance (X k) P = (s * u k) ^ 2) →
      variance (fun ω => ((t ω).atZ h).1) P ≤ variance (fun ω => ∑ k, d k * X k ω) P) ∧
    ((∀ k, MemLp (Y k) 2 P) → (Pairwise fun k l => IndepFun (Y k) (Y l) P) → (∀ k, variance (Y k) P = (s * v k) ^ 2) →
      variance (fun ω => ((t ω).atZ h).2) P ≤ variance (fun ω => ∑ k, d k * Y k ω) P) := by
  choose t' ht' _ hs using fun ω => track_share lw h2 (X · ω) (Y · ω) z u v hu hv hz
  have e : t' = t := funext fun ω => by
    have := ht' ω
    rw [ht ω] at this
    simpa using this.symm
  subst e
  simp only [hs]
  have d1 : ∑ k, d k = 1 := by simpa using hd 1 0
  have d2 : ∑ k, d k * z k = h := by simpa using hd 0 1
  have key : ∀ (X : Fin n → Ω → ℝ) (u : Fin n → ℝ), (∀ k, 0 < u k) → (∀ k, MemLp (X k) 2 P) → (Pairwise fun k l => IndepFun (X k) (X l) P) →
      (∀ k, variance (X k) P = (s * u k) ^ 2) → variance (fun ω => ∑ k, share z u h k * X k ω) P ≤ variance (fun ω => ∑ k, d k * X k ω) P := by
    intro X u hu m2 hi hvar
    rw [variance_weighted P X m2 hi _ (fun k => s * u k) hvar, variance_weighted P X m2 hi _ (fun k => s * u k) hvar]
    have hb := mul_le_mul_of_nonneg_left (share_best z u hu _ _ hz h d d1 d2) (sq_nonneg s)
    rw [Finset.mul_sum, Finset.mul_sum] at hb
    calc _ = ∑ k, s ^ 2 * (share z u h k ^ 2 * u k ^ 2) := Finset.sum_congr rfl fun k _ => by ring
      _ ≤ ∑ k, s ^ 2 * (d k ^ 2 * u k ^ 2) := hb
      _ = _ := Finset.sum_congr rfl fun k _ => by ring
  exact ⟨fun m2 hi hvar => key X u hu m2 hi hvar, fun m2 hi hvar => key Y v hv m2 hi hvar⟩

/-- **C106: hits.** A panel in training or non-realistic mode: what it records scatters about the point where the muon crossed it, with the stated uncertainty as standard deviation. -/
theorem hit (P : Measure Ω) [IsProbabilityMeasure P] (p : Panel) (hc : p.training = true ∨ p.realistic = false) (q : ℝ × ℝ) (inside : Bool) (N : Ω → ℝ × ℝ)
    (i1 : MemLp (fun ω => (N ω).1) 2 P) (i2 : MemLp (fun ω => (N ω).2) 2 P) (m1 : ∫ ω, (N ω).1 ∂P = 0) (m2 : ∫ ω, (N ω).2 ∂P = 0)
    (v1 : variance (fun ω => (N ω).1) P = 1) (v2 : variance (fun ω => (N ω).2) P = 1) :
    ∃ (X Y : Ω → ℝ) (u v : ℝ), 0 < u ∧ 0 < v ∧ (∀ ω, p.hitReco q (N ω) inside = [.num (X ω), .num (Y ω), .num p.z]) ∧ p.hitUnc q inside = [.num u, .num v, .num 0] ∧
      (Integrable X P ∧ ∫ ω, X ω ∂P = q.1 ∧ variance X P = u ^ 2) ∧ (Integrable Y P ∧ ∫ ω, Y ω ∂P = q.2 ∧ variance Y P = v ^ 2) := by
  have hcont : p.continuous = true := by
    unfold Panel.continuous
    rcases hc with h | h <;> simp [h]
  have hclamp : (!p.training && p.realistic && inside) = false := by
    rcases hc with h | h <;> simp [h]
  have pos : 0 < (p.resAt q inside).1 ∧ 0 < (p.resAt q inside).2 := by
    unfold Panel.resAt
    simp only [hcont, if_true]
    exact ⟨lt_max_of_lt_right (by norm_num), lt_max_of_lt_right (by norm_num)⟩
  obtain ⟨r1, r2⟩ := pos
  have hadd : ∀ l x e : ℝ, l + (x - l + e) = x + e := fun l x e => by ring
  have key : ∀ (x r : ℝ) (N : Ω → ℝ), MemLp N 2 P → ∫ ω, N ω ∂P = 0 → variance N P = 1 →
      Integrable (fun ω => x + N ω / r) P ∧ ∫ ω, (x + N ω / r) ∂P = x ∧ variance (fun ω => x + N ω / r) P = (1 / r) ^ 2 := by
    intro x r N iN mN vN
    have hi : Integrable N P := iN.integrable one_le_two
    refine ⟨(integrable_const x).add (hi.div_const r), ?_, ?_⟩
    · rw [integral_add (integrable_const x) (hi.div_const r), integral_div, mN]
      simp
    · rw [variance_const_add (hi.div_const r).aestronglyMeasurable, show (fun ω => N ω / r) = fun ω => (1 / r) * N ω from funext fun ω => by ring, variance_const_mul, vN, mul_one]
  refine ⟨fun ω => q.1 + (N ω).1 / (p.resAt q inside).1, fun ω => q.2 + (N ω).2 / (p.resAt q inside).2, 1 / (p.resAt q inside).1, 1 / (p.resAt q inside).2,
    one_div_pos.mpr r1, one_div_pos.mpr r2, fun ω => ?_, ?_, key _ _ _ i1 m1 v1, key _ _ _ i2 m2 v2⟩
  · simp only [Panel.hitReco, Panel.recoCoord, hclamp, Bool.false_eq_true, if_false, XF.quot, ne_eq, r1.ne', r2.ne', not_false_eq_true, if_true, XF.addR, hadd]
  · simp only [Panel.hitUnc, XF.quot, ne_eq, r1.ne', r2.ne', not_false_eq_true, if_true]

/-- the parsed rows of a panel in training or non-realistic mode -/
theorem smooth_rows (p : Panel) (hc : p.training = true ∨ p.realistic = false) (heff : 0 < p.eff) (m : Muon) :
    ∃ r s u v : ℝ, 0 < u ∧ 0 < v ∧ (∀ N : ℝ × ℝ, p.recoX N m = (.num ((crossing m p.z).1 + N.1 / r), .num ((crossing m p.z).2 + N.2 / s), .num p.z)) ∧
      scaleUnc (p.uncX m) (p.effX m) = (.num u, .num v, .num 0) := by
  have hcont : p.continuous = true := by
    unfold Panel.continuous
    rcases hc with h | h <;> simp [h]
  have hclamp : (!p.training && p.realistic && p.inside m) = false := by
    rcases hc with h | h <;> simp [h]
  have pos : 0 < (p.resAt (crossing m p.z) (p.inside m)).1 ∧ 0 < (p.resAt (crossing m p.z) (p.inside m)).2 := by
    unfold Panel.resAt
    simp only [hcont, if_true]
    exact ⟨lt_max_of_lt_right (by norm_num), lt_max_of_lt_right (by norm_num)⟩
  have hadd : ∀ l x e : ℝ, l + (x - l + e) = x + e := fun l x e => by ring
  have epos : 0 < p.effAt (crossing m p.z) (p.inside m) := by
    unfold Panel.effAt
    simp only [hcont, if_true]
    split
    · have : ∀ a b c : ℝ, 0 < Panel.ratio .gauss a b c := fun a b c => by
        simp only [Panel.ratio, Panel.gaussRatio]
        exact div_pos (Real.exp_pos _) (Real.exp_pos _)
      rename_i h
      rw [h]
      exact mul_pos heff (mul_pos (this _ _ _) (this _ _ _))
    · exact lt_max_of_lt_right (by norm_num)
  obtain ⟨r1, r2⟩ := pos
  refine ⟨(p.resAt (crossing m p.z) (p.inside m)).1, (p.resAt (crossing m p.z) (p.inside m)).2, 1 / (p.resAt (crossing m p.z) (p.inside m)).1 / p.effAt (crossing m p.z) (p.inside m),
    1 / (p.resAt (crossing m p.z) (p.inside m)).2 / p.effAt (crossing m p.z) (p.inside m), div_pos (one_div_pos.mpr r1) epos, div_pos (one_div_pos.mpr r2) epos,
    fun N => ?_, ?_⟩
  · simp only [Panel.recoX, Panel.recoCoord, hclamp, Bool.false_eq_true, if_false, XF.quot, ne_eq, r1.ne', r2.ne', not_false_eq_true, if_true, XF.addR, hadd]
  · unfold scaleUnc Panel.uncX Panel.effX
    simp only [XF.quot, ne_eq, r1.ne', r2.ne', epos.ne', not_false_eq_true, if_true, XF.div, zero_div]

/-- the track fitted to what readers recorded about a muon -/
theorem readers_unbiased (P : Measure Ω) [IsProbabilityMeasure P] (lw : ℝ × ℝ) (rs : List Reader) (h2 : 2 ≤ rs.length) (hs : (rs.map fun r => r.2.2.z).Pairwise fun a c => c < a)
    (hc : ∀ r ∈ rs, r.2.2.training = true ∨ r.2.2.realistic = false) (he : ∀ r ∈ rs, 0 < r.2.2.eff) (m : Muon) (noise : Ω → Nat → Nat → Nat → ℝ × ℝ)
    (hi : ∀ i j k, Integrable (fun ω => (noise ω i j k).1) P ∧ Integrable (fun ω => (noise ω i j k).2) P)
    (hm : ∀ i j k, ∫ ω, (noise ω i j k).1 ∂P = 0 ∧ ∫ ω, (noise ω i j k).2 ∂P = 0) :
    ∃ t : Ω → Track, (∀ ω, trajectory lw (rs.map fun r => (r.2.2.recoX (noise ω r.1 r.2.1 m.id) m, scaleUnc (r.2.2.uncX m) (r.2.2.effX m))) = .ok (some (t ω)) ∧ (t ω).1.2.2 ≠ 0) ∧
      ∀ h, (Integrable (fun ω => ((t ω).atZ h).1) P ∧ ∫ ω, ((t ω).atZ h).1 ∂P = (crossing m h).1) ∧
        (Integrable (fun ω => ((t ω).atZ h).2) P ∧ ∫ ω, ((t ω).atZ h).2 ∂P = (crossing m h).2) := by
  choose r s u v hu hv hx hw using fun k : Fin rs.length => smooth_rows rs[k].2.2 (hc _ (List.getElem_mem k.2)) (he _ (List.getElem_mem k.2)) m
  have hz : rs[0].2.2.z ≠ rs[1].2.2.z := by
    rw [List.pairwise_map] at hs
    exact (List.pairwise_iff_getElem.mp hs 0 1 (by omega) (by omega) (by omega)).ne'
  have mean : ∀ (x r : ℝ) (N : Ω → ℝ), Integrable N P → ∫ ω, N ω ∂P = 0 → Integrable (fun ω => x + N ω / r) P ∧ ∫ ω, (x + N ω / r) ∂P = x := by
    intro x r N hi mN
    refine ⟨(integrable_const x).add (hi.div_const r), ?_⟩
    rw [integral_add (integrable_const x) (hi.div_const r), integral_div, mN]
    simp
  obtain ⟨t, ht, hm'⟩ := unbiased P lw h2 (fun k => rs[k].2.2.z) u v hu hv hz
    (fun k ω => (crossing m rs[k].2.2.z).1 + (noise ω rs[k].1 rs[k].2.1 m.id).1 / r k) (fun k ω => (crossing m rs[k].2.2.z).2 + (noise ω rs[k].1 rs[k].2.1 m.id).2 / s k)
    (fun k => (mean _ _ _ (hi _ _ _).1 (hm _ _ _).1).1) (fun k => (mean _ _ _ (hi _ _ _).2 (hm _ _ _).2).1)
    (m.x + m.z * Real.tan m.th * Real.cos m.ph) (-(Real.tan m.th * Real.cos m.ph)) (m.y + m.z * Real.tan m.th * Real.sin m.ph) (-(Real.tan m.th * Real.sin m.ph))
    (fun k => by rw [(mean _ _ _ (hi _ _ _).1 (hm _ _ _).1).2]; simp only [crossing]; ring)
    (fun k => by rw [(mean _ _ _ (hi _ _ _).2 (hm _ _ _).2).2]; simp only [crossing]; ring)
  refine ⟨t, fun ω => ⟨?_, (ht ω).2⟩, fun h => ?_⟩
  · rw [← (ht ω).1]
    congr 1
    apply List.ext_getElem (by simp [C26.rows, measured])
    intro k k1 k2
    simp only [List.length_map] at k1
    have e1 := hx ⟨k, k1⟩ (noise ω rs[k].1 rs[k].2.1 m.id)
    have e2 := hw ⟨k, k1⟩
    simp only [Fin.getElem_fin] at e1 e2
    simp only [List.getElem_map, C26.rows, measured, List.getElem_ofFn, Fin.getElem_fin]
    rw [e1, e2]
  · obtain ⟨⟨a1, a2⟩, b1, b2⟩ := hm' h
    refine ⟨⟨a1, ?_⟩, b1, ?_⟩
    · rw [a2]; simp only [crossing]; ring
    · rw [b2]; simp only [crossing]; ring

/-- **C106: whole telescopes.** Muons going down pass a telescope whose panels are in training or non-realistic mode, with any noise of mean zero. What comes out does not depend on the
noise; every muon that comes out has an incoming and an outgoing track, and the mean of the position at which they pass any height is the position at which that very muon flew,
before entering and after leaving. -/
theorem telescope (P : Measure Ω) [IsProbabilityMeasure P] (argsort : List ℝ → List Nat) (ha : IsArgsort argsort) (rng : Nat → Nat → Nat → Draw) (fuel : Nat)
    (noise : Ω → Nat → Nat → Nat → ℝ × ℝ) (hi : ∀ i j k, Integrable (fun ω => (noise ω i j k).1) P ∧ Integrable (fun ω => (noise ω i j k).2) P)
    (hm : ∀ i j k, ∫ ω, (noise ω i j k).1 ∂P = 0 ∧ ∫ ω, (noise ω i j k).2 ∂P = 0)
    (V V' : Volume) (ht : Telescope V.layers) (hsnd : ∀ D, .detector D ∈ V.layers → Sound D)
    (hmode : ∀ D, .detector D ∈ V'.layers → ∀ p, .panel p ∈ D.panels → p.training = true ∨ p.realistic = false)
    (b : Batch Row) (h0 : b.hits = []) (hn : b.ids.Nodup) (hd : ∀ m ∈ b.muons, Downward m) (b' : Ω → Batch Row)
    (hf : ∀ ω, V.forward argsort rng (noise ω) fuel b = .ok (V', some (b' ω))) (lw : ℝ × ℝ) :
    ∃ out : List Muon, (∀ ω, (b' ω).muons = out) ∧ ∃ (h : Ω → _) (H : Ω → Hits) (ts : Ω → List (Option Track × Option Track)),
      (∀ ω, (b' ω).getHits none none = .ok (h ω) ∧ extract (h ω) = .ok (H ω) ∧ computeTracks false lw (H ω) = .ok (ts ω) ∧ (ts ω).length = out.length) ∧
      ∀ (i : Nat) (m' : Muon), out[i]? = some m' → ∃ m ∈ b.muons, m.id = m'.id ∧ ∃ tin tout : Ω → Track,
        (∀ ω, (ts ω)[i]? = some (some (tin ω), some (tout ω)) ∧ (tin ω).1.2.2 ≠ 0 ∧ (tout ω).1.2.2 ≠ 0) ∧
        ∀ z, ((Integrable (fun ω => ((tin ω).atZ z).1) P ∧ ∫ ω, ((tin ω).atZ z).1 ∂P = (crossing m z).1) ∧
            (Integrable (fun ω => ((tin ω).atZ z).2) P ∧ ∫ ω, ((tin ω).atZ z).2 ∂P = (crossing m z).2)) ∧
          ((Integrable (fun ω => ((tout ω).atZ z).1) P ∧ ∫ ω, ((tout ω).atZ z).1 ∂P = (crossing m' z).1) ∧
            (Integrable (fun ω => ((tout ω).atZ z).2) P ∧ ∫ ω, ((tout ω).atZ z).2 ∂P = (crossing m' z).2)) := by
  obtain ⟨ω0⟩ : Nonempty Ω := nonempty_of_isProbabilityMeasure P
  obtain ⟨rA, rB, hro, cA, cB, hp⟩ := readouts argsort ha V V' (C104.forward_parts (hf ω0)).1 ht hsnd
  have ro := fun ω => hro rng (noise ω) fuel b (b' ω) h0 hn hd (hf ω)
  have hout : ∀ ω, (b' ω).muons = (b' ω0).muons := by
    intro ω
    obtain ⟨c, hc, e, _⟩ := C104.again argsort ha rng (noise ω0) (noise ω) fuel V V' b (b' ω0) (hf ω0)
    rw [hf ω] at hc
    simp only [Except.ok.injEq, Prod.mk.injEq, Option.some.injEq, true_and] at hc
    rw [hc]; exact e
  choose h H ts e1 e2 e3 hcon using fun ω => (ro ω).dl.consistent false lw
  have hmA : ∀ r ∈ rA, r.2.2.training = true ∨ r.2.2.realistic = false := fun r hr => by
    obtain ⟨D, hD, _, hpD⟩ := (cA r.2.2).mp ⟨r, hr, rfl⟩
    exact hmode D hD _ hpD
  have hmB : ∀ r ∈ rB, r.2.2.training = true ∨ r.2.2.realistic = false := fun r hr => by
    obtain ⟨D, hD, _, hpD⟩ := (cB r.2.2).mp ⟨r, hr, rfl⟩
    exact hmode D hD _ hpD
  refine ⟨(b' ω0).muons, hout, h, H, ts, fun ω => ⟨e1 ω, e2 ω, e3 ω, ?_⟩, fun i m' hi' => ?_⟩
  · have := (C32.lengths (hcon ω)).2
    rw [hout ω] at this
    exact this
  have hmem : m' ∈ (b' ω0).muons := List.mem_of_getElem? hi'
  have hid : m'.id ∈ b.ids := (ro ω0).dl.sub.subset (List.mem_map.mpr ⟨_, hmem, rfl⟩)
  obtain ⟨m, hmm, em⟩ := List.mem_map.mp hid
  obtain ⟨tin, tin1, tin2⟩ := readers_unbiased P lw rA (by simpa using (ro ω0).dl.twoA) (ro ω0).dl.downA hmA (fun r hr => (hp r (by simp [hr])).2) m noise hi hm
  obtain ⟨tout, tout1, tout2⟩ := readers_unbiased P lw rB (by simpa using (ro ω0).dl.twoB) (ro ω0).dl.downB hmB (fun r hr => (hp r (by simp [hr])).2) m' noise hi hm
  refine ⟨m, hmm, em, tin, tout, fun ω => ⟨?_, (tin1 ω).2, (tout1 ω).2⟩, fun z => ⟨tin2 z, tout2 z⟩⟩
  obtain ⟨lr, lt⟩ := C32.lengths (hcon ω)
  simp only at lr lt
  obtain ⟨hil, -⟩ := List.getElem?_eq_some_iff.mp hi'
  have hti : i < (ts ω).length := by rw [lt, hout ω]; exact hil
  have hri : i < (H ω).rows.length := by rw [lr, hout ω]; exact hil
  obtain ⟨f1, f2, -⟩ := (ro ω).row hn (Carries.refl _) lw (h ω) (e1 ω) (H ω) (e2 ω) (ts ω) (e3 ω) i m' m m' (by rw [hout ω]; exact hi') hmm em
    (by rw [hout ω]; exact hmem) rfl (ts ω)[i].1 (ts ω)[i].2 (List.getElem?_eq_getElem hti) _ (List.getElem?_eq_getElem hri)
  rw [(tin1 ω).1] at f1
  rw [(tout1 ω).1] at f2
  simp only [Except.ok.injEq] at f1 f2
  rw [List.getElem?_eq_getElem hti, f1, f2]

omit [MeasurableSpace Ω] in
/-- standard normal noise, independent for all numbers of an index -/
theorem normal_noise (ι : Type) : ∃ (Ω : Type) (_ : MeasurableSpace Ω) (P : Measure Ω) (N : ι → Ω → ℝ), IsProbabilityMeasure P ∧
    (Pairwise fun i j => IndepFun (N i) (N j) P) ∧ ∀ i, MemLp (N i) 2 P ∧ ∫ ω, N i ω ∂P = 0 ∧ variance (N i) P = 1 := by
  obtain ⟨Ω, mΩ, P, N, hm, hl, hind, hP⟩ := exists_iid ι (gaussianReal 0 1)
  refine ⟨Ω, mΩ, P, N, hP, fun i j hij => hind.indepFun hij, fun i => ⟨?_, ?_, ?_⟩⟩
  · have := (memLp_id_gaussianReal (μ := 0) (v := 1) 2).comp_measurePreserving ((hl i).measurePreserving (hm i))
    exact this
  · rw [(hl i).integral_eq]; exact integral_id_gaussianReal
  · rw [(hl i).variance_eq, variance_id_gaussianReal]; rfl

omit [MeasurableSpace Ω] in
/-- Three panels of the same resolution, one with half the efficiency of the others: the fit gives its hits a quarter of the weight though they are as precise as the others, and the plain mean of the
three hits has a smaller variance at the height of the middle panel. So `best` needs equal efficiencies. -/
theorem unequal_violated : ∃ (Ω : Type) (_ : MeasurableSpace Ω) (P : Measure Ω) (X Y : Fin 3 → Ω → ℝ) (t : Ω → Track), IsProbabilityMeasure P ∧
    (Pairwise fun k l => IndepFun (X k) (X l) P) ∧ (∀ k, MemLp (X k) 2 P ∧ ∫ ω, X k ω ∂P = 0 ∧ variance (X k) P = 1) ∧
    (∀ ω, trajectory (1, 1) [((.num (X 0 ω), .num (Y 0 ω), .num 2), scaleUnc (.num 1, .num 1, .num 0) (.num 1)),
      ((.num (X 1 ω), .num (Y 1 ω), .num 1), scaleUnc (.num 1, .num 1, .num 0) (.num 1)),
      ((.num (X 2 ω), .num (Y 2 ω), .num 0), scaleUnc (.num 1, .num 1, .num 0) (.num 0.5))] = .ok (some (t ω))) ∧
    (∀ a b : ℝ, ((a + b * 2) + (a + b * 1) + (a + b * 0)) / 3 = a + b * 1) ∧
    variance (fun ω => (X 0 ω + X 1 ω + X 2 ω) / 3) P < variance (fun ω => ((t ω).atZ 1).1) P := by
  obtain ⟨Ω, mΩ, P, X, hP, hind, hX⟩ := normal_noise (Fin 3)
  have hu : ∀ k : Fin 3, 0 < (![1, 1, 2] : Fin 3 → ℝ) k := by intro k; fin_cases k <;> simp
  have hz : (![2, 1, 0] : Fin 3 → ℝ) ⟨0, by omega⟩ ≠ (![2, 1, 0] : Fin 3 → ℝ) ⟨1, by omega⟩ := by
    show (2 : ℝ) ≠ 1
    norm_num
  choose t ht _ hs using fun ω => track_share (1, 1) (by omega : 2 ≤ 3) (X · ω) (X · ω) ![2, 1, 0] ![1, 1, 2] ![1, 1, 2] hu hu hz
  have vr : ∀ k, variance (X k) P = (1 : ℝ) ^ 2 := fun k => by rw [(hX k).2.2, one_pow]
  refine ⟨Ω, mΩ, P, X, X, t, hP, hind, hX, fun ω => ?_, fun a b => by ring, ?_⟩
  · rw [← ht ω]
    have e : (1 : ℝ) / 0.5 = 2 := by norm_num
    simp only [C26.rows, measured, List.ofFn_succ, List.ofFn_zero, List.map_cons, List.map_nil, scaleUnc, XF.div, XF.quot, ne_eq, one_ne_zero, not_false_eq_true, if_true, e]
    norm_num
    rfl
  · have e1 : (fun ω => (X 0 ω + X 1 ω + X 2 ω) / 3) = fun ω => ∑ k, (fun _ : Fin 3 => (1 / 3 : ℝ)) k * X k ω := funext fun ω => by
      rw [Fin.sum_univ_three]; ring
    rw [e1, variance_weighted P X (fun k => (hX k).1) hind _ (fun _ => 1) vr]
    simp only [hs]
    rw [variance_weighted P X (fun k => (hX k).1) hind _ (fun _ => 1) vr]
    simp [Fin.sum_univ_three, share, S0, S1, S2, Det]
    norm_num

/-- Panels in realistic evaluation put hits back into the panel: near an edge the recorded position is biased. A muon at the edge, noise of plus or minus a quarter: the mean of the recorded positions is
not where the muon is. -/
theorem realistic_violated : ∃ (p : Panel) (q : ℝ × ℝ) (x x' : ℝ), 0 < p.res ∧ 0 < p.eff ∧ p.realistic = true ∧ p.training = false ∧
    (p.low.1 ≤ q.1 ∧ q.1 < p.high.1) ∧ (p.low.2 ≤ q.2 ∧ q.2 < p.high.2) ∧
    p.hitReco q (1 / 4, 0) true = [.num x, .num q.2, .num p.z] ∧ p.hitReco q (-(1 / 4), 0) true = [.num x', .num q.2, .num p.z] ∧ (x + x') / 2 ≠ q.1 := by
  refine ⟨⟨.gauss, 1, 1, 1, (0.5, 0.5), 1, (1, 1), 1, true, false⟩, (0, 0.5), 1 / 4, 0, by norm_num, by norm_num, rfl, rfl, ?_, ?_, ?_, ?_, by norm_num⟩
  · simp [Panel.low, Panel.high, Panel.scaledSpan]; norm_num
  · simp [Panel.low, Panel.high, Panel.scaledSpan]
  · simp [Panel.hitReco, Panel.recoCoord, Panel.resAt, Panel.continuous, Panel.low, Panel.scaledSpan, XF.quot, XF.addR, XF.clamp]
    norm_num
  · simp [Panel.hitReco, Panel.recoCoord, Panel.resAt, Panel.continuous, Panel.low, Panel.scaledSpan, XF.quot, XF.addR, XF.clamp]
    norm_num

/-! Non-vacuity: the noise of the code, independent standard normal numbers, meets the conditions of `unbiased`, `precision`, `best` and `hit`; and the telescope of C99 those of `telescope`. -/

omit [MeasurableSpace Ω] in
example : ∃ (Ω : Type) (_ : MeasurableSpace Ω) (P : Measure Ω) (X : Fin 4 → Ω → ℝ), IsProbabilityMeasure P ∧ (∀ k, MemLp (X k) 2 P) ∧
    (Pairwise fun k l => IndepFun (X k) (X l) P) ∧ (∀ k, variance (X k) P = (1 * 1) ^ 2) ∧ ∀ k, ∫ ω, X k ω ∂P = 0 + 0 * (k : ℝ) := by
  obtain ⟨Ω, mΩ, P, X, hP, hind, hX⟩ := normal_noise (Fin 4)
  exact ⟨Ω, mΩ, P, X, hP, fun k => (hX k).1, hind, fun k => by rw [(hX k).2.2]; norm_num, fun k => by rw [(hX k).2.1]; ring⟩

omit [MeasurableSpace Ω] in
example : ∃ (Ω : Type) (_ : MeasurableSpace Ω) (P : Measure Ω) (noise : Ω → Nat → Nat → Nat → ℝ × ℝ) (argsort : List ℝ → List Nat) (b' : Ω → Batch Row),
    IsProbabilityMeasure P ∧ IsArgsort argsort ∧ (∀ i j k, Integrable (fun ω => (noise ω i j k).1) P ∧ Integrable (fun ω => (noise ω i j k).2) P) ∧
    (∀ i j k, ∫ ω, (noise ω i j k).1 ∂P = 0 ∧ ∫ ω, (noise ω i j k).2 ∂P = 0) ∧ (∀ i j k, variance (fun ω => (noise ω i j k).1) P = 1) ∧
    (∀ D, .detector D ∈ C99.scope.layers → ∀ p, .panel p ∈ D.panels → p.training = true ∨ p.realistic = false) ∧
    ∀ ω, C99.scope.forward argsort (fun _ _ _ => C99.turn) (noise ω) 1 ⟨[⟨0, 0.5, 0.5, 3, 0.0136, 0, 0⟩], [], [], []⟩ = .ok (C99.scope, some (b' ω)) := by
  obtain ⟨Ω, mΩ, P, N, hP, hind, hN⟩ := normal_noise (Nat × Nat × Nat × Bool)
  obtain ⟨argsort, ha⟩ := C13.argsort_exists
  obtain ⟨b1, _, h1, _, _, _, hm1, _⟩ := C13.layer_spec argsort ha (fun _ _ => (0, 0)) (C99.pair "above" 3) ⟨[⟨0, 0.5, 0.5, 3, 0.0136, 0, 0⟩], [], [], []⟩
    (by simp [C99.pair, AnyPanel.CanRespond, Panel.scaledSpan])
  obtain ⟨b2, h2, hm2⟩ := C99.slab_turn b1.snapshot (by simp [Batch.snapshot, hm1, atHeight, C99.pair, crossing]; norm_num)
  obtain ⟨b3, _, h3, _, _, _, hm3, _⟩ := C13.layer_spec argsort ha (fun _ _ => (0, 0)) (C99.pair "below" 1) b2.snapshot
    (by simp [C99.pair, AnyPanel.CanRespond, Panel.scaledSpan])
  have hf : C99.scope.forward argsort (fun _ _ _ => C99.turn) (fun _ _ _ => (0, 0)) 1 ⟨[⟨0, 0.5, 0.5, 3, 0.0136, 0, 0⟩], [], [], []⟩ = .ok (C99.scope, some b3.snapshot) := by
    simp only [C99.scope, Volume.forward, Volume.assignBudget, Volume.runLayers, Volume.layerForward, h1, h2, h3]
  choose b' hb' _ using fun ω : Ω => C104.again argsort ha _ _ (fun i j k => (N (i, j, k, true) ω, N (i, j, k, false) ω)) 1 _ _ _ _ hf
  refine ⟨Ω, mΩ, P, fun ω i j k => (N (i, j, k, true) ω, N (i, j, k, false) ω), argsort, b', hP, ha, fun i j k => ⟨(hN _).1.integrable one_le_two, (hN _).1.integrable one_le_two⟩,
    fun i j k => ⟨(hN _).2.1, (hN _).2.1⟩, fun i j k => (hN _).2.2, ?_, hb'⟩
  intro D hD p hp
  simp only [C99.scope, List.mem_cons, AnyLayer.detector.injEq, reduceCtorEq, List.not_mem_nil, or_false, false_or] at hD
  rcases hD with rfl | rfl <;> simp only [C99.pair, List.mem_cons, List.not_mem_nil, or_false, AnyPanel.panel.injEq] at hp <;> rcases hp with rfl | rfl <;> exact Or.inl rfl

end C106

end

end Tomopt
