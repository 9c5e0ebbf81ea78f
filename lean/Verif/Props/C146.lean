import Verif.Model.PlotMap
import Verif.Props.C123

/- C146: what the picture of a heat map shows. -/
namespace Tomopt

noncomputable section
open Real

namespace C146

open PlotMap

/-- The offset of the `i`-th of the 200 points along an axis from the centre of the map. -/
def offset (h : Heatmap) (i : Nat) : ℝ := h.deltaXy * (4 * i / 199 - 2)

/-- The heat map mirrored at the diagonal through its centre: along-x and along-y are exchanged. -/
def mirror (h : Heatmap) : Heatmap :=
  { h with mu := h.mu.map fun m => (h.xyFix.1 + (m.2 - h.xyFix.2), h.xyFix.2 + (m.1 - h.xyFix.1)), sig := h.sig.map fun s => (s.2, s.1) }

/-- What fraction of its nominal efficiency the map has at a point, by the definition of its response. -/
def fraction (h : Heatmap) (q : ℝ × ℝ) : ℝ := min 1 (h.gmm q * h.gmm q)

/-- **C146: where.** The picture covers, in equal steps, the square that reaches twice the spread to all sides of the centre. -/
theorem where_ (h : Heatmap) (a b : Nat) : place h a b = (h.xyFix.1 + offset h a, h.xyFix.2 + offset h b) := by
  unfold place mesh xs ys linspace offset steps
  ext <;> push_cast <;> ring

/-- **C146: centres.** All clusters of a new map are inside the picture. -/
theorem centres (c : ℝ × ℝ) (d : ℝ) (hd : 0 < d) (us : List (ℝ × ℝ)) (hu : ∀ u ∈ us, (0 ≤ u.1 ∧ u.1 < 1) ∧ 0 ≤ u.2 ∧ u.2 < 1) (h : Heatmap) (hc : h.xyFix = c) (hh : h.deltaXy = d) :
    ∀ m ∈ Heatmap.initMu c d us, ((place h 0 0).1 < m.1 ∧ m.1 < (place h 199 199).1) ∧ (place h 0 0).2 < m.2 ∧ m.2 < (place h 199 199).2 := by
  intro m hm
  simp only [Heatmap.initMu, List.mem_map] at hm
  obtain ⟨u, h1, rfl⟩ := hm
  obtain ⟨⟨h2, h3⟩, h4, h5⟩ := hu u h1
  simp only [where_, offset, hc, hh]
  push_cast
  refine ⟨⟨?_, ?_⟩, ?_, ?_⟩ <;> nlinarith

theorem shown_eq (h : Heatmap) (a b : Nat) (hb : b < 200) : shown h a b = h.gmm (h.xyFix.1 + offset h b, h.xyFix.2 + offset h a) * h.gmm (h.xyFix.1 + offset h b, h.xyFix.2 + offset h a) := by
  have e1 : (a * 200 + b) / 200 = a := by omega
  have e2 : (a * 200 + b) % 200 = b := by omega
  have hx : xs h b = h.xyFix.1 + offset h b := congrArg Prod.fst (where_ h b a)
  have hy : ys h a = h.xyFix.2 + offset h a := congrArg Prod.snd (where_ h b a)
  unfold shown zOf grid value rows rev stack mesh
  simp only [steps, e1, e2, if_true, one_ne_zero, if_false, hx, hy]

theorem density_mirror (h : Heatmap) (u v : ℝ) : (mirror h).density (h.xyFix.1 + u, h.xyFix.2 + v) = h.density (h.xyFix.1 + v, h.xyFix.2 + u) := by
  unfold Heatmap.density mirror
  simp only [List.length_map, List.zip_map, List.map_map]
  congr 2
  apply List.map_congr_left
  rintro ⟨m, s⟩ -
  simp only [Function.comp, Prod.map]
  unfold Panel.normalLogProb
  rw [show h.xyFix.1 + u - (h.xyFix.1 + (m.2 - h.xyFix.2)) = h.xyFix.2 + u - m.2 by ring, show h.xyFix.2 + v - (h.xyFix.2 + (m.1 - h.xyFix.1)) = h.xyFix.1 + v - m.1 by ring]
  congr 1
  ring

theorem peak_mirror (h : Heatmap) : (mirror h).peak = h.peak := by
  unfold Heatmap.peak
  have : (mirror h).mu.map (mirror h).density = h.mu.map h.density := by
    show (h.mu.map _).map _ = _
    rw [List.map_map]
    apply List.map_congr_left
    intro m _
    simp only [Function.comp]
    rw [density_mirror]
    congr 1
    ext <;> ring
  rw [this]

theorem gmm_mirror (h : Heatmap) (u v : ℝ) : (mirror h).gmm (h.xyFix.1 + u, h.xyFix.2 + v) = h.gmm (h.xyFix.1 + v, h.xyFix.2 + u) := by
  unfold Heatmap.gmm
  rw [density_mirror, peak_mirror]
  rfl

/-- **C146: what is shown.** The picture is that of the mirrored map: every point shows the response of the heat map at the point with the offsets in x and y exchanged. -/
theorem mirrored (h : Heatmap) (a b : Nat) (hb : b < 200) : shown h a b = (mirror h).gmm (place h a b) * (mirror h).gmm (place h a b) := by
  rw [shown_eq h a b hb, where_, gmm_mirror]

/-- **C146: when it is right.** The picture shows every point as it is if the map does not change when it is mirrored, and is right on the diagonal in any case. -/
theorem right (h : Heatmap) (a b : Nat) (hb : b < 200) (hm : a = b ∨ mirror h = h) : shown h a b = h.gmm (place h a b) * h.gmm (place h a b) := by
  rcases hm with rfl | hm
  · rw [shown_eq h a a hb, where_]
  · rw [mirrored h a b hb, hm]

/-- **C146: what the numbers mean.** In training, and without realistic validation, the efficiency of the heat map at a point is its nominal efficiency times the response there, but at most times one. -/
theorem meaning (h : Heatmap) (hc : h.training = true ∨ h.realistic = false) (q : ℝ × ℝ) (inside : Bool) : h.effAt q inside = h.eff * fraction h q := by
  have h1 : h.continuous = true := by rcases hc with h | h <;> simp [Heatmap.continuous, h]
  have h0 : 0 ≤ h.gmm q := sqrt_nonneg _
  unfold Heatmap.effAt fraction
  rw [if_pos h1]
  congr 1
  rcases le_total 1 (h.gmm q) with h2 | h2
  · rw [min_eq_left h2, min_eq_left (by nlinarith), one_mul]
  · rw [min_eq_right h2, min_eq_right (by nlinarith)]

/-- one cluster at a place `m` -/
def single (h : Heatmap) (m s : ℝ × ℝ) : Heatmap := C123.withClusters h [(m, s)]

theorem single_gmm (h : Heatmap) (hn : 0 ≤ h.norm) (m s : ℝ × ℝ) (hs : 0 < s.1 ∧ 0 < s.2) (q : ℝ × ℝ) :
    (single h m s).gmm q * (single h m s).gmm q = h.norm * exp (-((q.1 - m.1) ^ 2 / (2 * s.1 ^ 2) + (q.2 - m.2) ^ 2 / (2 * s.2 ^ 2))) := by
  have hw : C123.Wide [(m, s)] := by simpa [C123.Wide] using hs
  have hM : C123.Highest [(m, s)] (1 / (s.1 * s.2)) := by
    have : C123.cover [(m, s)] m = 1 / (s.1 * s.2) := by simp [C123.cover, C123.gauss]
    constructor
    · exact ⟨(m, s), List.mem_singleton.mpr rfl, this.symm⟩
    · rintro x ⟨c, hc, rfl⟩
      rw [List.mem_singleton] at hc
      rw [hc]
      exact this.le
  obtain ⟨h1, h2⟩ := hs
  rw [single, C123.gmm_eq h _ hw _ hM, mul_self_sqrt]
  · simp only [C123.cover, C123.gauss, List.map_cons, List.map_nil, List.sum_cons, List.sum_nil, add_zero]
    field_simp
  · have := (C123.cover_pos [(m, s)] (by simp) hw q).le
    positivity

/-- **C146 is refuted by the code.** The picture is wrong wherever a map is not its own mirror image: a map of one cluster in the centre with different widths along x and y is shown wrongly at every point whose
offsets along x and y differ in size. -/
theorem mirror_violated (h : Heatmap) (hn : 0 < h.norm) (s : ℝ × ℝ) (hs : 0 < s.1 ∧ 0 < s.2) (hd : s.1 ≠ s.2) (a b : Nat) (hb : b < 200) (hab : offset h a ^ 2 ≠ offset h b ^ 2) :
    shown (single h h.xyFix s) a b ≠ (single h h.xyFix s).gmm (place (single h h.xyFix s) a b) * (single h h.xyFix s).gmm (place (single h h.xyFix s) a b) := by
  rw [where_, shown_eq _ _ _ hb, single_gmm h hn.le _ _ hs, single_gmm h hn.le _ _ hs]
  change h.norm * exp (-((h.xyFix.1 + offset h b - h.xyFix.1) ^ 2 / (2 * s.1 ^ 2) + (h.xyFix.2 + offset h a - h.xyFix.2) ^ 2 / (2 * s.2 ^ 2))) ≠
    h.norm * exp (-((h.xyFix.1 + offset h a - h.xyFix.1) ^ 2 / (2 * s.1 ^ 2) + (h.xyFix.2 + offset h b - h.xyFix.2) ^ 2 / (2 * s.2 ^ 2)))
  simp only [add_sub_cancel_left]
  intro e
  have e1 := exp_injective (mul_left_cancel₀ hn.ne' e)
  obtain ⟨h1, h2⟩ := hs
  have e2 : (offset h b ^ 2 - offset h a ^ 2) * (s.2 ^ 2 - s.1 ^ 2) = 0 := by
    field_simp at e1
    nlinarith
  rcases mul_eq_zero.mp e2 with h3 | h3
  · exact hab (by linarith)
  · have : (s.2 - s.1) * (s.2 + s.1) = 0 := by linarith
    rcases mul_eq_zero.mp this with h4 | h4
    · exact hd (by linarith)
    · linarith

/-- **C146 is refuted by the code.** The numbers shown are not limited to one: a map scaled by more than one shows, where its cluster is, a number above the fraction of the nominal efficiency, which is one. -/
theorem scale_violated (h : Heatmap) (hn : 1 < h.norm) (s : ℝ × ℝ) (hs : 0 < s.1 ∧ 0 < s.2) (a : Nat) (ha : a < 200) :
    shown (single h (place h a a) s) a a = h.norm ∧ fraction (single h (place h a a) s) (place (single h (place h a a) s) a a) = 1 := by
  have hp : place (single h (place h a a) s) a a = place h a a := rfl
  have e := single_gmm h (by linarith) (place h a a) s hs (place h a a)
  simp only [sub_self, ne_eq, OfNat.ofNat_ne_zero, not_false_eq_true, zero_pow, zero_div, add_zero, neg_zero, exp_zero, mul_one] at e
  rw [right _ a a ha (.inl rfl), fraction, hp, e]
  exact ⟨rfl, min_eq_left hn.le⟩

/-! ### The hypotheses can be met -/

/-- a heat map two metres wide -/
def sample (norm : ℝ) : Heatmap :=
  { res := 1, eff := 1, m2cost := 1, xyFix := (1, 2), xySpanFix := (0, 2), deltaXy := 2, mu := [(1, 2)], sig := [(1, 3)], norm := norm, z := 0, realistic := true, training := true }

/-- along the edge and in the middle of it: shown as if the wide direction were the narrow one -/
example : shown (single (sample 1) (sample 1).xyFix (1, 3)) 0 100 ≠
    (single (sample 1) (sample 1).xyFix (1, 3)).gmm (place (single (sample 1) (sample 1).xyFix (1, 3)) 0 100) * (single (sample 1) (sample 1).xyFix (1, 3)).gmm (place (single (sample 1) (sample 1).xyFix (1, 3)) 0 100) :=
  mirror_violated (sample 1) (by norm_num [sample]) (1, 3) (by norm_num) (by norm_num) 0 100 (by norm_num) (by norm_num [offset, sample])

example : shown (single (sample 1.5) (place (sample 1.5) 20 20) (1, 3)) 20 20 = 1.5 := (scale_violated (sample 1.5) (by norm_num [sample]) (1, 3) (by norm_num) 20 (by norm_num)).1

/-- a map that is its own mirror image -/
example : mirror (single (sample 1) (1, 2) (3, 3)) = single (sample 1) (1, 2) (3, 3) := by
  simp [mirror, single, C123.withClusters, sample]

example : ∀ m ∈ Heatmap.initMu (1, 2) 2 [(0.25, 0.75)], (place (sample 1) 0 0).1 < m.1 := fun m hm =>
  ((centres (1, 2) 2 (by norm_num) [(0.25, 0.75)] (by norm_num) (sample 1) rfl rfl) m hm).1.1

end C146

end

end Tomopt
