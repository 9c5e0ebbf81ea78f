import Verif.Lemmas.FurnacePlots
import Mathlib.Tactic.Linarith
import Mathlib.Tactic.FieldSimp
import Mathlib.Algebra.BigOperators.Group.List.Basic
import Mathlib.Algebra.Order.BigOperators.Group.List

/- C150: what the comparison plots of the furnace benchmark show. -/
namespace Tomopt

noncomputable section

namespace C150

open FurnacePlots

/-- **C150: columns.** If the columns asked for are in the table, the curve shows the column for every level; the legend gives the mean, or the mean modulus, of the whole column. If one is missing nothing is shown. -/
theorem curve_spec (k : Kind) (t : Table) (cs : List String) (c : String) : ((∃ d ∈ cs, d ∉ t.names) → curve k t cs c = .error .keyError) ∧
    ((∀ d ∈ cs, d ∈ t.names) → ∃ v, curve k t cs c = .ok v ∧ Drawn k t c v) := by
  constructor
  · rintro ⟨d, h1, h2⟩
    have : (cs.all fun c => t.names.contains c) = false := by
      rw [← Bool.not_eq_true, List.all_eq_true]
      intro h
      exact h2 (by simpa using h d h1)
    simp only [curve, agg, this]
    rfl
  · intro h
    have : (cs.all fun c => t.names.contains c) = true := by
      rw [List.all_eq_true]
      intro d hd
      simpa using h d hd
    refine ⟨⟨_, label k t c⟩, by simp only [curve, agg, this]; rfl, shows t c, ?_⟩
    cases k with
    | pred => rfl
    | bias => simp [label, mean, whole, Function.comp_def]
    | mse => simp [label, mean, whole]

theorem col_eq (k : Kind) (n : Bool) : column k n = k.col n := by cases k <;> cases n <;> rfl

/-- **C150: predictions before and after the correction.** The three figures show, for predictions, biases and squared errors, the column as it is and the corrected one. -/
theorem raw (t : Table) (h : ∀ k : Kind, ∀ n, column k n ∈ t.names) : ∃ f, compareRaw t = .ok f ∧ f.length = 3 ∧
    ∀ (i : Nat) (k : Kind), [Kind.pred, .bias, .mse][i]? = some k → ∃ a b : Curve, f[i]? = some [a, b] ∧ Drawn k t (column k false) a ∧ Drawn k t (column k true) b := by
  simp only [col_eq] at h ⊢
  have hk : ∀ k : Kind, ∃ a b, rawFigure t k = .ok [a, b] ∧ Drawn k t (k.col false) a ∧ Drawn k t (k.col true) b := by
    intro k
    have hc : ∀ d ∈ [k.col false, k.col true], d ∈ t.names := by
      intro d hd
      simp only [List.mem_cons, List.not_mem_nil, or_false] at hd
      rcases hd with rfl | rfl <;> exact h _ _
    obtain ⟨a, h1, h2⟩ := (curve_spec k t _ (k.col false)).2 hc
    obtain ⟨b, h3, h4⟩ := (curve_spec k t _ (k.col true)).2 hc
    exact ⟨a, b, by simp only [rawFigure, h1, h3, figure], h2, h4⟩
  obtain ⟨a1, b1, e1, s1⟩ := hk .pred
  obtain ⟨a2, b2, e2, s2⟩ := hk .bias
  obtain ⟨a3, b3, e3, s3⟩ := hk .mse
  refine ⟨[[a1, b1], [a2, b2], [a3, b3]], by simp only [compareRaw, List.map_cons, List.map_nil, e1, e2, e3, figures], rfl, ?_⟩
  intro i k hi
  match i with
  | 0 => simp at hi; subst hi; exact ⟨a1, b1, rfl, s1⟩
  | 1 => simp at hi; subst hi; exact ⟨a2, b2, rfl, s2⟩
  | 2 => simp at hi; subst hi; exact ⟨a3, b3, rfl, s3⟩
  | i + 3 => simp at hi

/-- **C150: before and after the optimisation.** The three figures show the corrected columns of the first table and of the second. -/
theorem optimised (start opt : Table) (h : ∀ k : Kind, ∀ n, column k n ∈ start.names) (h1 : ∀ k : Kind, column k true ∈ opt.names) (h2 : "pred" ∈ opt.names) : ∃ f, compareOpt start opt = .ok f ∧ f.length = 3 ∧
    ∀ (i : Nat) (k : Kind), [Kind.pred, .bias, .mse][i]? = some k → ∃ a b : Curve, f[i]? = some [a, b] ∧ Drawn k start (column k true) a ∧ Drawn k opt (column k true) b := by
  simp only [col_eq] at h h1 ⊢
  have hk : ∀ k : Kind, ∃ a b, optFigure start opt k = .ok [a, b] ∧ Drawn k start (k.col true) a ∧ Drawn k opt (k.col true) b := by
    intro k
    have hc : ∀ d ∈ [k.col false, k.col true], d ∈ start.names := by
      intro d hd
      simp only [List.mem_cons, List.not_mem_nil, or_false] at hd
      rcases hd with rfl | rfl <;> exact h _ _
    have hc' : ∀ d ∈ (if k = .pred then [k.col false, k.col true] else [k.col true]), d ∈ opt.names := by
      intro d hd
      split at hd
      · rename_i e
        subst e
        simp only [List.mem_cons, List.not_mem_nil, or_false] at hd
        rcases hd with rfl | rfl
        · exact h2
        · exact h1 _
      · rw [List.mem_singleton.mp hd]
        exact h1 _
    obtain ⟨a, e1, e2⟩ := (curve_spec k start _ (k.col true)).2 hc
    obtain ⟨b, e3, e4⟩ := (curve_spec k opt _ (k.col true)).2 hc'
    exact ⟨a, b, by simp only [optFigure, e1, e3, figure], e2, e4⟩
  obtain ⟨a1, b1, e1, s1⟩ := hk .pred
  obtain ⟨a2, b2, e2, s2⟩ := hk .bias
  obtain ⟨a3, b3, e3, s3⟩ := hk .mse
  refine ⟨[[a1, b1], [a2, b2], [a3, b3]], by simp only [compareOpt, List.map_cons, List.map_nil, e1, e2, e3, figures], rfl, ?_⟩
  intro i k hi
  match i with
  | 0 => simp at hi; subst hi; exact ⟨a1, b1, rfl, s1⟩
  | 1 => simp at hi; subst hi; exact ⟨a2, b2, rfl, s2⟩
  | 2 => simp at hi; subst hi; exact ⟨a3, b3, rfl, s3⟩
  | i + 3 => simp at hi

/-- **C150: baselines.** The three figures show the corrected columns of both baselines and of the optimised detector. -/
theorem baselines (one two opt : Table) (h : ∀ t ∈ [one, two, opt], ∀ k : Kind, column k true ∈ t.names) : ∃ f, compareBase one two opt = .ok f ∧ f.length = 3 ∧
    ∀ (i : Nat) (k : Kind), [Kind.pred, .bias, .mse][i]? = some k → ∃ a b c : Curve, f[i]? = some [a, b, c] ∧ Drawn k one (column k true) a ∧ Drawn k two (column k true) b ∧ Drawn k opt (column k true) c := by
  simp only [col_eq] at h ⊢
  have hk : ∀ k : Kind, ∃ a b c : Curve, baseFigure one two opt k = .ok [a, b, c] ∧ Drawn k one (k.col true) a ∧ Drawn k two (k.col true) b ∧ Drawn k opt (k.col true) c := by
    intro k
    have hc : ∀ t ∈ [one, two, opt], ∀ d ∈ [k.col true], d ∈ t.names := by
      intro t ht d hd
      rw [List.mem_singleton.mp hd]
      exact h t ht k
    obtain ⟨a, e1, e2⟩ := (curve_spec k one _ (k.col true)).2 (hc one (by simp))
    obtain ⟨b, e3, e4⟩ := (curve_spec k two _ (k.col true)).2 (hc two (by simp))
    obtain ⟨c, e5, e6⟩ := (curve_spec k opt _ (k.col true)).2 (hc opt (by simp))
    exact ⟨a, b, c, by simp only [baseFigure, List.map_cons, List.map_nil, e1, e3, e5, figure], e2, e4, e6⟩
  obtain ⟨a1, b1, c1, e1, s1⟩ := hk .pred
  obtain ⟨a2, b2, c2, e2, s2⟩ := hk .bias
  obtain ⟨a3, b3, c3, e3, s3⟩ := hk .mse
  refine ⟨[[a1, b1, c1], [a2, b2, c2], [a3, b3, c3]], by simp only [compareBase, List.map_cons, List.map_nil, e1, e2, e3, figures], rfl, ?_⟩
  intro i k hi
  match i with
  | 0 => simp at hi; subst hi; exact ⟨a1, b1, c1, rfl, s1⟩
  | 1 => simp at hi; subst hi; exact ⟨a2, b2, c2, rfl, s2⟩
  | 2 => simp at hi; subst hi; exact ⟨a3, b3, c3, rfl, s3⟩
  | i + 3 => simp at hi

/-- **C150: legend and curve.** The mean in the legend is the mean of the points of the curve, weighted with the numbers of rows at their levels: no row is left out or counted twice. -/
theorem weighted (k : Kind) (hk : k = .mse) (t : Table) (c : String) (v : Curve) (h : Drawn k t c v) (hr : t.rows ≠ []) :
    v.label = .mean (some ((v.points.map fun p => p.y.getD 0 * ((t.rows.filter fun r => decide (r.target = p.x)).length : ℝ)).sum / t.rows.length)) := by
  subst hk
  have h1 := h.legend
  simp only [if_neg hr] at h1
  rw [h1]
  have h2 : (v.points.map fun p => p.y.getD 0 * ((t.rows.filter fun r => decide (r.target = p.x)).length : ℝ)).sum = (t.rows.map (·.col c)).sum := by
    have hnd : (v.points.map Point.x).Nodup := h.curve.increasing.imp fun a => ne_of_lt a
    rw [← split_sum c t.rows (v.points.map Point.x) hnd fun r hr => (h.curve.complete _).mpr ⟨r, hr, rfl⟩, List.map_map]
    congr 1
    refine List.map_congr_left fun p hp => ?_
    obtain ⟨e, -⟩ := h.curve.value p hp _ (.refl _)
    obtain ⟨r, hr, er⟩ := (h.curve.complete p.x).mp (List.mem_map_of_mem hp)
    have hpos : 0 < (t.rows.filter fun r => decide (r.target = p.x)).length := List.length_pos_of_mem (List.mem_filter.mpr ⟨hr, by simpa using er⟩)
    rw [e, List.length_map]
    simp only [Option.getD_some, Function.comp_apply]
    exact div_mul_cancel₀ _ (by positivity)
  rw [h2]

/-- **C150: the figures agree.** If the squared errors in a table are the squares of the biases, then at every level the point of the curve of squared errors is the square of the mean bias and the
spread of the biases together: the two figures tell the same. -/
theorem agree (t : Table) (b m : String) (h : ∀ r ∈ t.rows, r.col m = r.col b ^ 2) (pb pm : List Point) (hb : Shows t b pb) (hm : Shows t m pm) :
    ∀ p ∈ pb, ∃ q ∈ pm, q.x = p.x ∧ ∃ y z, p.y = some y ∧ q.y = some z ∧
      ∀ e, p.err = some e → z = y ^ 2 + e ^ 2 * ((((t.rows.filter fun r => decide (r.target = p.x)).length : ℝ) - 1) / (t.rows.filter fun r => decide (r.target = p.x)).length) := by
  intro p hp
  obtain ⟨q, hq, e⟩ := List.mem_map.mp ((hm.complete p.x).mpr ((hb.complete p.x).mp (List.mem_map_of_mem hp)))
  refine ⟨q, hq, e, ?_⟩
  obtain ⟨y1, -, y3⟩ := hb.value p hp _ (.refl _)
  obtain ⟨z1, -, -⟩ := hm.value q hq _ (.refl _)
  refine ⟨_, _, y1, z1, fun er her => ?_⟩
  obtain ⟨-, d2⟩ := y3 er her
  rw [dev_sum] at d2
  rw [e]
  set rs := t.rows.filter fun r => decide (r.target = p.x) with hrs
  have hne : rs ≠ [] := by
    obtain ⟨r, hr, er⟩ := (hb.complete p.x).mp (List.mem_map_of_mem hp)
    exact List.ne_nil_of_mem (List.mem_filter.mpr ⟨hr, by simpa using er⟩)
  have hsq : (rs.map fun r => r.col m).sum = ((rs.map fun r => r.col b).map fun x => x ^ 2).sum := by
    rw [List.map_map]
    congr 1
    exact List.map_congr_left fun r hr => h r (List.mem_filter.mp hr).1
  have hn : (rs.length : ℝ) ≠ 0 := by
    have := List.length_pos_iff.mpr hne
    positivity
  simp only [List.length_map] at d2 ⊢
  rw [hsq]
  have d3 : ((rs.map fun r => r.col b).map fun x => x ^ 2).sum = er ^ 2 * (rs.length - 1) + (rs.map fun r => r.col b).sum ^ 2 / rs.length := by
    rw [d2]
    field_simp
    ring
  rw [d3]
  field_simp
  ring

/-- **C150 is refuted by the code.** The comparison of the optimised detector with the initial one shows corrected columns only; but it fails if the table of the initial one lacks the columns before the correction. -/
theorem columns_violated (start opt : Table) (h : "pred" ∉ start.names) : compareOpt start opt = .error .keyError := by
  have := (curve_spec .pred start [Kind.col .pred false, Kind.col .pred true] (Kind.col .pred true)).1 ⟨"pred", by simp [Kind.col], h⟩
  simp only [compareOpt, List.map_cons, optFigure, this, figure, figures]

/-- a table with two levels -/
def sample : Table := ⟨["pred", "new_pred", "bias", "new_bias", "mse", "new_mse"], [⟨1, fun _ => 1⟩, ⟨0, fun _ => 0⟩, ⟨1, fun _ => 0⟩]⟩

example : (∀ k : Kind, ∀ n, column k n ∈ sample.names) ∧ ∀ r ∈ sample.rows, r.col "mse" = r.col "bias" ^ 2 := by
  constructor
  · intro k n
    cases k <;> cases n <;> simp [column, sample]
  · simp [sample]

example : ∃ f, compareRaw sample = .ok f ∧ f.length = 3 := by
  obtain ⟨f, h1, h2, -⟩ := raw sample (by intro k n; cases k <;> cases n <;> simp [column, sample])
  exact ⟨f, h1, h2⟩

example : ∃ start opt : Table, "pred" ∉ start.names ∧ (∀ k : Kind, column k true ∈ start.names) ∧ ∀ k : Kind, ∀ n, column k n ∈ opt.names := by
  refine ⟨⟨["new_pred", "new_bias", "new_mse"], sample.rows⟩, sample, by simp, ?_, ?_⟩
  · intro k
    cases k <;> simp [column]
  · intro k n
    cases k <;> cases n <;> simp [column, sample]

/-- the level 1 of the sample has two rows, the level 0 one: the first has an error bar -/
example (v : Curve) (h : Drawn .mse sample "mse" v) : ∀ p ∈ v.points, p.x = 0 → p.err = none := by
  intro p hp hx
  refine ((h.curve.value p hp _ (.refl _)).2.1).mpr ?_
  simp [sample, hx]

end C150

end

end Tomopt
