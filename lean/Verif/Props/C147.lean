import Verif.Model.LivePlot
import Verif.Props.C51

/- C147: what the live plots of a fit show. -/
namespace Tomopt

noncomputable section

namespace C147

open LivePlot

/-! ### Parts of the figure -/

/-- Two parts of a figure have no common place. -/
def Apart (a b : Cell) : Prop := (a.rows.2 ≤ b.rows.1 ∨ b.rows.2 ≤ a.rows.1) ∨ a.cols.2 ≤ b.cols.1 ∨ b.cols.2 ≤ a.cols.1

instance (a b : Cell) : Decidable (Apart a b) := inferInstanceAs (Decidable (_ ∨ _))

/-- **C147: places.** Without metrics every plot has a place of its own. -/
theorem places : (∃ ps, basePrep false = .ok ps ∧ ps.map (·.1) = [.loss, .composition] ∧ ps.Pairwise fun a b => Apart a.2 b.2) ∧
    ∀ sig, ∃ ps, panelPrep false sig = .ok ps ∧
      ps.map (·.1) = [.loss, .composition, .above 0, .above 1, .above 2, .below 0, .below 1, .below 2] ++ (if sig then [.smoothness] else []) ∧ ps.Pairwise fun a b => Apart a.2 b.2 := by
  refine ⟨⟨_, rfl, by decide, by decide⟩, fun sig => ?_⟩
  cases sig <;> exact ⟨_, rfl, by decide, by decide⟩

/-- **C147 is refuted by the code.** With a metric the figure of the plain logger cannot be made, so that the fit fails when it begins. -/
theorem metric_violated : basePrep true = .error .indexError := by decide

/-- **C147 is refuted by the code.** With a metric, the logger of panels draws the detectors over the metric and over the composition of the loss. -/
theorem overlap_violated (sig : Bool) : ∃ ps m c, panelPrep true sig = .ok ps ∧ (Plot.metric, m) ∈ ps ∧ (Plot.composition, c) ∈ ps ∧
    ∀ i < 3, ∃ a b, (Plot.above i, a) ∈ ps ∧ (Plot.below i, b) ∈ ps ∧ ¬ Apart a c ∧ ¬ Apart b m := by
  cases sig
  · refine ⟨_, ⟨(4, 5), (0, 3)⟩, ⟨(3, 4), (0, 3)⟩, rfl, by decide, by decide, fun i hi => ⟨⟨(3, 4), (i, i + 1)⟩, ⟨(4, 5), (i, i + 1)⟩, ?_⟩⟩
    obtain rfl | rfl | rfl : i = 0 ∨ i = 1 ∨ i = 2 := by omega
    all_goals decide
  · refine ⟨_, ⟨(4, 5), (0, 4)⟩, ⟨(3, 4), (0, 4)⟩, rfl, by decide, by decide, fun i hi => ⟨⟨(3, 4), (i, i + 1)⟩, ⟨(4, 5), (i, i + 1)⟩, ?_⟩⟩
    obtain rfl | rfl | rfl : i = 0 ∨ i = 1 ∨ i = 2 := by omega
    all_goals decide

/-! ### Curves -/

/-- **C147: losses.** With as many training losses per epoch as updates, and a composition for every epoch, the curves can be drawn. The `i`-th training loss is at the fraction of epochs done after it, so that the last
one of every epoch is at the number of that epoch, which is where the validation loss of the epoch is; the line of the best loss spans all epochs. -/
theorem losses (n : Nat) (hn : 0 < n) (l : Fit.Logger) (hE : l.val ≠ []) (ht : l.trn.length = n * l.val.length) (subs : List (List ℝ)) (hs : subs ≠ []) (hs' : ∀ s ∈ subs, s.length = l.val.length) :
    ∃ c, lossCurves n l subs = .ok c ∧
      (∀ i x, l.trn[i]? = some x → c.train[i]? = some (((i + 1 : Nat) : ℝ) / n, x)) ∧ c.train.length = n * l.val.length ∧
      (∀ e x, l.val[e]? = some x → c.valid[e]? = some (e + 1, x) ∧ ∃ y, c.train[n * (e + 1) - 1]? = some (((e + 1 : Nat) : ℝ), y)) ∧ c.valid.length = l.val.length ∧
      c.composition = subs.map (fun s => ((List.range l.val.length).map (· + 1)).zip s) ∧ c.best = ((1 / (n : ℝ), l.best), (l.val.length, l.best)) := by
  have hEp : 0 < l.val.length := List.length_pos_iff.mpr hE
  have hn' : (n : ℝ) ≠ 0 := by positivity
  have hE' : (l.val.length : ℝ) ≠ 0 := by positivity
  have h1 : trainX n l.val.length = .ok ((List.range (n * l.val.length)).map fun i : Nat => ((i + 1 : Nat) : ℝ) / n) := by
    unfold trainX
    rw [if_neg hn.ne']
    congr 1
    apply List.map_congr_left
    intro i _
    push_cast
    field_simp
    ring
  have h2 : stackplot ((List.range l.val.length).map (· + 1)) subs = .ok (subs.map fun s => ((List.range l.val.length).map (· + 1)).zip s) := by
    unfold stackplot
    rw [if_neg hs, if_pos]
    simpa using hs'
  have h3 : ((List.range l.val.length).map (· + 1)).getLast? = some l.val.length := by
    obtain ⟨E, hE⟩ := Nat.exists_eq_succ_of_ne_zero hEp.ne'
    rw [hE, List.range_succ]
    simp
  have htr : ∀ i x, l.trn[i]? = some x → (((List.range (n * l.val.length)).map fun i : Nat => ((i + 1 : Nat) : ℝ) / n).zip l.trn)[i]? = some (((i + 1 : Nat) : ℝ) / n, x) := by
    intro i x hx
    obtain ⟨hi, -⟩ := List.getElem?_eq_some_iff.mp hx
    rw [List.getElem?_zip_eq_some]
    refine ⟨?_, hx⟩
    rw [List.getElem?_map, List.getElem?_range (by omega)]
    rfl
  refine ⟨⟨((List.range (n * l.val.length)).map fun i : Nat => ((i + 1 : Nat) : ℝ) / n).zip l.trn, ((List.range l.val.length).map (· + 1)).zip l.val, _, _⟩, ?_, htr, ?_, ?_, ?_, rfl, rfl⟩
  · unfold lossCurves
    simp only [h1, curve, List.length_map, List.length_range, ht, if_true, h2, h3]
  · simp [ht]
  · intro e x hx
    obtain ⟨he, -⟩ := List.getElem?_eq_some_iff.mp hx
    constructor
    · rw [List.getElem?_zip_eq_some]
      refine ⟨?_, hx⟩
      rw [List.getElem?_map, List.getElem?_range he]
      rfl
    · have hlt : n * (e + 1) - 1 < l.trn.length := by
        rw [ht]
        have : n * (e + 1) ≤ n * l.val.length := Nat.mul_le_mul_left n he
        have : 0 < n * (e + 1) := by positivity
        omega
      refine ⟨l.trn[n * (e + 1) - 1], ?_⟩
      rw [htr _ _ (List.getElem?_eq_getElem hlt)]
      have : n * (e + 1) - 1 + 1 = n * (e + 1) := by
        have : 0 < n * (e + 1) := by positivity
        omega
      rw [this]
      push_cast
      congr 2
      field_simp
  · simp

/-- **C147: errors.** Without a complete batch of training volumes, with another number of training losses, and without a composition of the loss, an error is raised. -/
theorem errors (n : Nat) (l : Fit.Logger) (subs : List (List ℝ)) :
    (n = 0 → lossCurves n l subs = .error .zeroDivision) ∧ (0 < n → l.trn.length ≠ n * l.val.length → lossCurves n l subs = .error .valueError) ∧
    (0 < n → l.trn.length = n * l.val.length → subs = [] → lossCurves n l subs = .error .valueError) := by
  refine ⟨fun h => ?_, fun h h' => ?_, fun h h' h'' => ?_⟩
  · simp [lossCurves, trainX, h]
  · simp only [lossCurves, trainX, if_neg h.ne', curve, List.length_map, List.length_range]
    rw [if_neg (Ne.symm h')]
  · simp [lossCurves, trainX, if_neg h.ne', curve, h', h'', stackplot]

open Fit in
/-- **C147: in a fit.** After every fit with validation that ends normally there are as many training losses as the curves need. -/
theorem in_a_fit {W V P C : Type} (E : Env W V P) (c : Conf) (hb : 0 < c.bs) (k : Nat) (lg : W → Logger) (hlog : Logs E k lg) (mkdir : W → Except Err Unit × W) (n : Nat) (trn val : Passives V)
    (htrn : trn.len = trn.vols.length) (hval : val.len = val.vols.length ∧ c.bs ≤ val.vols.length) (o o' : Outer W V P C) (hk : k < o.cbList.length)
    (h : Fit.fit E c mkdir n trn (some val) o = (.ok (), o')) : (lg o'.w).trn.length = trn.vols.length / c.bs * (lg o'.w).val.length := by
  obtain ⟨p, rs, hp, -, hr, -, h1, h2⟩ := C51.histories E c hb k lg hlog mkdir n trn (some val) htrn (fun v hv => by cases hv; exact hval) o o' hk h
  rw [h1, h2]
  simp only [Option.isSome_some, if_true, List.length_map, List.length_flatMap]
  have : ∀ r ∈ rs, (C51.batchLosses p r.trn).length = trn.vols.length / c.bs := by
    intro r hr'
    have := (hr r hr').1
    rw [C51.batchLosses, List.length_map, List.length_range, hp, ← this, List.length_map]
  rw [List.map_congr_left this]
  simp [mul_comm]

/-- **C147 is refuted by the code.** The curve of a metric, whose axis says "Epoch", has the metric of an epoch not at the number of the epoch but at the number of updates made: only with one update per epoch are the two the same. -/
theorem epochs_violated (n : Nat) (vals : List ℝ) (hv : 1 < vals.length) : ∃ c, metricCurve n vals = .ok c ∧ ∀ e x, vals[e]? = some x → c[e]? = some (n * (e + 1), x) ∧ (n * (e + 1) = e + 1 ↔ n = 1) := by
  refine ⟨(metricX n vals.length).zip vals, ?_, ?_⟩
  · simp only [metricCurve, if_pos hv, curve, metricX, List.length_map, List.length_range, if_true]
  · intro e x hx
    obtain ⟨he, -⟩ := List.getElem?_eq_some_iff.mp hx
    constructor
    · rw [List.getElem?_zip_eq_some]
      refine ⟨?_, hx⟩
      rw [metricX, List.getElem?_map, List.getElem?_range he]
      simp only [Option.map_some]
      congr 1
      ring
    · constructor
      · intro h
        exact Nat.eq_of_mul_eq_mul_right (Nat.succ_pos e) (by simpa using h)
      · rintro rfl
        omega

/-! ### Detectors -/

theorem minOf_le (x : ℝ) (xs : List ℝ) : minOf x xs ≤ x ∧ ∀ y ∈ xs, minOf x xs ≤ y := by
  unfold minOf
  induction xs generalizing x with
  | nil => simp
  | cons a xs ih =>
    obtain ⟨h1, h2⟩ := ih (min x a)
    refine ⟨h1.trans (min_le_left _ _), fun y hy => ?_⟩
    rcases List.mem_cons.mp hy with rfl | hy
    · exact h1.trans (min_le_right _ _)
    · exact h2 y hy

theorem le_maxOf (x : ℝ) (xs : List ℝ) : x ≤ maxOf x xs ∧ ∀ y ∈ xs, y ≤ maxOf x xs := by
  unfold maxOf
  induction xs generalizing x with
  | nil => simp
  | cons a xs ih =>
    obtain ⟨h1, h2⟩ := ih (max x a)
    refine ⟨(le_max_left _ _).trans h1, fun y hy => ?_⟩
    rcases List.mem_cons.mp hy with rfl | hy
    · exact (le_max_right _ _).trans h1
    · exact h2 y hy

theorem plain_map (ps : List Panel) : plain (ps.map .panel) = some ps := by
  induction ps with
  | nil => rfl
  | cons p ps ih => simp [plain, ih]

/-- **C147: shapes.** A panel is drawn with its extent, at its height, in the three views: seen along y, along x and from above. -/
theorem shapes (p : Panel) : (drawPanel p).1.b - (drawPanel p).1.a = p.scaledSpan.1 ∧ ((drawPanel p).1.a + (drawPanel p).1.b) / 2 = p.xy.1 ∧ (drawPanel p).1.z = p.z ∧
    (drawPanel p).2.1.b - (drawPanel p).2.1.a = p.scaledSpan.2 ∧ ((drawPanel p).2.1.a + (drawPanel p).2.1.b) / 2 = p.xy.2 ∧ (drawPanel p).2.1.z = p.z ∧
    (drawPanel p).2.2.size = p.scaledSpan ∧ (drawPanel p).2.2.low = ((drawPanel p).1.a, (drawPanel p).2.1.a) := by
  refine ⟨?_, ?_, rfl, ?_, ?_, rfl, rfl, rfl⟩ <;> simp only [drawPanel] <;> ring

/-- `x` is between the two limits -/
def In (x : ℝ) (l : ℝ × ℝ) : Prop := l.1 ≤ x ∧ x ≤ l.2

/-- **C147: visible.** For a layer of panels that are in the layer, everything drawn of each panel is within the limits of its view. -/
theorem visible (L : DetLayer) (ps : List Panel) (hne : ps ≠ []) (hps : L.panels = ps.map .panel) (hl : 0 ≤ L.lw.1 ∧ 0 ≤ L.lw.2) (hsz : 0 ≤ L.size)
    (hp : ∀ p ∈ ps, (0 ≤ p.scaledSpan.1 ∧ 0 ≤ p.scaledSpan.2) ∧ L.z - L.size ≤ p.z ∧ p.z ≤ L.z) :
    ∃ lim, limits L = .ok lim ∧ ∀ p ∈ ps,
      (In (drawPanel p).1.a lim.x ∧ In (drawPanel p).1.b lim.x) ∧ (In (drawPanel p).2.1.a lim.y ∧ In (drawPanel p).2.1.b lim.y) ∧ In p.z lim.z ∧
      (In (drawPanel p).1.a lim.top ∧ In (drawPanel p).1.b lim.top) ∧ In (drawPanel p).2.1.a lim.top ∧ In (drawPanel p).2.1.b lim.top := by
  obtain ⟨q, qs, rfl⟩ : ∃ q qs, ps = q :: qs := by
    cases ps with
    | nil => exact absurd rfl hne
    | cons q qs => exact ⟨q, qs, rfl⟩
  unfold limits
  rw [hps, plain_map]
  refine ⟨_, rfl, fun p hm => ?_⟩
  obtain ⟨⟨s1, s2⟩, z1, z2⟩ := hp p hm
  have key : ∀ f : Panel → ℝ, minOf (f q) (qs.map f) ≤ f p ∧ f p ≤ maxOf (f q) (qs.map f) := by
    intro f
    obtain ⟨a1, a2⟩ := minOf_le (f q) (qs.map f)
    obtain ⟨b1, b2⟩ := le_maxOf (f q) (qs.map f)
    rcases List.mem_cons.mp hm with rfl | h
    · exact ⟨a1, b1⟩
    · exact ⟨a2 _ (List.mem_map_of_mem h), b2 _ (List.mem_map_of_mem h)⟩
  have k1 := (key fun p => p.xy.1 - p.scaledSpan.1 / 2).1
  have k2 := (key fun p => p.xy.2 - p.scaledSpan.2 / 2).1
  have k3 := (key fun p => p.xy.1 + p.scaledSpan.1 / 2).2
  have k4 := (key fun p => p.xy.2 + p.scaledSpan.2 / 2).2
  simp only [In, drawPanel] at *
  generalize minOf (q.xy.1 - q.scaledSpan.1 / 2) _ = a at *
  generalize minOf (q.xy.2 - q.scaledSpan.2 / 2) _ = b at *
  generalize maxOf (q.xy.1 + q.scaledSpan.1 / 2) _ = c at *
  generalize maxOf (q.xy.2 + q.scaledSpan.2 / 2) _ = d at *
  have m1 := min_le_right 1 a
  have m2 := min_le_right 1 b
  have m3 := le_max_right L.lw.1 c
  have m4 := le_max_right L.lw.2 d
  have m5 := min_le_left a b
  have m6 := min_le_right a b
  have m7 := le_max_left c d
  have m8 := le_max_right c d
  have m9 := le_max_left L.lw.1 L.lw.2
  obtain ⟨l1, l2⟩ := hl
  refine ⟨⟨⟨?_, ?_⟩, ?_, ?_⟩, ⟨⟨?_, ?_⟩, ?_, ?_⟩, ⟨?_, ?_⟩, ⟨⟨?_, ?_⟩, ?_, ?_⟩, ⟨?_, ?_⟩, ?_, ?_⟩ <;> linarith

/-- **C147 is refuted by the code.** From above, the outline of the volume, drawn from the origin, need not be visible: it is cut off if all panels are farther than half the size of the volume from the origin. -/
theorem outline_violated (L : DetLayer) (p : Panel) (hps : L.panels = [.panel p]) (h1 : max L.lw.1 L.lw.2 / 2 < p.xy.1 - p.scaledSpan.1 / 2) (h2 : max L.lw.1 L.lw.2 / 2 < p.xy.2 - p.scaledSpan.2 / 2) :
    ∃ lim, limits L = .ok lim ∧ ¬ In 0 lim.top := by
  unfold limits
  rw [hps]
  refine ⟨_, rfl, fun h => ?_⟩
  have := h.1
  simp only [minOf, List.map_nil, List.foldl_nil] at this
  rcases min_choice (p.xy.1 - p.scaledSpan.1 / 2) (p.xy.2 - p.scaledSpan.2 / 2) with e | e <;> rw [e] at this <;> linarith

/-- **C147 is refuted by the code.** The logger of panels fails for layers of heat maps, although it has a way of drawing them, and for layers of more than ten panels. -/
theorem layers_violated (L : DetLayer) : (∀ h hs, L.panels = .heatmap h :: hs → limits L = .error .attributeError) ∧ ∀ ps : List Panel, 10 < ps.length → drawPanels ps = .error .indexError := by
  refine ⟨fun h hs e => ?_, fun ps h => ?_⟩
  · unfold limits
    rw [e]
    rfl
  · unfold drawPanels
    rw [if_neg (by omega)]

/-- **C147: panels.** Up to ten panels are all drawn, each with a colour of its own. -/
theorem panels (ps : List Panel) (h : ps.length ≤ 10) : ∃ ds, drawPanels ps = .ok ds ∧ ds.map (·.2) = ps.map drawPanel ∧ (ds.map (·.1)).Nodup := by
  refine ⟨_, if_pos h, ?_, ?_⟩
  · rw [← List.unzip_snd, List.unzip_zip (by simp)]
  · rw [← List.unzip_fst, List.unzip_zip (by simp)]
    exact List.nodup_range

/-! ### The hypotheses can be met -/

/-- two epochs of three updates each -/
example : ∃ c, lossCurves 3 ⟨[.num 6, .num 5, .num 4, .num 4, .num 3, .num 2], [.num 4, .num 3], .num 3, .num 0, 0⟩ [[0.5, 0.6], [0.5, 0.4]] = .ok c ∧ c.valid.length = 2 ∧ c.train.length = 6 := by
  obtain ⟨c, h1, -, h2, -, h3, -⟩ := losses 3 (by norm_num) ⟨[.num 6, .num 5, .num 4, .num 4, .num 3, .num 2], [.num 4, .num 3], .num 3, .num 0, 0⟩ (by simp) rfl [[0.5, 0.6], [0.5, 0.4]] (by simp) (by simp)
  exact ⟨c, h1, h3, h2⟩

example : ∃ c, metricCurve 3 [0.5, 0.25] = .ok c := let ⟨c, h, _⟩ := epochs_violated 3 [0.5, 0.25] (by simp); ⟨c, h⟩

/-- a small panel at `(x, x)` -/
def square (x : ℝ) : Panel := { kind := .gauss, res := 1, eff := 1, m2cost := 1, xy := (x, x), z := 0.5, span := (0.2, 0.2), budgetScale := 1, realistic := true, training := true }

example : ∃ lim, limits ⟨"above", (1, 1), 1, 1, [.panel (square 0.5), .panel (square 0.75)]⟩ = .ok lim := by
  obtain ⟨lim, h, -⟩ := visible ⟨"above", (1, 1), 1, 1, [.panel (square 0.5), .panel (square 0.75)]⟩ [square 0.5, square 0.75] (by simp) rfl (by norm_num) (by norm_num) (by
    intro p hp
    simp only [List.mem_cons, List.not_mem_nil, or_false] at hp
    rcases hp with rfl | rfl <;> norm_num [square, Panel.scaledSpan])
  exact ⟨lim, h⟩

/-- a panel in a corner -/
example : ∃ lim, limits ⟨"above", (1, 1), 1, 1, [.panel (square 0.75)]⟩ = .ok lim ∧ ¬ In 0 lim.top :=
  outline_violated _ (square 0.75) rfl (by norm_num [square, Panel.scaledSpan]) (by norm_num [square, Panel.scaledSpan])

end C147

end

end Tomopt
