import Verif.Lemmas.Classifier

/- C60, C80: fill levels of a furnace. -/
namespace Tomopt

noncomputable section
open Real Classify Ladle

namespace C60

/-- The class that a fill height is converted to, converted back, is the lower edge of the layer the height lies in. -/
theorem decode (z0 s t : ℝ) (hs : 0 < s) :
    ∃ i : ℤ, class2float z0 s (targ2int z0 s t) = z0 + i * s ∧ z0 + i * s ≤ t ∧ t < z0 + (i + 1) * s := by
  refine ⟨⌊(t - z0) / s⌋, ?_, ?_, ?_⟩
  · unfold class2float targ2int; push_cast; ring
  · have := Int.floor_le ((t - z0) / s)
    rw [le_div_iff₀ hs] at this; linarith
  · have := Int.lt_floor_add_one ((t - z0) / s)
    rw [div_lt_iff₀ hs] at this; linarith

/-- Converting a class to a height and back gives the class. -/
theorem round_trip (z0 s : ℝ) (c : ℤ) (hs : 0 < s) : targ2int z0 s (class2float z0 s c) = c := by
  unfold targ2int class2float
  have : (((c : ℝ) + 1) * s + z0 - z0) / s = ((c + 1 : ℤ) : ℝ) := by push_cast; field_simp; ring
  rw [this, Int.floor_intCast]; omega

/-- Heights have the same class exactly if they lie in the same layer. -/
theorem classes (z0 s t t' : ℝ) (hs : 0 < s) :
    targ2int z0 s t = targ2int z0 s t' ↔ ∃ i : ℤ, (z0 + i * s ≤ t ∧ t < z0 + (i + 1) * s) ∧ (z0 + i * s ≤ t' ∧ t' < z0 + (i + 1) * s) := by
  have key : ∀ (t : ℝ) (i : ℤ), (z0 + i * s ≤ t ∧ t < z0 + (i + 1) * s) ↔ ⌊(t - z0) / s⌋ = i := by
    intro t i
    rw [Int.floor_eq_iff, le_div_iff₀ hs, div_lt_iff₀ hs]
    constructor <;> rintro ⟨h1, h2⟩ <;> constructor <;> linarith
  simp only [key]
  unfold targ2int
  constructor
  · intro h; exact ⟨⌊(t - z0) / s⌋, rfl, by omega⟩
  · rintro ⟨i, h1, h2⟩; omega

example : targ2int 0 (1/10) (87/200) = 3 ∧ class2float 0 (1/10) 3 = 4/10 := by
  constructor
  · unfold targ2int
    have : ⌊((87 : ℝ) / 200 - 0) / (1 / 10)⌋ = 4 := by rw [Int.floor_eq_iff]; norm_num
    rw [this]; norm_num
  · unfold class2float; norm_num

/-- A furnace whose passive volume has `N` layers of thickness `s`. -/
structure Stack (g : Gen) (N : Nat) : Prop where
  pos : 0 < g.s
  top : g.z1 = g.z0 + N * g.s

/-- Drawn fill heights have classes that are positions among the layers above the bottom of the furnace, of which there are `N - 1`. -/
theorem drawn_class (g : Gen) (N : Nat) (h : Stack g N) (hN : 3 ≤ N) (u : ℝ) (h0 : 0 ≤ u) (h1 : u < 1) :
    1 ≤ targ2int g.z0 g.s (g.matZ none u) ∧ targ2int g.z0 g.s (g.matZ none u) < N - 1 := by
  have hs := h.pos
  have hN' : (3 : ℝ) ≤ N := by exact_mod_cast hN
  have e : g.matZ none u = g.z0 + (2 + (N - 2) * u) * g.s := by unfold Gen.matZ; rw [h.top]; ring
  unfold targ2int
  rw [e]
  have e2 : (g.z0 + (2 + ((N : ℝ) - 2) * u) * g.s - g.z0) / g.s = 2 + (N - 2) * u := by field_simp; ring
  rw [e2]
  constructor
  · have : (2 : ℤ) ≤ ⌊2 + ((N : ℝ) - 2) * u⌋ := by
      rw [Int.le_floor]; push_cast; nlinarith
    omega
  · have : ⌊2 + ((N : ℝ) - 2) * u⌋ < (N : ℤ) := by
      rw [Int.floor_lt]; push_cast; nlinarith
    omega

theorem layer_class (g : Gen) (hs : 0 < g.s) (matZ slagZ : ℝ) (i : Nat) : g.layer matZ slagZ (g.z0 + (i + 1) * g.s) =
      if i = 0 then g.furnace
      else if (i : ℤ) ≤ targ2int g.z0 g.s matZ then g.fill
      else if g.z0 + (i + 1) * g.s ≤ slagZ then g.slag else g.air := by
  unfold Gen.layer
  by_cases hi : i = 0
  · subst hi
    rw [if_pos (by norm_num), if_pos rfl]
  · have hi' : (1 : ℝ) ≤ i := by exact_mod_cast Nat.one_le_iff_ne_zero.2 hi
    rw [if_neg (by nlinarith), if_neg hi]
    have : g.z0 + ((i : ℝ) + 1) * g.s ≤ matZ ↔ (i : ℤ) ≤ targ2int g.z0 g.s matZ := by
      unfold targ2int
      rw [show ((i : ℤ) ≤ ⌊(matZ - g.z0) / g.s⌋ - 1) ↔ ((i + 1 : ℤ) ≤ ⌊(matZ - g.z0) / g.s⌋) by omega, Int.le_floor, le_div_iff₀ hs]
      push_cast
      constructor <;> intro h <;> linarith
    simp only [this]

/-- The class of the fill height is the number of the highest filled layer: inside the walls, layer `i` (counted from the bottom, which is furnace) holds
the fill exactly if `1 ≤ i ≤` class. -/
theorem loaded (g : Gen) (hs : 0 < g.s) (matZ slagZ : ℝ) (nx ny i x y : Nat) (hx : 0 < x ∧ x + 1 < nx) (hy : 0 < y ∧ y + 1 < ny) :
    ((g.x0s matZ slagZ (g.z0 + (i + 1) * g.s) nx ny).getD x []).getD y 0 =
      if i = 0 then g.furnace
      else if (i : ℤ) ≤ targ2int g.z0 g.s matZ then g.fill
      else if g.z0 + (i + 1) * g.s ≤ slagZ then g.slag else g.air := by
  obtain ⟨hx0, hx1⟩ := hx
  obtain ⟨hy0, hy1⟩ := hy
  have e1 : ((g.x0s matZ slagZ (g.z0 + (i + 1) * g.s) nx ny).getD x []).getD y 0 = g.layer matZ slagZ (g.z0 + (i + 1) * g.s) := by
    unfold Gen.x0s
    simp only [List.getD_eq_getElem?_getD]
    rw [List.getElem?_map, List.getElem?_range (by omega), Option.map_some, Option.getD_some,
      List.getElem?_map, List.getElem?_range (by omega), Option.map_some, Option.getD_some, if_neg (by omega)]
  rw [e1, layer_class g hs]

/-- The walls are furnace at every height. -/
theorem walls (g : Gen) (matZ slagZ z : ℝ) (nx ny x y : Nat) (hx : x < nx) (hy : y < ny) (h : x = 0 ∨ x + 1 = nx ∨ y = 0 ∨ y + 1 = ny) :
    ((g.x0s matZ slagZ z nx ny).getD x []).getD y 0 = g.furnace := by
  unfold Gen.x0s
  simp only [List.getD_eq_getElem?_getD]
  rw [List.getElem?_map, List.getElem?_range hx, Option.map_some, Option.getD_some, List.getElem?_map, List.getElem?_range hy, Option.map_some, Option.getD_some, if_pos h]

/-- From below there are fill, slag and air, in this order, and the drawn slag ends inside the volume. -/
theorem order (g : Gen) (N : Nat) (h : Stack g N) (hN : 2 ≤ N) (u v : ℝ) (hu : 0 ≤ u ∧ u < 1) (hv : 0 ≤ v ∧ v < 1) :
    g.z0 + 2 * g.s ≤ g.matZ none u ∧ g.matZ none u ≤ g.slagZ none (g.matZ none u) v ∧ g.slagZ none (g.matZ none u) v ≤ g.z1 := by
  have hs := h.pos
  have hN' : (2 : ℝ) ≤ N := by exact_mod_cast hN
  have e : g.matZ none u = g.z0 + (2 + (N - 2) * u) * g.s := by unfold Gen.matZ; rw [h.top]; ring
  obtain ⟨h0, h1⟩ := hu
  obtain ⟨h2, h3⟩ := hv
  have a1 : 0 ≤ ((N : ℝ) - 2) * u := mul_nonneg (by linarith) h0
  have a2 : ((N : ℝ) - 2) * u ≤ N - 2 := by nlinarith
  have a3 : g.matZ none u ≤ g.z1 := by rw [e, h.top]; nlinarith
  refine ⟨by rw [e]; nlinarith, ?_, ?_⟩
  · simp only [Gen.slagZ]; nlinarith
  · simp only [Gen.slagZ]; nlinarith

/-- The height returned for class probabilities of `n` classes is an edge between layers inside the volume. -/
theorem predicted_edge (z0 s : ℝ) (p : List ℝ) (hp : p ≠ []) :
    ∃ i : Nat, 1 ≤ i ∧ i ≤ p.length ∧ class2float z0 s (argmax p) = z0 + i * s := by
  refine ⟨argmax p + 1, by omega, argmax_lt hp, ?_⟩
  unfold class2float; push_cast; ring

end C60

namespace C80

/-- At least one voxel is left in every layer when the walls are removed. -/
def Walled (x : Vol) : Prop := ∀ p ∈ x, 3 ≤ p.length ∧ ∀ r ∈ p, 3 ≤ r.length

/-- the inside of the furnace -/
def inner (x : Vol) : Vol := (x.drop 1).map fun p => (p.drop 1).dropLast.map fun r => (r.drop 1).dropLast

theorem inner_solid {x : Vol} (h : Walled x) : Solid (inner x) := by
  intro p hp
  simp only [inner, List.mem_map] at hp
  obtain ⟨q, hq, rfl⟩ := hp
  obtain ⟨h1, h2⟩ := h q (List.mem_of_mem_drop hq)
  refine ⟨?_, ?_⟩
  · intro hn
    have := congrArg List.length hn
    simp at this; omega
  · intro r hr
    simp only [List.mem_map] at hr
    obtain ⟨t, ht, rfl⟩ := hr
    have := h2 t (List.mem_of_mem_drop (List.dropLast_subset _ ht))
    intro hn
    have := congrArg List.length hn
    simp at this; omega

theorem inner_entry {x : Vol} {v : ℝ} (h : Entry (inner x) v) : Entry x v := by
  obtain ⟨p, hp, r, hr, hv⟩ := h
  simp only [inner, List.mem_map] at hp
  obtain ⟨q, hq, rfl⟩ := hp
  simp only [List.mem_map] at hr
  obtain ⟨t, ht, rfl⟩ := hr
  exact ⟨q, List.mem_of_mem_drop hq, t, List.mem_of_mem_drop (List.dropLast_subset _ ht), List.mem_of_mem_drop (List.dropLast_subset _ hv)⟩

/-- the first four steps: means of the layers, averaged along z -/
def profile (x : Vol) : List ℝ := avg1 ((avgPool3 (inner x)).map fun p => mean p.flatten)

/-- sums of the two neighbours, as they are left after the sign change -/
def ridges (y : List ℝ) : List ℝ := (edgeDet (-1) 0 (-1) y).map (- ·)

theorem default_run {x : Vol} (h : Walled x) : steps defaultSteps (.vol x) =
    .ok (if (min1 (ridges (profile x))).any (fun v => decide (v = 0)) then none
      else some (.row (List.zipWith (· / ·) (max1 (ridges (profile x))) (min1 (ridges (profile x)))))) := by
  have hs := solid_avgPool3 (inner_solid h)
  have hall : (avgPool3 (inner x)).all (fun p => decide (p.flatten ≠ [])) = true := by
    rw [List.all_eq_true]; intro p hp; exact decide_eq_true (solid_flatten hs hp)
  simp only [defaultSteps, steps, step]
  rw [show ((x.drop 1).map fun p => (p.drop 1).dropLast.map fun r => (r.drop 1).dropLast) = inner x from rfl]
  simp only [hall, if_true]
  rw [show avg1 ((avgPool3 (inner x)).map fun p => mean p.flatten) = profile x from rfl]
  rw [show (edgeDet (-1) 0 (-1) (profile x)).map (fun x => - x) = ridges (profile x) from rfl]
  by_cases hz : (min1 (ridges (profile x))).any (fun v => decide (v = 0)) = true
  · simp only [hz, if_true]
  · simp only [hz]; rfl

theorem profile_length (x : Vol) : (profile x).length = x.length - 1 := by
  simp [profile, avg1, avgPool3, inner]

theorem ridges_length (y : List ℝ) : (ridges y).length = y.length := by simp [ridges, edgeDet]

/-- the entries of the averaged profile are at least `lo` and at most `hi` if the predictions are -/
theorem profile_bounds {x : Vol} (h : Walled x) {P : ℝ → Prop} (hP : ∀ l : List ℝ, l ≠ [] → (∀ y ∈ l, P y) → P (mean l))
    (hx : ∀ v, Entry x v → P v) : ∀ v ∈ profile x, P v := by
  intro v hv
  simp only [profile, avg1, List.mem_mapIdx] at hv
  obtain ⟨i, hi, rfl⟩ := hv
  apply hP _ (window_ne_nil hi)
  intro y hy
  have hy := mem_window hy
  rw [List.mem_map] at hy
  obtain ⟨p, hp, rfl⟩ := hy
  apply hP _ (solid_flatten (solid_avgPool3 (inner_solid h)) hp)
  intro y hy
  rw [List.mem_flatten] at hy
  obtain ⟨r, hr, hy⟩ := hy
  obtain ⟨l, h1, h2, rfl⟩ := entry_avgPool3 ⟨p, hp, r, hr, hy⟩
  exact hP l h1 fun y hy => hx y (inner_entry (h2 y hy))

theorem ridges_getElem {y : List ℝ} {i : Nat} (hi : i < y.length) :
    ∃ a ∈ y, ∃ b ∈ y, (ridges y)[i]'(by rw [ridges_length]; exact hi) = a + b := by
  refine ⟨y[i - 1], List.getElem_mem _, y[min (i + 1) (y.length - 1)], List.getElem_mem _, ?_⟩
  simp only [ridges, edgeDet, List.getElem_map, List.getElem_mapIdx]
  rw [List.getD_eq_getElem?_getD, List.getElem?_eq_getElem (show i - 1 < y.length by omega), Option.getD_some,
    List.getD_eq_getElem?_getD, List.getElem?_eq_getElem (show min (i + 1) (y.length - 1) < y.length by omega), Option.getD_some]
  ring

theorem ridges_pos {y : List ℝ} (h : ∀ v ∈ y, 0 < v) : ∀ v ∈ ridges y, 0 < v := by
  intro v hv
  obtain ⟨i, hi, rfl⟩ := List.mem_iff_getElem.1 hv
  obtain ⟨a, ha, b, hb, e⟩ := ridges_getElem (by rwa [ridges_length] at hi)
  rw [e]; linarith [h a ha, h b hb]

theorem min1_pos {y : List ℝ} (h : ∀ v ∈ y, 0 < v) : ∀ v ∈ min1 y, 0 < v := by
  intro v hv
  simp only [min1, List.mem_mapIdx] at hv
  obtain ⟨i, hi, rfl⟩ := hv
  exact h _ (mem_window (minOf_mem (window_ne_nil hi)))

theorem min1_no_zero {y : List ℝ} (h : ∀ v ∈ y, 0 < v) : (min1 y).any (fun v => decide (v = 0)) = false := by
  rw [List.any_eq_false]
  intro v hv
  have := min1_pos h v hv
  simpa using this.ne'

/-- With positive X0 predictions the default pipeline always gives a probability for each layer above the bottom of the furnace. -/
theorem distribution (x : Vol) (hw : Walled x) (hn : 2 ≤ x.length) (hx : ∀ v, Entry x v → 0 < v) :
    ∃ p, x02probs defaultSteps x = .ok (some (.classes p)) ∧ p.length = x.length - 1 ∧ (∀ v ∈ p, 0 < v) ∧ p.sum = 1 := by
  have h1 := profile_bounds (P := fun v => 0 < v) hw (fun l h1 h2 => mean_pos h1 h2) hx
  have h2 := min1_no_zero (ridges_pos h1)
  have hrun := default_run hw
  rw [h2] at hrun
  refine ⟨softmax (List.zipWith (· / ·) (max1 (ridges (profile x))) (min1 (ridges (profile x)))),
    by simp only [x02probs, hrun, Bool.false_eq_true, if_false], ?_, ?_, ?_⟩
  · simp [softmax, max1, min1, ridges_length, profile_length]
  · intro v hv
    simp only [softmax, List.mem_map] at hv
    obtain ⟨w, hw', rfl⟩ := hv
    apply div_pos (exp_pos _)
    apply sum_pos'
    · intro hn'
      rw [List.map_eq_nil_iff] at hn'
      rw [hn'] at hw'; simp at hw'
    · intro v hv
      simp only [List.mem_map] at hv
      obtain ⟨w, _, rfl⟩ := hv
      exact exp_pos _
  · apply softmax_sum
    intro hn'
    have := congrArg List.length hn'
    simp [max1, min1, ridges_length, profile_length] at this; omega

theorem inner_scale (k : ℝ) (x : Vol) : inner (scaleV k x) = scaleV k (inner x) := by
  simp only [inner, scaleV, ← List.map_drop, List.map_map, Function.comp_def, ← List.map_dropLast]

theorem profile_scale (k : ℝ) (x : Vol) : profile (scaleV k x) = (profile x).map (k * ·) := by
  unfold profile
  rw [inner_scale, avgPool3_scale, ← avg1_scale]
  congr 1
  simp only [scaleV, List.map_map, Function.comp_def]
  apply List.map_congr_left
  intro p _
  rw [← mean_scale, List.map_flatten]

theorem ridges_scale (k : ℝ) (y : List ℝ) : ridges (y.map (k * ·)) = (ridges y).map (k * ·) := by
  simp only [ridges, edgeDet_scale, List.map_map, Function.comp_def]
  congr 1; funext v; ring

/-- A common factor on all X0 predictions does not change the probabilities. -/
theorem scale_free (x : Vol) (hw : Walled x) (k : ℝ) (hk : 0 < k) : x02probs defaultSteps (scaleV k x) = x02probs defaultSteps x := by
  have hw' : Walled (scaleV k x) := by
    intro p hp
    simp only [scaleV, List.mem_map] at hp
    obtain ⟨q, hq, rfl⟩ := hp
    obtain ⟨h1, h2⟩ := hw q hq
    refine ⟨by simpa using h1, ?_⟩
    intro r hr
    simp only [List.mem_map] at hr
    obtain ⟨t, ht, rfl⟩ := hr
    simpa using h2 t ht
  have e : steps defaultSteps (.vol (scaleV k x)) = steps defaultSteps (.vol x) := by
    rw [default_run hw, default_run hw', profile_scale, ridges_scale, max1_scale hk.le, min1_scale hk.le]
    have e1 : ((min1 (ridges (profile x))).map (k * ·)).any (fun v => decide (v = 0)) = (min1 (ridges (profile x))).any (fun v => decide (v = 0)) := by
      rw [List.any_map]; congr 1; funext v; simp [hk.ne']
    have e2 : List.zipWith (· / ·) ((max1 (ridges (profile x))).map (k * ·)) ((min1 (ridges (profile x))).map (k * ·)) =
        List.zipWith (· / ·) (max1 (ridges (profile x))) (min1 (ridges (profile x))) := by
      rw [List.zipWith_map]; congr 1; funext a b; exact mul_div_mul_left a b hk.ne'
    rw [e1, e2]
  unfold x02probs
  rw [e]

/-- If the predictions are the same everywhere (and positive), all classes have the same probability. -/
theorem homogeneous (x : Vol) (hw : Walled x) (hn : 2 ≤ x.length) (c : ℝ) (hc : 0 < c) (hx : ∀ v, Entry x v → v = c) :
    x02probs defaultSteps x = .ok (some (.classes (List.replicate (x.length - 1) (1 / ((x.length : ℝ) - 1))))) := by
  have h1 := profile_bounds (P := fun v => v = c) hw (fun l h1 h2 => mean_const h1 h2) hx
  have h2 : ∀ v ∈ ridges (profile x), v = 2 * c := by
    intro v hv
    obtain ⟨i, hi, rfl⟩ := List.mem_iff_getElem.1 hv
    obtain ⟨a, ha, b, hb, e⟩ := ridges_getElem (by rwa [ridges_length] at hi)
    rw [e, h1 a ha, h1 b hb]; ring
  have h3 := min1_no_zero (fun v hv => by rw [h2 v hv]; linarith : ∀ v ∈ ridges (profile x), 0 < v)
  have hrun := default_run hw
  rw [h3] at hrun
  have hlen : (List.zipWith (· / ·) (max1 (ridges (profile x))) (min1 (ridges (profile x)))).length = x.length - 1 := by
    simp [max1, min1, ridges_length, profile_length]
  have hone : List.zipWith (· / ·) (max1 (ridges (profile x))) (min1 (ridges (profile x))) = List.replicate (x.length - 1) 1 := by
    rw [List.eq_replicate_iff]
    refine ⟨hlen, ?_⟩
    intro v hv
    obtain ⟨a, ha, b, hb, rfl⟩ := zipWith_mem hv
    simp only [max1, List.mem_mapIdx] at ha
    simp only [min1, List.mem_mapIdx] at hb
    obtain ⟨i, hi, rfl⟩ := ha
    obtain ⟨j, hj, rfl⟩ := hb
    rw [h2 _ (mem_window (maxOf_mem (window_ne_nil hi))), h2 _ (mem_window (minOf_mem (window_ne_nil hj)))]
    exact div_self (by linarith)
  simp only [x02probs, hrun, Bool.false_eq_true, if_false, hone]
  congr 3
  have hpos : (x.length : ℝ) - 1 ≠ 0 := by
    have : (2 : ℝ) ≤ x.length := by exact_mod_cast hn
    intro h; linarith
  unfold softmax
  rw [List.map_replicate, List.map_replicate, List.sum_replicate, nsmul_eq_mul, Nat.cast_sub (by omega), Nat.cast_one]
  congr 1
  have := (exp_pos (1 : ℝ)).ne'
  field_simp

/-- A pipeline that ends with the Gaussian filter (possibly followed by sign changes) loses all classes: the result is the single number one,
whatever the predictions. -/
theorem gauss_single (ss : List Step) (x : Vol) (y : List ℝ) (n : Nat) (h : steps ss (.vol x) = .ok (some (.row y))) (hy : y ≠ []) :
    x02probs (ss ++ .gauss1d :: List.replicate n .negative) x = .ok (some (.single 1)) := by
  have happ : ∀ (ss : List Step) (t u : Ten) (ts : List Step), steps ss t = .ok (some u) → steps (ss ++ ts) t = steps ts u := by
    intro ss
    induction ss with
    | nil => intro t u ts h; simp only [steps, Except.ok.injEq, Option.some.injEq] at h; subst h; rfl
    | cons s ss ih =>
      intro t u ts h
      simp only [steps] at h
      simp only [List.cons_append, steps]
      cases hs : step s t with
      | error e => simp [hs] at h
      | ok o =>
        cases o with
        | none => simp [hs] at h
        | some t' => simp only [hs] at h ⊢; exact ih t' u ts h
  have hneg : ∀ (n : Nat) (z : List ℝ), z ≠ [] → ∃ w, w ≠ [] ∧ steps (List.replicate n .negative) (.noBatch z) = .ok (some (.noBatch w)) := by
    intro n
    induction n with
    | zero => intro z hz; exact ⟨z, hz, rfl⟩
    | succ n ih =>
      intro z hz
      simp only [List.replicate_succ, steps, step]
      exact ih _ (by simpa using hz)
  obtain ⟨w, hw, hrun⟩ := hneg n ((edgeDet 2 4 2 y).map (· / 8)) (by simpa [edgeDet] using hy)
  have e : steps (ss ++ .gauss1d :: List.replicate n .negative) (.vol x) = .ok (some (.noBatch w)) := by
    rw [happ ss _ _ _ h]; simp only [steps, step]; exact hrun
  unfold x02probs
  rw [e]
  cases w with
  | nil => exact absurd rfl hw
  | cons v w => simp [(exp_pos v).ne']

/- A perfect image. -/

/-- the list of the values of `f` -/
def tab (f : Nat → ℝ) (n : Nat) : List ℝ := (List.range n).map f

theorem tab_length (f : Nat → ℝ) (n : Nat) : (tab f n).length = n := by simp [tab]

theorem tab_get (f : Nat → ℝ) {n i : Nat} (h : i < n) : (tab f n)[i]'(by rw [tab_length]; exact h) = f i := by simp [tab]

theorem tab_congr {f g : Nat → ℝ} {n : Nat} (h : ∀ i < n, f i = g i) : tab f n = tab g n :=
  List.map_congr_left fun i hi => h i (List.mem_range.1 hi)

theorem eq_tab {l : List ℝ} {f : Nat → ℝ} {n : Nat} (hl : l.length = n) (h : ∀ i (hi : i < l.length), l[i] = f i) : l = tab f n := by
  apply List.ext_getElem
  · rw [hl, tab_length]
  · intro i h1 h2
    rw [h i h1, tab_get f (by rwa [tab_length] at h2)]

theorem window_tab (f : Nat → ℝ) {n i : Nat} (h : i < n) :
    window (tab f n) i = if i = 0 then (if n = 1 then [f 0] else [f 0, f 1]) else if i + 1 = n then [f (i - 1), f i] else [f (i - 1), f i, f (i + 1)] := by
  have hl := window_length (tab f n) i
  rw [tab_length] at hl
  have hg : ∀ j (hj : j < (window (tab f n) i).length), (window (tab f n) i)[j] = f (i - 1 + j) := by
    intro j hj
    simp [window, tab]
  split_ifs with h0 h1 h2
  · subst h0; subst h1
    have hl : (window (tab f 1) 0).length = 1 := by omega
    match hw : window (tab f 1) 0, hl with
    | [a], _ => simp only [hw] at hg; have := hg 0 (by simp); simp at this; rw [this]
  · subst h0
    have hl : (window (tab f n) 0).length = 2 := by omega
    match hw : window (tab f n) 0, hl with
    | [a, b], _ =>
      simp only [hw] at hg
      have h0 := hg 0 (by simp)
      have h1 := hg 1 (by simp)
      simp at h0 h1; rw [h0, h1]
  · have hl : (window (tab f n) i).length = 2 := by omega
    match hw : window (tab f n) i, hl with
    | [a, b], _ =>
      simp only [hw] at hg
      have h0' := hg 0 (by simp)
      have h1' := hg 1 (by simp)
      simp at h0' h1'
      rw [show i - 1 + 1 = i by omega] at h1'
      rw [h0', h1']
  · have hl : (window (tab f n) i).length = 3 := by omega
    match hw : window (tab f n) i, hl with
    | [a, b, c], _ =>
      simp only [hw] at hg
      have h0' := hg 0 (by simp)
      have h1' := hg 1 (by simp)
      have h2' := hg 2 (by simp)
      simp at h0' h1' h2'
      rw [show i - 1 + 1 = i by omega] at h1'
      rw [show i - 1 + 2 = i + 1 by omega] at h2'
      rw [h0', h1', h2']

/-- average over the neighbours -/
def av (f : Nat → ℝ) (n i : Nat) : ℝ :=
  if i = 0 then (f 0 + f 1) / 2 else if i + 1 = n then (f (i - 1) + f i) / 2 else (f (i - 1) + f i + f (i + 1)) / 3

theorem mean_window_tab (f : Nat → ℝ) {n i : Nat} (hn : 2 ≤ n) (h : i < n) : mean (window (tab f n) i) = av f n i := by
  rw [window_tab f h]
  unfold av mean
  split_ifs <;> first | omega | (simp; try ring)

theorem avg1_tab (f : Nat → ℝ) {n : Nat} (hn : 2 ≤ n) : avg1 (tab f n) = tab (av f n) n := by
  apply eq_tab
  · simp [avg1, tab]
  · intro i hi
    simp only [avg1, List.getElem_mapIdx]
    apply mean_window_tab f hn
    simpa [avg1, tab] using hi

theorem ridges_tab (f : Nat → ℝ) (n : Nat) : ridges (tab f n) = tab (fun i => f (i - 1) + f (min (i + 1) (n - 1))) n := by
  apply eq_tab
  · simp [ridges, edgeDet, tab]
  · intro i hi
    have hi : i < n := by simpa [ridges, edgeDet, tab] using hi
    simp only [ridges, edgeDet, List.getElem_map, List.getElem_mapIdx, tab_length]
    rw [List.getD_eq_getElem?_getD, List.getElem?_eq_getElem (show i - 1 < (tab f n).length by rw [tab_length]; omega), Option.getD_some,
      List.getD_eq_getElem?_getD, List.getElem?_eq_getElem (show min (i + 1) (n - 1) < (tab f n).length by rw [tab_length]; omega), Option.getD_some,
      tab_get f (show i - 1 < n by omega), tab_get f (show min (i + 1) (n - 1) < n by omega)]
    ring

/-- for an increasing profile the largest value of a window is the last and the smallest is the first -/
theorem ratio_tab (f : Nat → ℝ) {n : Nat} (hf : ∀ i, i + 1 < n → f i ≤ f (i + 1)) :
    List.zipWith (· / ·) (max1 (tab f n)) (min1 (tab f n)) = tab (fun i => f (min (i + 1) (n - 1)) / f (i - 1)) n := by
  apply eq_tab
  · simp [max1, min1, tab]
  · intro i hi
    have hi : i < n := by simpa [max1, min1, tab] using hi
    simp only [List.getElem_zipWith, max1, min1, List.getElem_mapIdx]
    rw [window_tab f hi]
    split_ifs with h0 h1 h2
    · subst h0; subst h1; simp [maxOf, minOf]
    · subst h0
      have := hf 0 (by omega)
      rw [show min (0 + 1) (n - 1) = 1 by omega]
      simp [maxOf, minOf, this]
    · have := hf (i - 1) (by omega)
      rw [show i - 1 + 1 = i by omega] at this
      rw [show min (i + 1) (n - 1) = i by omega]
      simp [maxOf, minOf, this]
    · have h3 := hf (i - 1) (by omega)
      rw [show i - 1 + 1 = i by omega] at h3
      have h4 := hf i (by omega)
      rw [show min (i + 1) (n - 1) = i + 1 by omega]
      simp [maxOf, minOf, h3, h4, h3.trans h4]

theorem window_replicate {β : Type} {n : Nat} (v : β) {i : Nat} (h : i < n) : ∃ m, 0 < m ∧ ∀ v : β, window (List.replicate n v) i = List.replicate m v := by
  refine ⟨min (i + 2) n - (i - 1), by omega, ?_⟩
  intro v
  simp [window, List.take_replicate, List.drop_replicate]

theorem mean_flatMap_replicate {m : Nat} (hm : 0 < m) (l : List ℝ) : mean (l.flatMap fun v => List.replicate m v) = mean l := by
  have h1 : (l.flatMap fun v => List.replicate m v).sum = m * l.sum := by
    induction l with
    | nil => simp
    | cons a l ih => simp [ih, mul_add]
  have h2 : (l.flatMap fun v => List.replicate m v).length = l.length * m := by
    induction l with
    | nil => simp
    | cons a l ih => simp [List.flatMap_cons, ih, Nat.add_mul, Nat.add_comm]
  unfold mean
  rw [h1, h2]
  have : (m : ℝ) ≠ 0 := by exact_mod_cast hm.ne'
  push_cast
  rw [mul_comm (l.length : ℝ)]
  exact mul_div_mul_left _ _ this

/-- a volume that is the same throughout each layer -/
def layered (X Y : Nat) (f : Nat → ℝ) (n : Nat) : Vol := (tab f n).map fun v => List.replicate X (List.replicate Y v)

theorem pool_layered (X Y : Nat) (f : Nat → ℝ) {n : Nat} (hn : 2 ≤ n) : avgPool3 (layered X Y f n) = layered X Y (av f n) n := by
  apply List.ext_getElem
  · simp [avgPool3, layered, tab]
  · intro i h1 h2
    have hi : i < n := by simpa [layered, tab] using h2
    simp only [avgPool3, List.getElem_mapIdx, layered, List.getElem_map, tab_get _ hi]
    apply List.ext_getElem
    · simp
    · intro j h3 h4
      have hj : j < X := by simpa using h4
      simp only [List.getElem_mapIdx, List.getElem_replicate]
      apply List.ext_getElem
      · simp
      · intro k h5 h6
        have hk : k < Y := by simpa using h6
        simp only [List.getElem_mapIdx, List.getElem_replicate]
        obtain ⟨a, ha, hwa⟩ := window_replicate (n := X) (List.replicate Y (0 : ℝ)) hj
        obtain ⟨b, hb, hwb⟩ := window_replicate (n := Y) (0 : ℝ) hk
        rw [← mean_window_tab f hn hi]
        have : window3 (List.map (fun v => List.replicate X (List.replicate Y v)) (tab f n)) i j k =
            (window (tab f n) i).flatMap fun v => List.replicate (a * b) v := by
          simp only [window3, window_map, List.flatMap_map]
          congr 1
          funext v
          rw [hwa]
          simp only [List.flatMap_replicate, hwb]
          simp
        rw [this, mean_flatMap_replicate (Nat.mul_pos ha hb)]

theorem layer_means {X Y : Nat} (hX : 0 < X) (hY : 0 < Y) (f : Nat → ℝ) (n : Nat) : ((layered X Y f n).map fun p => mean p.flatten) = tab f n := by
  unfold layered
  rw [List.map_map]
  conv_rhs => rw [← List.map_id (tab f n)]
  apply List.map_congr_left
  intro v _
  simp only [Function.comp_apply, id]
  apply mean_const
  · intro h
    have := congrArg List.length h
    simp at this; omega
  · intro x hx
    simp only [List.flatten_replicate_replicate] at hx
    exact List.eq_of_mem_replicate hx

/-- fill up to position `k`, then air -/
def fillStep (a c : ℝ) (k i : Nat) : ℝ := if i < k then a else c

/-- after one and two averages -/
def y1 (a c : ℝ) (k i : Nat) : ℝ := if i + 1 < k then a else if i + 1 = k then (2 * a + c) / 3 else if i = k then (a + 2 * c) / 3 else c
def y2 (a c : ℝ) (k i : Nat) : ℝ :=
  if i + 2 < k then a else if i + 2 = k then (8 * a + c) / 9 else if i + 1 = k then (6 * a + 3 * c) / 9
  else if i = k then (3 * a + 6 * c) / 9 else if i = k + 1 then (a + 8 * c) / 9 else c
/-- sums of neighbours -/
def y3 (a c : ℝ) (k i : Nat) : ℝ :=
  if i + 3 < k then 2 * a else if i + 3 = k then (17 * a + c) / 9 else if i + 2 = k then (15 * a + 3 * c) / 9 else if i + 1 = k then (11 * a + 7 * c) / 9
  else if i = k then (7 * a + 11 * c) / 9 else if i = k + 1 then (3 * a + 15 * c) / 9 else if i = k + 2 then (a + 17 * c) / 9 else 2 * c

theorem av_step {a c : ℝ} {k n : Nat} (hk : 4 ≤ k) (hn : k + 4 ≤ n) : ∀ i < n, av (fillStep a c k) n i = y1 a c k i := by
  intro i hi
  unfold av fillStep y1
  split_ifs <;> first | omega | ring

theorem y1_m2 (a c : ℝ) {k i : Nat} (h : i + 2 ≤ k) : y1 a c k i = a := by
  unfold y1; split_ifs <;> first | omega | rfl
theorem y1_m1 (a c : ℝ) {k i : Nat} (h : i + 1 = k) : y1 a c k i = (2 * a + c) / 3 := by
  unfold y1; split_ifs <;> first | omega | rfl
theorem y1_p0 (a c : ℝ) {k i : Nat} (h : i = k + 0) : y1 a c k i = (a + 2 * c) / 3 := by
  unfold y1; split_ifs <;> first | omega | rfl
theorem y1_p1 (a c : ℝ) {k i : Nat} (h : k + 1 ≤ i) : y1 a c k i = c := by
  unfold y1; split_ifs <;> first | omega | rfl
theorem y2_m3 (a c : ℝ) {k i : Nat} (h : i + 3 ≤ k) : y2 a c k i = a := by
  unfold y2; split_ifs <;> first | omega | rfl
theorem y2_m2 (a c : ℝ) {k i : Nat} (h : i + 2 = k) : y2 a c k i = (8 * a + c) / 9 := by
  unfold y2; split_ifs <;> first | omega | rfl
theorem y2_m1 (a c : ℝ) {k i : Nat} (h : i + 1 = k) : y2 a c k i = (6 * a + 3 * c) / 9 := by
  unfold y2; split_ifs <;> first | omega | rfl
theorem y2_p0 (a c : ℝ) {k i : Nat} (h : i = k + 0) : y2 a c k i = (3 * a + 6 * c) / 9 := by
  unfold y2; split_ifs <;> first | omega | rfl
theorem y2_p1 (a c : ℝ) {k i : Nat} (h : i = k + 1) : y2 a c k i = (a + 8 * c) / 9 := by
  unfold y2; split_ifs <;> first | omega | rfl
theorem y2_p2 (a c : ℝ) {k i : Nat} (h : k + 2 ≤ i) : y2 a c k i = c := by
  unfold y2; split_ifs <;> first | omega | rfl
theorem y3_m4 (a c : ℝ) {k i : Nat} (h : i + 4 ≤ k) : y3 a c k i = 2 * a := by
  unfold y3; split_ifs <;> first | omega | rfl
theorem y3_m3 (a c : ℝ) {k i : Nat} (h : i + 3 = k) : y3 a c k i = (17 * a + c) / 9 := by
  unfold y3; split_ifs <;> first | omega | rfl
theorem y3_m2 (a c : ℝ) {k i : Nat} (h : i + 2 = k) : y3 a c k i = (15 * a + 3 * c) / 9 := by
  unfold y3; split_ifs <;> first | omega | rfl
theorem y3_m1 (a c : ℝ) {k i : Nat} (h : i + 1 = k) : y3 a c k i = (11 * a + 7 * c) / 9 := by
  unfold y3; split_ifs <;> first | omega | rfl
theorem y3_p0 (a c : ℝ) {k i : Nat} (h : i = k + 0) : y3 a c k i = (7 * a + 11 * c) / 9 := by
  unfold y3; split_ifs <;> first | omega | rfl
theorem y3_p1 (a c : ℝ) {k i : Nat} (h : i = k + 1) : y3 a c k i = (3 * a + 15 * c) / 9 := by
  unfold y3; split_ifs <;> first | omega | rfl
theorem y3_p2 (a c : ℝ) {k i : Nat} (h : i = k + 2) : y3 a c k i = (a + 17 * c) / 9 := by
  unfold y3; split_ifs <;> first | omega | rfl
theorem y3_p3 (a c : ℝ) {k i : Nat} (h : k + 3 ≤ i) : y3 a c k i = 2 * c := by
  unfold y3; split_ifs <;> first | omega | rfl

theorem offsets (i k : Nat) : i + 5 ≤ k ∨ i + 4 = k ∨ i + 3 = k ∨ i + 2 = k ∨ i + 1 = k ∨ i = k + 0 ∨ i = k + 1 ∨ i = k + 2 ∨ i = k + 3 ∨ i = k + 4 ∨ k + 5 ≤ i := by omega

theorem av_congr {f g : Nat → ℝ} {n i : Nat} (hn : 2 ≤ n) (h : ∀ j < n, f j = g j) (hi : i < n) : av f n i = av g n i := by
  unfold av
  split_ifs
  · rw [h 0 (by omega), h 1 (by omega)]
  · rw [h (i - 1) (by omega), h i (by omega)]
  · rw [h (i - 1) (by omega), h i (by omega), h (i + 1) (by omega)]

theorem av_y1 {a c : ℝ} {k n : Nat} (hk : 4 ≤ k) (hn : k + 4 ≤ n) : ∀ i < n, av (y1 a c k) n i = y2 a c k i := by
  intro i hi
  unfold av
  split_ifs with h0 h1
  · subst h0
    rw [y1_m2 a c (by omega), y1_m2 a c (by omega), y2_m3 a c (by omega)]; ring
  · rw [y1_p1 a c (by omega), y1_p1 a c (by omega), y2_p2 a c (by omega)]; ring
  · rcases offsets i k with h | h | h | h | h | h | h | h | h | h | h
    · rw [y1_m2 a c (by omega), y1_m2 a c (by omega), y1_m2 a c (by omega), y2_m3 a c (by omega)]; ring
    · rw [y1_m2 a c (by omega), y1_m2 a c (by omega), y1_m2 a c (by omega), y2_m3 a c (by omega)]; ring
    · rw [y1_m2 a c (by omega), y1_m2 a c (by omega), y1_m2 a c (by omega), y2_m3 a c (by omega)]; ring
    · rw [y1_m2 a c (by omega), y1_m2 a c (by omega), y1_m1 a c (by omega), y2_m2 a c (by omega)]; ring
    · rw [y1_m2 a c (by omega), y1_m1 a c (by omega), y1_p0 a c (by omega), y2_m1 a c (by omega)]; ring
    · rw [y1_m1 a c (by omega), y1_p0 a c (by omega), y1_p1 a c (by omega), y2_p0 a c (by omega)]; ring
    · rw [y1_p0 a c (by omega), y1_p1 a c (by omega), y1_p1 a c (by omega), y2_p1 a c (by omega)]; ring
    · rw [y1_p1 a c (by omega), y1_p1 a c (by omega), y1_p1 a c (by omega), y2_p2 a c (by omega)]; ring
    · rw [y1_p1 a c (by omega), y1_p1 a c (by omega), y1_p1 a c (by omega), y2_p2 a c (by omega)]; ring
    · rw [y1_p1 a c (by omega), y1_p1 a c (by omega), y1_p1 a c (by omega), y2_p2 a c (by omega)]; ring
    · rw [y1_p1 a c (by omega), y1_p1 a c (by omega), y1_p1 a c (by omega), y2_p2 a c (by omega)]; ring

theorem sum_y2 {a c : ℝ} {k n : Nat} (hk : 4 ≤ k) (hn : k + 4 ≤ n) : ∀ i < n, y2 a c k (i - 1) + y2 a c k (min (i + 1) (n - 1)) = y3 a c k i := by
  intro i hi
  rcases offsets i k with h | h | h | h | h | h | h | h | h | h | h
  · rw [y2_m3 a c (by omega), y2_m3 a c (by omega), y3_m4 a c (by omega)]; ring
  · rw [y2_m3 a c (by omega), y2_m3 a c (by omega), y3_m4 a c (by omega)]; ring
  · rw [y2_m3 a c (by omega), y2_m2 a c (by omega), y3_m3 a c (by omega)]; ring
  · rw [y2_m3 a c (by omega), y2_m1 a c (by omega), y3_m2 a c (by omega)]; ring
  · rw [y2_m2 a c (by omega), y2_p0 a c (by omega), y3_m1 a c (by omega)]; ring
  · rw [y2_m1 a c (by omega), y2_p1 a c (by omega), y3_p0 a c (by omega)]; ring
  · rw [y2_p0 a c (by omega), y2_p2 a c (by omega), y3_p1 a c (by omega)]; ring
  · rw [y2_p1 a c (by omega), y2_p2 a c (by omega), y3_p2 a c (by omega)]; ring
  · rw [y2_p2 a c (by omega), y2_p2 a c (by omega), y3_p3 a c (by omega)]; ring
  · rw [y2_p2 a c (by omega), y2_p2 a c (by omega), y3_p3 a c (by omega)]; ring
  · rw [y2_p2 a c (by omega), y2_p2 a c (by omega), y3_p3 a c (by omega)]; ring

theorem y3_mono {a c : ℝ} (h : a ≤ c) (k i : Nat) : y3 a c k i ≤ y3 a c k (i + 1) := by
  unfold y3
  split_ifs <;> first | omega | linarith

theorem y3_pos {a c : ℝ} (ha : 0 < a) (h : a ≤ c) (k i : Nat) : 0 < y3 a c k i := by
  unfold y3
  split_ifs <;> linarith

/-- the largest ratio is three positions below the surface -/
theorem ratio_lt {a c : ℝ} {k n : Nat} (ha : 0 < a) (hc : 37 * a < c) (hk : 4 ≤ k) (hn : k + 4 ≤ n) : ∀ i < n, i ≠ k - 3 →
    y3 a c k (min (i + 1) (n - 1)) / y3 a c k (i - 1) < (15 * a + 3 * c) / (18 * a) := by
  intro i hi hne
  have hp := y3_pos ha (by linarith : a ≤ c) k (i - 1)
  rw [div_lt_div_iff₀ hp (by linarith)]
  have hcc : 0 < c := by linarith
  have h1 : 37 * a * c < c * c := by nlinarith
  have h2 : 37 * a * a < a * c := by nlinarith
  have h3 : 0 < a * a := by positivity
  rcases offsets i k with h | h | h | h | h | h | h | h | h | h | h
  · rw [y3_m4 a c (by omega), y3_m4 a c (by omega)]; nlinarith
  · rw [y3_m3 a c (by omega), y3_m4 a c (by omega)]; nlinarith
  · omega
  · rw [y3_m1 a c (by omega), y3_m3 a c (by omega)]; nlinarith
  · rw [y3_p0 a c (by omega), y3_m2 a c (by omega)]; nlinarith
  · rw [y3_p1 a c (by omega), y3_m1 a c (by omega)]; nlinarith
  · rw [y3_p2 a c (by omega), y3_p0 a c (by omega)]; nlinarith
  · rw [y3_p3 a c (by omega), y3_p1 a c (by omega)]; nlinarith
  · rw [y3_p3 a c (by omega), y3_p2 a c (by omega)]; nlinarith
  · rw [y3_p3 a c (by omega), y3_p3 a c (by omega)]; nlinarith
  · rw [y3_p3 a c (by omega), y3_p3 a c (by omega)]; nlinarith

/-- the X0s of all layers of a furnace without slag, as a perfect prediction -/
def perfect (g : Gen) (matZ : ℝ) (N nx ny : Nat) : Vol := (List.range N).map fun i : Nat => g.x0s matZ matZ (g.z0 + (i + 1) * g.s) nx ny

theorem inner_perfect (g : Gen) (hs : 0 < g.s) (matZ : ℝ) (N nx ny k : Nat) (hk : targ2int g.z0 g.s matZ = k) :
    inner (perfect g matZ N nx ny) = layered (nx - 2) (ny - 2) (fillStep g.fill g.air k) (N - 1) := by
  apply List.ext_getElem
  · simp [inner, perfect, layered, tab]
  · intro i h1 h2
    have hi : i < N - 1 := by simpa [layered, tab] using h2
    simp only [inner, perfect, layered, List.getElem_map, List.getElem_drop, tab_get _ hi, List.getElem_range]
    apply List.ext_getElem
    · simp [Gen.x0s]; omega
    · intro j h3 h4
      have hj : j < nx - 2 := by simpa using h4
      simp only [List.getElem_map, List.getElem_dropLast, List.getElem_drop, List.getElem_replicate]
      apply List.ext_getElem
      · simp [Gen.x0s]; omega
      · intro l h5 h6
        have hl : l < ny - 2 := by simpa using h6
        simp only [List.getElem_dropLast, List.getElem_drop, List.getElem_replicate]
        simp only [Gen.x0s, List.getElem_map, List.getElem_range]
        rw [if_neg (by omega), C60.layer_class g hs, if_neg (by omega), hk]
        unfold fillStep
        by_cases hik : i < k
        · rw [if_pos (by omega), if_pos hik]
        · rw [if_neg (by omega), if_neg hik, if_neg]
          intro hle
          have h7 : ((1 + i : Nat) : ℤ) ≤ targ2int g.z0 g.s matZ := by
            unfold targ2int
            rw [show (((1 + i : Nat) : ℤ) ≤ ⌊(matZ - g.z0) / g.s⌋ - 1) ↔ (((1 + i : Nat) + 1 : ℤ) ≤ ⌊(matZ - g.z0) / g.s⌋) by omega, Int.le_floor, le_div_iff₀ hs]
            push_cast at hle ⊢; linarith
          rw [hk] at h7; omega

/-- NOT the fill level: for a furnace without slag, whose contents are predicted perfectly, the height found by the default pipeline is three layers below the
fill height (if there are some layers above and below it, and the X0 of the air is more than 37 times that of the fill, in the library 15000 times). -/
theorem perfect_violated (g : Gen) (N nx ny : Nat) (h : C60.Stack g N) (hx : 3 ≤ nx) (hy : 3 ≤ ny) (ha : 0 < g.fill) (hc : 37 * g.fill < g.air)
    (matZ : ℝ) (k : Nat) (hk : targ2int g.z0 g.s matZ = k) (h4 : 4 ≤ k) (hN : k + 5 ≤ N) :
    ∃ p, x02probs defaultSteps (perfect g matZ N nx ny) = .ok (some (.classes p)) ∧ p.length = N - 1 ∧
      class2float g.z0 g.s (argmax p) = class2float g.z0 g.s (targ2int g.z0 g.s matZ) - 3 * g.s := by
  have hw : Walled (perfect g matZ N nx ny) := by
    intro p hp
    simp only [perfect, List.mem_map] at hp
    obtain ⟨i, _, rfl⟩ := hp
    refine ⟨by simpa [Gen.x0s] using hx, ?_⟩
    intro r hr
    simp only [Gen.x0s, List.mem_map] at hr
    obtain ⟨j, _, rfl⟩ := hr
    simpa using hy
  obtain ⟨n, hn⟩ : ∃ n, N - 1 = n := ⟨_, rfl⟩
  rw [hn]
  have hkn : k + 4 ≤ n := by omega
  have hprof : profile (perfect g matZ N nx ny) = tab (y2 g.fill g.air k) n := by
    unfold profile
    rw [inner_perfect g h.pos matZ N nx ny k hk, hn, pool_layered _ _ _ (by omega), layer_means (by omega) (by omega), avg1_tab _ (by omega), ← tab_congr (av_y1 h4 hkn)]
    apply tab_congr
    intro i hi
    exact av_congr (by omega) (av_step h4 hkn) hi
  have hrid : ridges (profile (perfect g matZ N nx ny)) = tab (y3 g.fill g.air k) n := by
    rw [hprof, ridges_tab]; exact tab_congr (sum_y2 h4 hkn)
  have hle : g.fill ≤ g.air := by linarith
  have hpos : ∀ v ∈ tab (y3 g.fill g.air k) n, 0 < v := by
    intro v hv
    simp only [tab, List.mem_map] at hv
    obtain ⟨i, _, rfl⟩ := hv
    exact y3_pos ha hle k i
  have hrun := default_run hw
  rw [hrid, min1_no_zero hpos, ratio_tab _ (fun i _ => y3_mono hle k i)] at hrun
  refine ⟨softmax (tab (fun i => y3 g.fill g.air k (min (i + 1) (n - 1)) / y3 g.fill g.air k (i - 1)) n),
    by simp only [x02probs, hrun, Bool.false_eq_true, if_false], by simp [softmax, tab], ?_⟩
  have hval : y3 g.fill g.air k (min (k - 3 + 1) (n - 1)) / y3 g.fill g.air k (k - 3 - 1) = (15 * g.fill + 3 * g.air) / (18 * g.fill) := by
    rw [show min (k - 3 + 1) (n - 1) = k - 2 by omega]
    have e1 : y3 g.fill g.air k (k - 2) = (15 * g.fill + 3 * g.air) / 9 := by
      unfold y3; split_ifs <;> first | omega | rfl
    have e2 : y3 g.fill g.air k (k - 3 - 1) = 2 * g.fill := by
      unfold y3; split_ifs <;> first | omega | rfl
    rw [e1, e2]; field_simp; ring
  have harg : argmax (softmax (tab (fun i => y3 g.fill g.air k (min (i + 1) (n - 1)) / y3 g.fill g.air k (i - 1)) n)) = k - 3 := by
    set S := ((tab (fun i => y3 g.fill g.air k (min (i + 1) (n - 1)) / y3 g.fill g.air k (i - 1)) n).map exp).sum with hS
    have hSp : 0 < S := by
      apply sum_pos'
      · simp [tab]; omega
      · intro v hv
        simp only [List.mem_map] at hv
        obtain ⟨w, _, rfl⟩ := hv
        exact exp_pos _
    apply argmax_unique (v := exp ((15 * g.fill + 3 * g.air) / (18 * g.fill)) / S)
    · simp only [softmax, List.getElem?_map, ← hS]
      rw [List.getElem?_eq_getElem (by rw [tab_length]; omega), tab_get _ (by omega), hval]; rfl
    · intro j v hj hv
      simp only [softmax, List.getElem?_map, ← hS, Option.map_eq_some_iff] at hv
      obtain ⟨w, hw', rfl⟩ := hv
      obtain ⟨hjl, hje⟩ := List.getElem?_eq_some_iff.1 hw'
      rw [tab_length] at hjl
      rw [tab_get _ hjl] at hje
      have := ratio_lt ha hc h4 hkn j hjl hj
      rw [hje] at this
      exact div_lt_div_of_pos_right (exp_lt_exp.2 this) hSp
  rw [harg, hk]
  unfold class2float
  push_cast [Nat.cast_sub (show 3 ≤ k by omega)]
  ring

/-- hypotheses of `perfect_violated`: the materials of the library, ten layers of 10 cm, filled to 0.55 m -/
example : let g : Gen := ⟨(1, 1), 0, 1, 1/10, 0.01782, 0.01991, 0.08211, 303.9⟩
    C60.Stack g 10 ∧ 37 * g.fill < g.air ∧ targ2int g.z0 g.s 0.55 = (4 : Nat) := by
  refine ⟨⟨by norm_num, by norm_num⟩, by norm_num, ?_⟩
  unfold targ2int
  have : ⌊((0.55 : ℝ) - 0) / (1 / 10)⌋ = 5 := by rw [Int.floor_eq_iff]; norm_num
  rw [this]; norm_num

/-- hypotheses of `distribution`, `scale_free` and `homogeneous` -/
example : Walled (List.replicate 10 (List.replicate 3 (List.replicate 3 (1 : ℝ)))) := by
  intro p hp
  obtain rfl := List.eq_of_mem_replicate hp
  refine ⟨by simp, ?_⟩
  intro r hr
  obtain rfl := List.eq_of_mem_replicate hr
  simp

end C80

end

end Tomopt
