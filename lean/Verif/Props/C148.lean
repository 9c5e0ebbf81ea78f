import Verif.Model.Draw
import Verif.Lemmas.Detector

/- C148: what drawings of volumes, predictions and records show. -/
namespace Tomopt

noncomputable section

namespace C148

open Draw

/-! ### Volumes -/

/-- rounding to two decimals -/
def Hundredths (rnd : ℝ → ℝ) : Prop := ∀ z, ∃ k : ℤ, rnd z = k / 100 ∧ |rnd z - z| ≤ 1 / 200

/-- no layer has heat maps -/
def Flat : AnyLayer → Prop
  | .passive _ => True
  | .detector D => ∀ p ∈ D.panels, ∃ q, p = .panel q

/-- what should be drawn of a layer: a box, or the rectangles of its panels -/
def expected (rnd : ℝ → ℝ) : AnyLayer → List Item
  | .passive L => [box rnd L]
  | .detector D => D.panels.filterMap fun p => match p with | .panel q => some (rect q) | .heatmap _ => none

theorem rects_ok (ps : List (Nat × AnyPanel)) (h : ∀ p ∈ ps, ∃ q, p.2 = .panel q) :
    rects ps = .ok (ps.filterMap fun p => match p.2 with | .panel q => some (rect q) | .heatmap _ => none) := by
  induction ps with
  | nil => rfl
  | cons p ps ih =>
    obtain ⟨i, p⟩ := p
    obtain ⟨q, rfl⟩ : ∃ q, p = .panel q := h (i, p) (by simp)
    simp only [rects, ih fun p hp => h p (by simp [hp]), List.filterMap_cons]

theorem zpanels_mem (argsort : List ℝ → List Nat) (D : DetLayer) (p : Nat × AnyPanel) (h : p ∈ D.zpanels argsort) : p.2 ∈ D.panels := by
  simp only [DetLayer.zpanels, List.mem_filterMap, Option.map_eq_some_iff] at h
  obtain ⟨i, -, q, h1, rfl⟩ := h
  exact List.mem_of_getElem? h1

theorem items_ok (argsort : List ℝ → List Nat) (ha : IsArgsort argsort) (rnd : ℝ → ℝ) (ls : List AnyLayer) (h : ∀ l ∈ ls, Flat l) :
    ∃ a p, items argsort rnd ls = .ok (a, p) ∧ (a ++ p).Perm (ls.flatMap (expected rnd)) := by
  induction ls with
  | nil => exact ⟨[], [], rfl, .refl _⟩
  | cons l ls ih =>
    obtain ⟨a, p, h1, h2⟩ := ih fun l hl => h l (by simp [hl])
    cases l with
    | passive L =>
      refine ⟨a, box rnd L :: p, by simp only [items, h1], ?_⟩
      exact List.perm_middle.trans (h2.cons _)
    | detector D =>
      have hf : Flat (.detector D) := h _ (by simp)
      have := rects_ok (D.zpanels argsort) fun p hp => hf _ (zpanels_mem argsort D p hp)
      refine ⟨_ ++ a, p, by simp only [items, this, h1]; rfl, ?_⟩
      rw [List.append_assoc, List.flatMap_cons]
      refine List.Perm.append ?_ h2
      have := (zpanels_perm ha D).filterMap fun p => match p with | .panel q => some (rect q) | .heatmap _ => none
      rw [List.filterMap_map] at this
      exact this

/-- **C148: volumes.** A volume without heat maps can be drawn: there is one box for every passive layer and one rectangle for every panel, drawn from the lowest to the highest. -/
theorem volume (argsort : List ℝ → List Nat) (ha : IsArgsort argsort) (rnd : ℝ → ℝ) (V : Volume) (hf : ∀ l ∈ V.layers, Flat l) (xlim ylim zlim : ℝ × ℝ) :
    ∃ d, draw argsort rnd V xlim ylim zlim = .ok d ∧ d.items.Perm (V.layers.flatMap (expected rnd)) ∧ d.items.Pairwise (fun i j => i.z ≤ j.z) ∧ d.zRange = zlim := by
  obtain ⟨a, p, h1, h2⟩ := items_ok argsort ha rnd V.layers hf
  refine ⟨_, by simp only [draw, h1]; rfl, (List.mergeSort_perm _ _).trans h2, ?_, rfl⟩
  have := List.pairwise_mergeSort (le := fun i j : Item => decide (i.z ≤ j.z)) (by simp; intro a b c; exact le_trans) (by simp; intro a b; exact le_total _ _) (a ++ p)
  exact this.imp fun h => by simpa using h

theorem rects_error (ps : List (Nat × AnyPanel)) (h : ∃ p ∈ ps, ∀ q, p.2 ≠ .panel q) : rects ps = .error .typeError := by
  induction ps with
  | nil => simp at h
  | cons p ps ih =>
    obtain ⟨j, p⟩ := p
    cases p with
    | heatmap g => rfl
    | panel q =>
      obtain ⟨p, hp, hq⟩ := h
      rcases List.mem_cons.mp hp with rfl | h1
      · exact absurd rfl (hq q)
      · simp only [rects, ih ⟨p, h1, hq⟩]

theorem items_error (argsort : List ℝ → List Nat) (ha : IsArgsort argsort) (rnd : ℝ → ℝ) (ls : List AnyLayer) (h : ∃ l ∈ ls, ¬ Flat l) : items argsort rnd ls = .error .typeError := by
  induction ls with
  | nil => simp at h
  | cons l ls ih =>
    by_cases hl : Flat l
    · have h' : ∃ l ∈ ls, ¬ Flat l := by
        obtain ⟨k, hk, hn⟩ := h
        rcases List.mem_cons.mp hk with rfl | h1
        · exact absurd hl hn
        · exact ⟨k, h1, hn⟩
      cases l with
      | passive L => simp only [items, ih h']
      | detector D => simp only [items, ih h', rects_ok (D.zpanels argsort) fun p hp => hl _ (zpanels_mem argsort D p hp)]
    · cases l with
      | passive L => exact absurd trivial hl
      | detector D =>
        simp only [Flat, not_forall, not_exists] at hl
        obtain ⟨p, hp, hq⟩ := hl
        have hm : p ∈ (D.zpanels argsort).map (·.2) := (zpanels_perm ha D).mem_iff.mpr hp
        obtain ⟨r, hr, rfl⟩ := List.mem_map.mp hm
        simp only [items, rects_error _ ⟨r, hr, hq⟩]

/-- **C148: heat maps.** A volume with a heat map in any of its detectors is refused. -/
theorem heatmap_error (argsort : List ℝ → List Nat) (ha : IsArgsort argsort) (rnd : ℝ → ℝ) (V : Volume) (D : DetLayer) (hD : AnyLayer.detector D ∈ V.layers) (h : Heatmap) (hh : AnyPanel.heatmap h ∈ D.panels) (xlim ylim zlim : ℝ × ℝ) :
    draw argsort rnd V xlim ylim zlim = .error .typeError := by
  have : ¬ Flat (.detector D) := by
    intro hf
    obtain ⟨q, hq⟩ := hf _ hh
    simp at hq
  simp only [draw, items_error argsort ha rnd V.layers ⟨_, hD, this⟩]

/-- **C148: panels.** A panel is drawn where it is, with its extent: its corners are half its extent from its centre. -/
theorem corners (p : Panel) : (rect p).z = p.z ∧ ∃ f, (rect p).faces = [f] ∧ ∀ q : Point, q ∈ f ↔ (q.1 = p.xy.1 - p.scaledSpan.1 / 2 ∨ q.1 = p.xy.1 + p.scaledSpan.1 / 2) ∧ (q.2.1 = p.xy.2 - p.scaledSpan.2 / 2 ∨ q.2.1 = p.xy.2 + p.scaledSpan.2 / 2) ∧ q.2.2 = p.z := by
  refine ⟨rfl, _, rfl, fun q => ?_⟩
  obtain ⟨a, b, c⟩ := q
  simp only [List.mem_cons, Prod.mk.injEq, List.not_mem_nil, or_false]
  tauto

/-- **C148: layers.** The box of a passive layer has its length, width and thickness, and is at most half a centimetre too high or too low. -/
theorem boxes (rnd : ℝ → ℝ) (hr : Hundredths rnd) (L : PassiveLayer) : |(box rnd L).z - L.z| ≤ 1 / 200 ∧
    ∀ q : Point, (∃ f ∈ (box rnd L).faces, q ∈ f) ↔ (q.1 = 0 ∨ q.1 = L.lw.1) ∧ (q.2.1 = 0 ∨ q.2.1 = L.lw.2) ∧ (q.2.2 = (box rnd L).z - L.size ∨ q.2.2 = (box rnd L).z) := by
  refine ⟨(hr L.z).choose_spec.2, fun q => ?_⟩
  obtain ⟨a, b, c⟩ := q
  simp only [box, List.mem_cons, List.not_mem_nil, or_false, exists_eq_or_imp, exists_eq_left, Prod.mk.injEq]
  constructor
  · rintro (h | h | h | h | h) <;> rcases h with ⟨rfl, rfl, rfl⟩ | ⟨rfl, rfl, rfl⟩ | ⟨rfl, rfl, rfl⟩ | ⟨rfl, rfl, rfl⟩ <;> simp
  · rintro ⟨rfl | rfl, rfl | rfl, rfl | rfl⟩ <;> simp

/-- **C148 is refuted by the code.** The limits asked for are those of the other axis. -/
theorem limits_violated (argsort : List ℝ → List Nat) (ha : IsArgsort argsort) (rnd : ℝ → ℝ) (V : Volume) (hf : ∀ l ∈ V.layers, Flat l) (xlim ylim zlim : ℝ × ℝ) (h : xlim ≠ ylim) :
    ∃ d, draw argsort rnd V xlim ylim zlim = .ok d ∧ d.xRange = ylim ∧ d.yRange = xlim ∧ d.xRange ≠ xlim := by
  obtain ⟨a, p, h1, -⟩ := items_ok argsort ha rnd V.layers hf
  exact ⟨_, by simp only [draw, h1]; rfl, rfl, rfl, Ne.symm h⟩

theorem rounds_to (rnd : ℝ → ℝ) (hr : Hundredths rnd) (z : ℝ) (k : ℤ) (h : |(k : ℝ) / 100 - z| < 1 / 200) : rnd z = k / 100 := by
  obtain ⟨j, h1, h2⟩ := hr z
  rw [h1]
  rw [h1] at h2
  have h3 := abs_lt.mp h
  have h4 := abs_le.mp h2
  have a : (j : ℝ) < k + 1 := by linarith [h3.1, h3.2, h4.1, h4.2]
  have b : (k : ℝ) < j + 1 := by linarith [h3.1, h3.2, h4.1, h4.2]
  have a' : j < k + 1 := by exact_mod_cast a
  have b' : k < j + 1 := by exact_mod_cast b
  rw [show j = k by omega]

/-- **C148 is refuted by the code.** Heights are rounded to centimetres: a layer 4 mm thick is drawn beside its place, wholly below it, and two layers that follow each other are drawn in the same place. -/
theorem thin_violated (rnd : ℝ → ℝ) (hr : Hundredths rnd) (L M : PassiveLayer) (h1 : L.z = 0.994) (h2 : M.z = 0.99) (h3 : L.size = 0.004) (h4 : M.size = 0.004) (h5 : M.lw = L.lw) :
    (box rnd L).z ≤ L.z - L.size ∧ M.z = L.z - L.size ∧ box rnd M = box rnd L := by
  have a : rnd L.z = ((99 : ℤ) : ℝ) / 100 := rounds_to rnd hr _ 99 (by rw [h1]; norm_num [abs_lt])
  have b : rnd M.z = ((99 : ℤ) : ℝ) / 100 := rounds_to rnd hr _ 99 (by rw [h2]; norm_num [abs_lt])
  refine ⟨?_, by rw [h1, h2, h3]; norm_num, by simp only [box, a, b, h3, h4, h5]⟩
  simp only [box, a]
  rw [h1, h3]
  norm_num

/-! ### Predictions -/

theorem plotRows_ok (pred : List (List (List (Option ℝ)))) (truth : List (List (List ℝ))) (ht : truth.length = pred.length) (k i : Nat) (h : i + k = pred.length) :
    ∃ rs, plotRows pred truth i k = .ok rs ∧ rs.length = k ∧ ∀ r, r < k → ∃ x, rs[r]? = some x ∧ x.label = pred.length - 1 - (i + r) ∧ pred[x.label]? = some x.pred ∧ truth[x.label]? = some x.truth := by
  induction k generalizing i with
  | zero => exact ⟨[], rfl, rfl, fun r hr => absurd hr (by omega)⟩
  | succ k ih =>
    obtain ⟨rs, h1, h2, h3⟩ := ih (i + 1) (by omega)
    have hp : pred.length - 1 - i < pred.length := by omega
    have ep := List.getElem?_eq_getElem hp
    have et := List.getElem?_eq_getElem (l := truth) (i := pred.length - 1 - i) (by omega)
    refine ⟨⟨pred.length - 1 - i, _, _⟩ :: rs, by simp only [plotRows, ep, et, h1]; rfl, by simp [h2], fun r hr => ?_⟩
    cases r with
    | zero => exact ⟨_, rfl, rfl, ep, et⟩
    | succ r =>
      obtain ⟨x, e1, e2, e3, e4⟩ := h3 r (by omega)
      exact ⟨x, by simpa using e1, by rw [e2]; congr 1; omega, e3, e4⟩

theorem nanRange_spec (xs : List (Option ℝ)) : (nanRange xs = none ↔ ∀ x ∈ xs, x = none) ∧ ∀ a b, nanRange xs = some (a, b) → some a ∈ xs ∧ some b ∈ xs ∧ ∀ x, some x ∈ xs → a ≤ x ∧ x ≤ b := by
  induction xs with
  | nil => simp [nanRange]
  | cons y xs ih =>
    obtain ⟨i1, i2⟩ := ih
    cases y with
    | none =>
      simp only [nanRange]
      refine ⟨by rw [i1]; simp, fun a b h => ?_⟩
      obtain ⟨j1, j2, j3⟩ := i2 a b h
      exact ⟨by simp [j1], by simp [j2], fun x hx => j3 x (by simpa using hx)⟩
    | some y =>
      simp only [nanRange]
      cases hn : nanRange xs with
      | none =>
        refine ⟨by simp, fun a b h => ?_⟩
        simp only [Option.some.injEq, Prod.mk.injEq] at h
        obtain ⟨rfl, rfl⟩ := h
        refine ⟨by simp, by simp, fun x hx => ?_⟩
        rcases List.mem_cons.mp hx with h | h
        · cases h; exact ⟨le_rfl, le_rfl⟩
        · exact absurd (i1.mp hn _ h) (by simp)
      | some r =>
        obtain ⟨a', b'⟩ := r
        refine ⟨by simp, fun a b h => ?_⟩
        simp only [Option.some.injEq, Prod.mk.injEq] at h
        obtain ⟨rfl, rfl⟩ := h
        obtain ⟨j1, j2, j3⟩ := i2 a' b' hn
        refine ⟨?_, ?_, fun x hx => ?_⟩
        · rcases min_choice y a' with e | e <;> rw [e] <;> simp [j1]
        · rcases max_choice y b' with e | e <;> rw [e] <;> simp [j2]
        · rcases List.mem_cons.mp hx with h | h
          · cases h; exact ⟨min_le_left _ _, le_max_left _ _⟩
          · exact ⟨(min_le_right _ _).trans (j3 x h).1, (j3 x h).2.trans (le_max_right _ _)⟩

/-- **C148: predictions.** Two or more layers of predictions are drawn, each once, beside the true values of the same layer and labelled with its number. The row on top is the last layer, that is the highest. The colours
range from the smallest to the largest value of all layers, so that the same colour is the same value in all rows. -/
theorem predictions (pred : List (List (List (Option ℝ)))) (truth : List (List (List ℝ))) (hp : 2 ≤ pred.length) (ht : truth.length = pred.length) (hne : truth.flatten.flatten ≠ []) :
    ∃ c, comparison pred truth = .ok c ∧ c.rows.length = pred.length ∧
      (∀ i, i < pred.length → ∃ r, c.rows[i]? = some r ∧ r.label = pred.length - 1 - i ∧ pred[r.label]? = some r.pred ∧ truth[r.label]? = some r.truth) ∧
      (∀ x ∈ truth.flatten.flatten, c.truthRange.1 ≤ x ∧ x ≤ c.truthRange.2) ∧ c.truthRange.1 ∈ truth.flatten.flatten ∧ c.truthRange.2 ∈ truth.flatten.flatten ∧
      ∀ x, some x ∈ pred.flatten.flatten → ∃ r, c.predRange = some r ∧ r.1 ≤ x ∧ x ≤ r.2 ∧ some r.1 ∈ pred.flatten.flatten ∧ some r.2 ∈ pred.flatten.flatten := by
  obtain ⟨rs, h1, h2, h3⟩ := plotRows_ok pred truth ht pred.length 0 (by omega)
  obtain ⟨n1, n2⟩ := nanRange_spec (truth.flatten.flatten.map some)
  cases hn : nanRange (truth.flatten.flatten.map some) with
  | none =>
    exfalso
    obtain ⟨x, hx⟩ := List.exists_mem_of_ne_nil _ hne
    exact absurd (n1.mp hn (some x) (List.mem_map_of_mem hx)) (by simp)
  | some r =>
    obtain ⟨a, b⟩ := r
    obtain ⟨j1, j2, j3⟩ := n2 a b hn
    refine ⟨⟨rs, nanRange pred.flatten.flatten, (a, b)⟩, ?_, h2, ?_, fun x hx => j3 x (List.mem_map_of_mem hx), ?_, ?_, ?_⟩
    · unfold comparison
      rw [if_neg (by omega), if_neg (by omega), hn]
      simp only [h1]
    · intro i hi
      obtain ⟨x, e⟩ := h3 i hi
      rw [Nat.zero_add] at e
      exact ⟨x, e⟩
    · obtain ⟨x, hx, e⟩ := List.mem_map.mp j1
      cases e
      exact hx
    · obtain ⟨x, hx, e⟩ := List.mem_map.mp j2
      cases e
      exact hx
    · intro x hx
      obtain ⟨m1, m2⟩ := nanRange_spec pred.flatten.flatten
      cases hm : nanRange pred.flatten.flatten with
      | none => exact absurd (m1.mp hm _ hx) (by simp)
      | some r =>
        obtain ⟨k1, k2, k3⟩ := m2 r.1 r.2 hm
        exact ⟨r, rfl, (k3 x hx).1, (k3 x hx).2, k1, k2⟩

/-- **C148 is refuted by the code.** The documentation says that the lowest layer, number zero, is drawn first: it is drawn last. And a prediction with one layer cannot be drawn at all. -/
theorem predictions_violated (pred : List (List (List (Option ℝ)))) (truth : List (List (List ℝ))) : (∀ c, comparison pred truth = .ok c → c.rows.length = pred.length → truth.length = pred.length → ∀ r, c.rows[0]? = some r → r.label ≠ 0) ∧
    (pred.length = 1 → comparison pred truth = .error .typeError) := by
  constructor
  · intro c hc hl ht r hr
    have hp : 2 ≤ pred.length := by
      by_contra h
      unfold comparison at hc
      by_cases h0 : pred.length = 0
      · rw [if_pos h0] at hc; simp at hc
      · rw [if_neg h0, if_pos (by omega)] at hc; simp at hc
    obtain ⟨rs, h1, h2, h3⟩ := plotRows_ok pred truth ht pred.length 0 (by omega)
    unfold comparison at hc
    rw [if_neg (by omega), if_neg (by omega), h1] at hc
    split at hc
    · simp at hc
    · simp only [Except.ok.injEq] at hc
      subst hc
      obtain ⟨x, e1, e2, -⟩ := h3 0 (by omega)
      simp only at hr
      rw [e1] at hr
      cases hr
      omega
  · intro h
    unfold comparison
    rw [if_neg (by omega), if_pos h]

/-! ### Records -/

/-- `sorted` of layers: the same layers, in increasing order if there is no NaN among them -/
def Sorts (srt : List (Option Nat) → List (Option Nat)) : Prop := ∀ l, (srt l).Perm l ∧ (none ∉ l → (srt l).Pairwise fun a b => a.getD 0 ≤ b.getD 0)

/-- **C148: records.** A record with two or more layers is drawn with one plot per layer, in increasing order; every entry that has a layer is in the plot of its layer and in no other. -/
theorem records (srt : List (Option Nat) → List (Option Nat)) (hs : Sorts srt) (df : List Rec) (h2 : 2 ≤ (df.map (·.layer)).dedup.length) :
    ∃ ps, density srt df = .ok ps ∧ (ps.map (·.1)).Nodup ∧ (∀ r ∈ df, r.layer ∈ ps.map (·.1)) ∧ (none ∉ df.map (·.layer) → (ps.map (·.1)).Pairwise fun a b => a.getD 0 ≤ b.getD 0) ∧
      ∀ p ∈ ps, ∀ r, r ∈ p.2 ↔ r ∈ df ∧ r.layer = p.1 ∧ r.layer ≠ none := by
  obtain ⟨p1, p2⟩ := hs (df.map (·.layer)).dedup
  have hl := p1.length_eq
  have hz : ((srt (df.map (·.layer)).dedup).map fun z => (z, df.filter fun r => sameLayer r.layer z)).map (·.1) = srt (df.map (·.layer)).dedup := by
    rw [List.map_map]
    exact List.map_id' _
  refine ⟨(srt (df.map (·.layer)).dedup).map fun z => (z, df.filter fun r => sameLayer r.layer z), ?_, ?_, ?_, ?_, ?_⟩
  · unfold density
    simp only
    rw [if_neg (by omega), if_neg (by omega)]
  · rw [hz, p1.nodup_iff]
    exact List.nodup_dedup _
  · intro r hr
    rw [hz, p1.mem_iff, List.mem_dedup]
    exact List.mem_map_of_mem hr
  · intro hn
    rw [hz]
    exact p2 fun h => hn (List.mem_dedup.mp h)
  · intro p hp r
    obtain ⟨z, -, rfl⟩ := List.mem_map.mp hp
    simp only [List.mem_filter]
    cases hr : r.layer with
    | none => simp [sameLayer]
    | some a =>
      cases z with
      | none => simp [sameLayer]
      | some b => simp [sameLayer]

/-- **C148 is refuted by the code.** A record all of whose entries are in one layer cannot be drawn, nor can an empty one; and an entry without a layer is in no plot. -/
theorem records_violated (srt : List (Option Nat) → List (Option Nat)) (hs : Sorts srt) (df : List Rec) :
    (∀ z, df ≠ [] → (∀ r ∈ df, r.layer = z) → density srt df = .error .typeError) ∧ (df = [] → density srt df = .error .zeroDivision) ∧
    ∀ ps, density srt df = .ok ps → ∀ r ∈ df, r.layer = none → ∀ p ∈ ps, r ∉ p.2 := by
  obtain ⟨p1, -⟩ := hs (df.map (·.layer)).dedup
  have hl := p1.length_eq
  refine ⟨fun z h0 hz => ?_, fun h => ?_, ?_⟩
  · have : (df.map (·.layer)).dedup = [z] := by
      have e : df.map (·.layer) = List.replicate df.length z := by
        rw [List.eq_replicate_iff]
        exact ⟨by simp, fun b hb => by obtain ⟨r, hr, rfl⟩ := List.mem_map.mp hb; exact hz r hr⟩
      rw [e, List.replicate_dedup (by simpa using h0)]
    rw [this] at hl
    unfold density
    simp only [this] at hl ⊢
    rw [if_neg (by rw [hl]; simp), if_pos (by rw [hl]; rfl)]
  · subst h
    unfold density
    simp only [List.map_nil, List.dedup_nil] at hl ⊢
    rw [if_pos (by rw [hl]; rfl)]
  · intro ps hps r hr hn p hp hm
    unfold density at hps
    simp only at hps
    split at hps
    · simp at hps
    · split at hps
      · simp at hps
      · simp only [Except.ok.injEq] at hps
        subst hps
        obtain ⟨z, -, rfl⟩ := List.mem_map.mp hp
        simp [sameLayer, hn] at hm

/-! ### The hypotheses can be met -/

/-- rounding to two decimals exists -/
theorem hundredths : Hundredths fun z => (⌊100 * z + 1 / 2⌋ : ℝ) / 100 := by
  intro z
  refine ⟨_, rfl, ?_⟩
  have h1 := Int.floor_le (100 * z + 1 / 2)
  have h2 := Int.lt_floor_add_one (100 * z + 1 / 2)
  rw [abs_le]
  constructor <;> linarith

example : ∃ c, comparison [[[some 1, none]], [[some 2, some 3]]] [[[1, 2]], [[3, 4]]] = .ok c ∧ c.rows.length = 2 := by
  obtain ⟨c, h1, h2, -⟩ := predictions [[[some 1, none]], [[some 2, some 3]]] [[[1, 2]], [[3, 4]]] (by simp) rfl (by simp)
  exact ⟨c, h1, h2⟩

/-- a `sorted` exists -/
example : Sorts fun l => l.mergeSort fun a b => decide (a.getD 0 ≤ b.getD 0) := by
  intro l
  refine ⟨List.mergeSort_perm _ _, fun _ => ?_⟩
  have := List.pairwise_mergeSort (le := fun a b : Option Nat => decide (a.getD 0 ≤ b.getD 0)) (by simp; intro a b c; exact le_trans) (by simp; intro a b; exact le_total _ _) l
  exact this.imp fun h => by simpa using h

example : 2 ≤ (([⟨0, 0, some 1⟩, ⟨1, 1, some 0⟩, ⟨1, 0, some 1⟩] : List Rec).map (·.layer)).dedup.length := by
  simp only [List.map_cons, List.map_nil]
  decide

/-- one passive layer and one panel -/
example : ∀ l ∈ [AnyLayer.detector ⟨"above", (1, 1), 1, 0.1, [.panel ⟨.gauss, 1, 1, 1, (0.5, 0.5), 1, (1, 1), 1, true, true⟩]⟩, .passive ⟨(1, 1), 0.9, 0.1, 0.01, "pdg", none⟩], Flat l := by
  intro l hl
  simp only [List.mem_cons, List.not_mem_nil, or_false] at hl
  rcases hl with rfl | rfl
  · intro p hp
    exact ⟨_, List.mem_singleton.mp hp⟩
  · trivial

end C148

end

end Tomopt
