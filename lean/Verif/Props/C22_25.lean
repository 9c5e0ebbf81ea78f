import Verif.Lemmas.Response
import Verif.Props.C13_14

/- C22-C25: limits and response of panels; C69: heat-map detectors. -/
namespace Tomopt

noncomputable section
open Real

namespace C22

/-- The panel is inside the layer: centre over the footprint, height within the layer, spans within 1/20 and 10 times the layer width. -/
structure Conformed (D : DetLayer) (p : Panel) : Prop where
  x : 0 ≤ p.xy.1 ∧ p.xy.1 ≤ D.lw.1
  y : 0 ≤ p.xy.2 ∧ p.xy.2 ≤ D.lw.2
  z : D.z - D.size ≤ p.z ∧ p.z ≤ D.z
  spanX : D.lw.1 / 20 ≤ p.span.1 ∧ p.span.1 ≤ 10 * D.lw.1
  spanY : D.lw.2 / 20 ≤ p.span.2 ∧ p.span.2 ≤ 10 * D.lw.2

theorem clamp_mem (x lo hi : ℝ) (h : lo ≤ hi) : lo ≤ clampR x lo hi ∧ clampR x lo hi ≤ hi :=
  ⟨le_min (le_max_right _ _) h, min_le_right _ _⟩

theorem clamp_idem (x lo hi : ℝ) : clampR (clampR x lo hi) lo hi = clampR x lo hi := by
  unfold clampR
  rcases le_total lo hi with h | h
  · rw [max_eq_left (le_min (le_max_right _ _) h), min_eq_left (min_le_right _ _)]
  · rw [min_eq_right (le_trans h (le_max_right _ _)), min_eq_right (le_trans h (le_max_right _ _))]

theorem isHeatmap_false (D : DetLayer) (hk : ∀ p ∈ D.panels, ∃ q, p = .panel q) : D.isHeatmap = false := by
  unfold DetLayer.isHeatmap
  cases hp : D.panels with
  | nil => rfl
  | cons a as => obtain ⟨q, rfl⟩ := hk a (by simp [hp]); rfl

/-- **C22.** Whatever parameters the optimiser left, after conforming every panel is inside the layer, and the strict margins of
the jitter are kept; nothing but position and span changes; conforming again with the same jitter changes nothing. -/
theorem conform_spec (D : DetLayer) (eps : Nat → ℝ) (hk : ∀ p ∈ D.panels, ∃ q, p = .panel q) (hx : 0 ≤ D.lw.1) (hy : 0 ≤ D.lw.2)
    (he : ∀ i, 0 ≤ eps i ∧ eps i < 1e-3) (hs : 2e-3 ≤ D.size) :
    (D.conform eps).panels.length = D.panels.length ∧
    (∀ (i : Nat) (p : AnyPanel), D.panels[i]? = some p → ∃ q q' : Panel, p = .panel q ∧ (D.conform eps).panels[i]? = some (.panel q') ∧
      Conformed D q' ∧ D.z - D.size + eps i ≤ q'.z ∧ q'.z ≤ D.z - eps i ∧
      q' = { q with xy := q'.xy, z := q'.z, span := q'.span } ∧
      (q.z = q'.z ∨ q.z < D.z - D.size + eps i ∨ D.z - eps i < q.z)) ∧
    (D.conform eps).conform eps = D.conform eps := by
  have hh := isHeatmap_false D hk
  have hc : D.conform eps = { D with panels := D.panels.zipIdx.map fun pi => match pi.1 with
      | .panel p => .panel (p.clampParams (eps pi.2) (0, 0, D.z - D.size) (D.lw.1, D.lw.2, D.z))
      | p => p } := by
    unfold DetLayer.conform
    rw [hh]
    congr 1
    apply List.map_congr_left
    rintro ⟨p, i⟩ _
    cases p <;> rfl
  refine ⟨by rw [hc]; simp, ?_, ?_⟩
  · intro i p hp
    obtain ⟨q, rfl⟩ := hk p (List.mem_of_getElem? hp)
    refine ⟨q, q.clampParams (eps i) (0, 0, D.z - D.size) (D.lw.1, D.lw.2, D.z), rfl, by rw [hc]; simp [hp], ?_, ?_, ?_, rfl, ?_⟩
    · have h1 := clamp_mem q.z (D.z - D.size + eps i) (D.z - eps i) (by have := he i; linarith)
      have := he i
      exact ⟨clamp_mem _ _ _ hx, clamp_mem _ _ _ hy, ⟨by simp only [Panel.clampParams]; linarith, by simp only [Panel.clampParams]; linarith⟩,
        clamp_mem _ _ _ (by linarith), clamp_mem _ _ _ (by linarith)⟩
    · exact (clamp_mem q.z _ (D.z - eps i) (by have := he i; linarith)).1
    · exact (clamp_mem q.z (D.z - D.size + eps i) _ (by have := he i; linarith)).2
    · by_cases h1 : q.z < D.z - D.size + eps i
      · exact Or.inr (Or.inl h1)
      · by_cases h2 : D.z - eps i < q.z
        · exact Or.inr (Or.inr h2)
        · left
          simp only [Panel.clampParams, clampR]
          rw [max_eq_left (not_lt.mp h1), min_eq_left (not_lt.mp h2)]
  · have hk' : ∀ p ∈ (D.conform eps).panels, ∃ q, p = .panel q := by
      intro p hp
      rw [hc] at hp
      simp only [List.mem_map] at hp
      obtain ⟨⟨a, i⟩, ha, rfl⟩ := hp
      obtain ⟨q, rfl⟩ := hk a (List.fst_mem_of_mem_zipIdx ha)
      exact ⟨_, rfl⟩
    have hh' := isHeatmap_false _ hk'
    generalize hE : D.conform eps = E at *
    unfold DetLayer.conform
    rw [hh', hc]
    simp only [DetLayer.mk.injEq, true_and]
    apply List.ext_getElem?
    intro i
    simp only [List.getElem?_map, List.getElem?_zipIdx]
    cases hp : D.panels[i]? with
    | none => simp
    | some p =>
      obtain ⟨q, rfl⟩ := hk p (List.mem_of_getElem? hp)
      simp [Panel.clampParams, clamp_idem]

example : ((⟨"above", (1, 1), 1, 1, [.panel ⟨.gauss, 1000, 1, 1, (-5, 0.5), 7, (100, 0), 1, true, true⟩]⟩ : DetLayer).conform
    (fun _ => 0.0005)).panels = [.panel ⟨.gauss, 1000, 1, 1, (0, 0.5), 0.9995, (10, 0.05), 1, true, true⟩] := by
  simp [DetLayer.conform, DetLayer.isHeatmap, Panel.clampParams, clampR]
  norm_num

end C22

namespace C23

/-- A panel of a valid kind with positive nominal values and positive size. -/
structure Valid (p : Panel) : Prop where
  res : 0 < p.res
  eff : 0 < p.eff
  spanX : 0 < p.scaledSpan.1
  spanY : 0 < p.scaledSpan.2
  kind : Panel.KindOk p.kind

/-- A panel made by its constructor with a positive span, and any smoothness, position and mode later, is valid. -/
theorem made_valid (kind : PanelKind) (res eff : ℝ) (xyz : ℝ × ℝ × ℝ) (span : ℝ × ℝ) (c : ℝ) (r : Bool) (p : Panel)
    (h : Panel.make kind res eff xyz span c none r = .ok p) (h1 : 0 < span.1) (h2 : 0 < span.2) : Valid p := by
  unfold Panel.make at h
  split at h
  · simp at h
  · rename_i hres
    split at h
    · simp at h
    · rename_i heff
      cases hs : Panel.checkSmooth kind with
      | error e => rw [hs] at h; simp at h
      | ok u =>
        rw [hs] at h
        simp only [Panel.assignBudget, Except.ok.injEq] at h
        subst h
        refine ⟨not_le.mp hres, not_le.mp heff, by simpa [Panel.scaledSpan] using h1, by simpa [Panel.scaledSpan] using h2, ?_⟩
        cases kind with
        | gauss => trivial
        | sigmoid s =>
          simp only [Panel.checkSmooth] at hs
          split at hs
          · simp at hs
          · rename_i h; exact not_not.mp h

/-- **C23, resolution in training** (the code has a floor of `1e-10`, so nominal resolutions below that are outside "never exceeds nominal"). -/
theorem resolution_training (p : Panel) (hv : Valid p) (hm : p.training = true ∨ p.realistic = false) (hn : 1e-10 ≤ p.res) (q : ℝ × ℝ)
    (mask : Option Bool) :
    ∃ r, p.getResolution q mask = .ok r ∧ 0 < r.1 ∧ r.1 ≤ p.res ∧ 0 < r.2 ∧ r.2 ≤ p.res ∧
      (q = p.xy → r = (p.res, p.res)) ∧
      ∀ q' mask', ∃ r', p.getResolution q' mask' = .ok r' ∧ (|q.1 - p.xy.1| ≤ |q'.1 - p.xy.1| → r'.1 ≤ r.1) ∧
        (|q.2 - p.xy.2| ≤ |q'.2 - p.xy.2| → r'.2 ≤ r.2) := by
  have hc : p.continuous = true := by
    unfold Panel.continuous; rcases hm with h | h <;> simp [h]
  have hr : p.checkResponse = .ok () := by
    unfold Panel.checkResponse Panel.checkGauss
    have := hv.spanX; have := hv.spanY
    cases p.kind with
    | gauss => simp only; rw [if_pos ⟨by positivity, by positivity⟩]
    | sigmoid s => rfl
  have hg : ∀ q' mask', p.getResolution q' mask' = .ok (max (p.res * Panel.ratio p.kind p.xy.1 p.scaledSpan.1 q'.1) 1e-10,
      max (p.res * Panel.ratio p.kind p.xy.2 p.scaledSpan.2 q'.2) 1e-10) := by
    intro q' mask'
    unfold Panel.getResolution
    rw [if_pos hc, hr]
    simp only [Panel.resAt, if_pos hc]
  refine ⟨_, hg q mask, by positivity, ?_, by positivity, ?_, ?_, ?_⟩
  · exact max_le (mul_le_of_le_one_right hv.res.le (Panel.ratio_le_one _ hv.kind _ _ _ hv.spanX)) hn
  · exact max_le (mul_le_of_le_one_right hv.res.le (Panel.ratio_le_one _ hv.kind _ _ _ hv.spanY)) hn
  · rintro rfl
    rw [Panel.ratio_centre _ _ _ hv.spanX, Panel.ratio_centre _ _ _ hv.spanY]
    simp [hn]
  · intro q' mask'
    refine ⟨_, hg q' mask', fun h => ?_, fun h => ?_⟩
    · exact max_le_max_right _ (mul_le_mul_of_nonneg_left (Panel.ratio_le _ hv.kind _ _ _ _ hv.spanX h) hv.res.le)
    · exact max_le_max_right _ (mul_le_mul_of_nonneg_left (Panel.ratio_le _ hv.kind _ _ _ _ hv.spanY h) hv.res.le)

/-- **C23, efficiency in training.** -/
theorem efficiency_training (p : Panel) (hv : Valid p) (hm : p.training = true ∨ p.realistic = false) (hn : 1e-10 ≤ p.eff) (q : ℝ × ℝ)
    (mask : Option Bool) :
    ∃ e, p.getEfficiency q mask = .ok e ∧ 0 < e ∧ e ≤ p.eff ∧ (q = p.xy → e = p.eff) ∧
      ∀ q' mask', ∃ e', p.getEfficiency q' mask' = .ok e' ∧
        (|q.1 - p.xy.1| ≤ |q'.1 - p.xy.1| → |q.2 - p.xy.2| ≤ |q'.2 - p.xy.2| → e' ≤ e) ∧
        (p.kind = .gauss → |q.1 - p.xy.1| < |q'.1 - p.xy.1| → |q.2 - p.xy.2| ≤ |q'.2 - p.xy.2| → e' < e) := by
  have hc : p.continuous = true := by
    unfold Panel.continuous; rcases hm with h | h <;> simp [h]
  have hr : p.checkResponse = .ok () := by
    unfold Panel.checkResponse Panel.checkGauss
    have := hv.spanX; have := hv.spanY
    cases p.kind with
    | gauss => simp only; rw [if_pos ⟨by positivity, by positivity⟩]
    | sigmoid s => rfl
  set f : ℝ × ℝ → ℝ := fun q => p.eff * (Panel.ratio p.kind p.xy.1 p.scaledSpan.1 q.1 * Panel.ratio p.kind p.xy.2 p.scaledSpan.2 q.2) with hf
  have hpos : ∀ q, 0 < f q := fun q =>
    mul_pos hv.eff (mul_pos (Panel.ratio_pos _ _ _ _ hv.spanX) (Panel.ratio_pos _ _ _ _ hv.spanY))
  have hle : ∀ q, f q ≤ p.eff := fun q => mul_le_of_le_one_right hv.eff.le
    (mul_le_one₀ (Panel.ratio_le_one _ hv.kind _ _ _ hv.spanX) (Panel.ratio_pos _ _ _ _ hv.spanY).le (Panel.ratio_le_one _ hv.kind _ _ _ hv.spanY))
  have hcen : f p.xy = p.eff := by
    simp only [hf, Panel.ratio_centre _ _ _ hv.spanX, Panel.ratio_centre _ _ _ hv.spanY]; ring
  have hanti : ∀ q q' : ℝ × ℝ, |q.1 - p.xy.1| ≤ |q'.1 - p.xy.1| → |q.2 - p.xy.2| ≤ |q'.2 - p.xy.2| → f q' ≤ f q := by
    intro q q' h1 h2
    apply mul_le_mul_of_nonneg_left _ hv.eff.le
    exact mul_le_mul (Panel.ratio_le _ hv.kind _ _ _ _ hv.spanX h1) (Panel.ratio_le _ hv.kind _ _ _ _ hv.spanY h2)
      (Panel.ratio_pos _ _ _ _ hv.spanY).le (Panel.ratio_pos _ _ _ _ hv.spanX).le
  have hstrict : ∀ q q' : ℝ × ℝ, |q.1 - p.xy.1| < |q'.1 - p.xy.1| → |q.2 - p.xy.2| ≤ |q'.2 - p.xy.2| → f q' < f q := by
    intro q q' h1 h2
    apply mul_lt_mul_of_pos_left _ hv.eff
    exact mul_lt_mul (Panel.ratio_lt _ hv.kind _ _ _ _ hv.spanX h1) (Panel.ratio_le _ hv.kind _ _ _ _ hv.spanY h2)
      (Panel.ratio_pos _ _ _ _ hv.spanY) (Panel.ratio_pos _ _ _ _ hv.spanX).le
  cases hk : p.kind with
  | gauss =>
    have hg : ∀ q' mask', p.getEfficiency q' mask' = .ok (f q') := by
      intro q' mask'
      unfold Panel.getEfficiency
      rw [if_pos hc, hr]
      simp only [Panel.effAt, if_pos hc, hk, hf]
    refine ⟨_, hg q mask, hpos q, hle q, fun h => h ▸ hcen, fun q' mask' => ⟨_, hg q' mask', hanti q q', fun _ => hstrict q q'⟩⟩
  | sigmoid s =>
    have hg : ∀ q' mask', p.getEfficiency q' mask' = .ok (max (f q') 1e-10) := by
      intro q' mask'
      unfold Panel.getEfficiency
      rw [if_pos hc, hr]
      simp only [Panel.effAt, if_pos hc, hk, hf]
    refine ⟨_, hg q mask, lt_max_of_lt_left (hpos q), max_le (hle q) hn, ?_, fun q' mask' => ⟨_, hg q' mask', fun h1 h2 => max_le_max_right _ (hanti q q' h1 h2), by simp⟩⟩
    rintro rfl
    rw [hcen]; exact max_eq_left hn

/-- **C23, realistic validation**: nominal on the panel, zero off it (half-open rectangle), without a mask or with a mask that agrees. -/
theorem realistic_response (p : Panel) (ht : p.training = false) (hr : p.realistic = true) (q : ℝ × ℝ) (mask : Option Bool)
    (hm : mask = none ∨ mask = some (p.xyMask q)) :
    (OnPanel p q → p.getResolution q mask = .ok (p.res, p.res) ∧ p.getEfficiency q mask = .ok p.eff) ∧
    (¬ OnPanel p q → p.getResolution q mask = .ok (0, 0) ∧ p.getEfficiency q mask = .ok 0) := by
  have hc : p.continuous = false := by simp [Panel.continuous, ht, hr]
  have hmask : mask.getD (p.xyMask q) = p.xyMask q := by rcases hm with h | h <;> simp [h]
  have hon : p.xyMask q = true ↔ OnPanel p q := by
    simp only [Panel.xyMask, and_assoc, Bool.and_eq_true, decide_eq_true_eq, ge_iff_le]
    rfl
  constructor
  · intro h
    simp only [Panel.getResolution, Panel.getEfficiency, hmask]
    simp [hc, hon.mpr h, Panel.resAt, Panel.effAt]
  · intro h
    have : p.xyMask q = false := by
      cases hx : p.xyMask q with
      | true => exact absurd (hon.mp hx) h
      | false => rfl
    simp only [Panel.getResolution, Panel.getEfficiency, hmask]
    simp [hc, this, Panel.resAt, Panel.effAt]

example : ∃ p, Panel.make (.sigmoid 0.1) 1000 0.9 (0.5, 0.5, 1) (1, 2) 1 none true = .ok p ∧ Valid p ∧ 1e-10 ≤ p.res ∧ 1e-10 ≤ p.eff ∧
    p.training = true := by
  have h : Panel.make (.sigmoid 0.1) 1000 0.9 (0.5, 0.5, 1) (1, 2) 1 none true =
      .ok ⟨.sigmoid 0.1, 1000, 0.9, 1, (0.5, 0.5), 1, (1, 2), 1, true, true⟩ := by
    simp only [Panel.make, Panel.checkSmooth, Panel.assignBudget]; norm_num
  exact ⟨_, h, made_valid _ _ _ _ _ _ _ _ h (by norm_num) (by norm_num), by norm_num, by norm_num, rfl⟩

end C23

namespace C24

/-- **C24.** In realistic validation, for every batch and every noise: a muon crossing the panel gets a reconstructed hit on the panel (closed
rectangle) at the panel's height, uncertainty `1/res`, nominal efficiency; a muon missing the panel gets infinite uncertainty, zero efficiency and
a reconstructed position that is not a number (infinite or NaN). -/
theorem hits_on_panel (p : Panel) (ht : p.training = false) (hr : p.realistic = true) (hres : 0 < p.res) (noise : Nat → ℝ × ℝ) (b : Batch Row) :
    ∃ reco gen unc eff, p.getHits noise b = .ok [("reco_xyz", reco), ("gen_xyz", gen), ("unc_xyz", unc), ("eff", eff)] ∧
      ∀ (i : Nat) (m : Muon), b.muons[i]? = some m →
        gen[i]? = some [.num m.x, .num m.y, .num p.z] ∧
        (OnPanel p (m.x, m.y) → (∃ x y, reco[i]? = some [.num x, .num y, .num p.z] ∧
            p.xy.1 - p.scaledSpan.1 / 2 ≤ x ∧ x ≤ p.xy.1 + p.scaledSpan.1 / 2 ∧
            p.xy.2 - p.scaledSpan.2 / 2 ≤ y ∧ y ≤ p.xy.2 + p.scaledSpan.2 / 2) ∧
          unc[i]? = some [.num (1 / p.res), .num (1 / p.res), .num 0] ∧ eff[i]? = some [.num p.eff]) ∧
        (¬ OnPanel p (m.x, m.y) → (∃ x y, reco[i]? = some [x, y, .num p.z] ∧ x.isFinite = false ∧ y.isFinite = false) ∧
          unc[i]? = some [.pinf, .pinf, .num 0] ∧ eff[i]? = some [.num 0]) := by
  have hc : p.continuous = false := by simp [Panel.continuous, ht, hr]
  rcases p.getHits_cases noise b with ⟨_, h⟩ | ⟨hn, _⟩
  swap
  · exact absurd (by intro hx; rcases hx with hx | hx <;> simp_all) hn
  refine ⟨_, _, _, _, h, ?_⟩
  intro i m hm
  have hon : Batch.inWindow (some p.low) (some p.high) m = true ↔ OnPanel p (m.x, m.y) := by
    simp only [Batch.inWindow, and_assoc, Bool.and_eq_true, decide_eq_true_eq, ge_iff_le]
    rfl
  refine ⟨by simp [hm, Panel.hitGen], ?_, ?_⟩
  · intro ho
    have hw := hon.mpr ho
    obtain ⟨o1, o2, o3, o4⟩ := ho
    refine ⟨?_, ?_, ?_⟩
    · simp only [List.getElem?_map, hm, Option.map_some, hw]
      simp only [Panel.hitReco, Panel.resAt, hc, Panel.recoCoord, ht, hr, XF.quot, hres.ne', ne_eq, not_false_eq_true, if_true,
        Bool.false_eq_true, if_false, XF.addR, XF.clamp, Bool.not_false, Bool.and_self, Option.some.injEq, List.cons.injEq, XF.num.injEq, and_true]
      refine ⟨_, _, ⟨rfl, rfl⟩, ?_⟩
      have hs1 : 0 ≤ p.scaledSpan.1 := by linarith
      have hs2 : 0 ≤ p.scaledSpan.2 := by linarith
      have c1 := C22.clamp_mem (m.x - p.low.1 + (noise m.id).1 / p.res) 0 p.scaledSpan.1 hs1
      have c2 := C22.clamp_mem (m.y - p.low.2 + (noise m.id).2 / p.res) 0 p.scaledSpan.2 hs2
      unfold clampR at c1 c2
      simp only [Panel.low] at *
      refine ⟨by linarith, by linarith, by linarith, by linarith⟩
    · simp [hm, hw, Panel.hitUnc, Panel.resAt, hc, XF.quot, hres.ne']
    · simp [hm, hw, Panel.hitEff, Panel.effAt, hc]
  · intro ho
    have hw : Batch.inWindow (some p.low) (some p.high) m = false := by
      cases hx : Batch.inWindow (some p.low) (some p.high) m with
      | true => exact absurd (hon.mp hx) ho
      | false => rfl
    have hq : ∀ a n : ℝ, (XF.addR a (XF.addR n (XF.quot (noise m.id).1 0))).isFinite = false ∧
        (XF.addR a (XF.addR n (XF.quot (noise m.id).2 0))).isFinite = false := by
      intro a n
      constructor <;> unfold XF.quot <;> simp only [ne_eq, not_true_eq_false, if_false] <;> split_ifs <;> rfl
    refine ⟨?_, ?_, ?_⟩
    · simp only [List.getElem?_map, hm, Option.map_some, hw]
      simp only [Panel.hitReco, Panel.resAt, hc, Panel.recoCoord, Bool.and_false, Bool.false_eq_true, if_false]
      exact ⟨_, _, rfl, (hq _ _).1, (hq _ _).2⟩
    · simp [hm, hw, Panel.hitUnc, Panel.resAt, hc, XF.quot]
    · simp [hm, hw, Panel.hitEff, Panel.effAt, hc]

/-- **C24, otherwise** (training, or validation that is not realistic): for every batch and every noise each hit is displaced along each axis by the noise divided by the
panel's resolution for that axis at that point, its uncertainties are the reciprocals of the same two resolutions, and its efficiency is the panel's efficiency there. -/
theorem hits_training (p : Panel) (hv : C23.Valid p) (hm : p.training = true ∨ p.realistic = false) (noise : Nat → ℝ × ℝ) (b : Batch Row) :
    ∃ reco gen unc eff, p.getHits noise b = .ok [("reco_xyz", reco), ("gen_xyz", gen), ("unc_xyz", unc), ("eff", eff)] ∧
      ∀ (i : Nat) (m : Muon), b.muons[i]? = some m → ∃ rx ry e, p.getResolution (m.x, m.y) none = .ok (rx, ry) ∧ p.getEfficiency (m.x, m.y) none = .ok e ∧
        gen[i]? = some [.num m.x, .num m.y, .num p.z] ∧
        reco[i]? = some [.num (m.x + (noise m.id).1 / rx), .num (m.y + (noise m.id).2 / ry), .num p.z] ∧
        unc[i]? = some [.num (1 / rx), .num (1 / ry), .num 0] ∧ eff[i]? = some [.num e] := by
  have hc : p.continuous = true := by
    unfold Panel.continuous; rcases hm with h | h <;> simp [h]
  have hr : p.checkResponse = .ok () := by
    unfold Panel.checkResponse Panel.checkGauss
    have := hv.spanX; have := hv.spanY
    cases p.kind with
    | gauss => simp only; rw [if_pos ⟨by positivity, by positivity⟩]
    | sigmoid s => rfl
  have hcl : (!p.training && p.realistic) = false := by rcases hm with h | h <;> simp [h]
  unfold Panel.getHits
  rw [if_pos hc, hr]
  refine ⟨_, _, _, _, rfl, ?_⟩
  intro i m hi
  have hp1 : max (p.res * Panel.ratio p.kind p.xy.1 p.scaledSpan.1 m.x) 1e-10 ≠ 0 := (lt_max_of_lt_right (by norm_num)).ne'
  have hp2 : max (p.res * Panel.ratio p.kind p.xy.2 p.scaledSpan.2 m.y) 1e-10 ≠ 0 := (lt_max_of_lt_right (by norm_num)).ne'
  refine ⟨max (p.res * Panel.ratio p.kind p.xy.1 p.scaledSpan.1 m.x) 1e-10, max (p.res * Panel.ratio p.kind p.xy.2 p.scaledSpan.2 m.y) 1e-10, p.effAt (m.x, m.y) true,
    ?_, ?_, ?_, ?_, ?_, ?_⟩
  · simp only [Panel.getResolution, if_pos hc, hr, Panel.resAt]
  · simp only [Panel.getEfficiency, if_pos hc, hr]
  · simp [hi, Panel.hitGen]
  · simp only [List.getElem?_map, hi, Option.map_some, Panel.hitReco, Panel.resAt, if_pos hc, Panel.recoCoord, hcl, Bool.false_and, Bool.false_eq_true, if_false, XF.quot,
      ne_eq, hp1, hp2, not_false_eq_true, if_true, XF.addR, Option.some.injEq, List.cons.injEq, XF.num.injEq, and_true]
    constructor <;> ring
  · simp [hi, Panel.hitUnc, Panel.resAt, hc, XF.quot, hp1, hp2]
  · simp [hi, Panel.hitEff, Panel.effAt, hc]

example : C23.Valid ⟨.gauss, 10, 1, 1, (0.5, 0.5), 0, (1, 1), 1, true, true⟩ := by
  refine ⟨?_, ?_, ?_, ?_, ?_⟩ <;> norm_num [Panel.scaledSpan, Panel.KindOk]

example : ∃ reco gen unc eff, (⟨.gauss, 10, 1, 1, (0.5, 0.5), 0, (1, 1), 1, true, false⟩ : Panel).getHits (fun _ => (50, -50))
    ⟨[⟨0, 0.5, 0.5, 0, 1, 0, 0⟩, ⟨1, 3, 3, 0, 1, 0, 0⟩], [], [], []⟩ =
      .ok [("reco_xyz", reco), ("gen_xyz", gen), ("unc_xyz", unc), ("eff", eff)] ∧
    reco[0]? = some [.num 1, .num 0, .num 0] ∧ unc[1]? = some [.pinf, .pinf, .num 0] := by
  refine ⟨_, _, _, _, rfl, ?_, ?_⟩
  · simp [Panel.hitReco, Batch.inWindow, Panel.low, Panel.high, Panel.scaledSpan, Panel.recoCoord, Panel.resAt, Panel.continuous, XF.quot, XF.addR, XF.clamp]
    norm_num
  · simp [Panel.hitUnc, Batch.inWindow, Panel.low, Panel.high, Panel.scaledSpan, Panel.resAt, Panel.continuous, XF.quot]
    norm_num

end C24

namespace C25

/-- **C25.** For every smoothness `s > 0`, centre, span and position: the sigmoid response along one axis is 1 at the centre, in (0, 1], symmetric
and strictly decreasing with the distance from the centre. -/
theorem sigmoid_response (s mu span : ℝ) (hs : 0 < s) (hspan : 0 < span) :
    Panel.sigRatio s mu span mu = 1 ∧ (∀ x, 0 < Panel.sigRatio s mu span x ∧ Panel.sigRatio s mu span x ≤ 1) ∧
    (∀ d, Panel.sigRatio s mu span (mu + d) = Panel.sigRatio s mu span (mu - d)) ∧
    (∀ x x', |x - mu| < |x' - mu| → Panel.sigRatio s mu span x' < Panel.sigRatio s mu span x) := by
  have hk : Panel.KindOk (.sigmoid s) := hs
  refine ⟨Panel.ratio_centre (.sigmoid s) mu span hspan, fun x => ⟨Panel.ratio_pos (.sigmoid s) mu span x hspan,
    Panel.ratio_le_one (.sigmoid s) hk mu span x hspan⟩, ?_, fun x x' h => Panel.ratio_lt (.sigmoid s) hk mu span x x' hspan h⟩
  intro d
  rw [Panel.sigRatio_eq _ _ _ _ hspan, Panel.sigRatio_eq _ _ _ _ hspan]
  simp

/-- At the physical edge the response is `1/2` divided by `sigmoid(1/s)`: always more than the one half announced by the class documentation. -/
theorem edge_value (s mu span : ℝ) (hspan : 0 < span) :
    Panel.sigRatio s mu span (mu + span / 2) = (1 / 2) / Panel.sigm (1 / s) ∧ 1 / 2 < Panel.sigRatio s mu span (mu + span / 2) := by
  have h : Panel.sigRatio s mu span (mu + span / 2) = (1 / 2) / Panel.sigm (1 / s) := by
    rw [Panel.sigRatio_eq _ _ _ _ hspan]
    have : |mu + span / 2 - mu| / (span / 2) = 1 := by
      rw [show mu + span / 2 - mu = span / 2 by ring, abs_of_pos (by positivity)]
      field_simp
    rw [this]
    congr 1
    simp [Panel.sigm]; norm_num
  refine ⟨h, ?_⟩
  rw [h, lt_div_iff₀ (Panel.sigm_pos _)]
  have : Panel.sigm (1 / s) < 1 := by
    unfold Panel.sigm
    rw [div_lt_one (by positivity)]
    have := exp_pos (-(1 / s))
    linarith
  linarith

/-- A non-positive smoothness is rejected both at construction and later; a positive one is accepted. -/
theorem smoothness_checked (p : Panel) (s : ℝ) :
    (p.setSmooth s = .error .valueError ↔ s ≤ 0) ∧ (0 < s → p.setSmooth s = .ok { p with kind := .sigmoid s }) ∧
    ∀ res eff xyz span c bud r, 0 < res → 0 < eff →
      (Panel.make (.sigmoid s) res eff xyz span c bud r = .error .valueError ↔ s ≤ 0) := by
  refine ⟨?_, ?_, ?_⟩
  · unfold Panel.setSmooth; split <;> simp_all
  · intro h; simp [Panel.setSmooth, h]
  · intro res eff xyz span c bud r h1 h2
    unfold Panel.make Panel.checkSmooth
    rw [if_neg (not_le.mpr h1), if_neg (not_le.mpr h2)]
    by_cases h : s ≤ 0
    · simp [h]
    · have : 0 < s := not_le.mp h
      simp [this]

example : ∃ s mu span : ℝ, 0 < s ∧ 0 < span ∧ 1 / 2 < Panel.sigRatio s mu span (mu + span / 2) :=
  ⟨1, 0.5, 1, by norm_num, by norm_num, (edge_value 1 0.5 1 (by norm_num)).2⟩

end C25

namespace C64

/-- All passive layers agree in footprint and voxel size. -/
def Agree (Ls : List PassiveLayer) : Prop := ∀ L ∈ Ls, ∀ L' ∈ Ls, L.lw = L'.lw ∧ L.size = L'.size

theorem check_some (w : ℝ × ℝ) (s : ℝ) : ∀ Ls : List PassiveLayer,
    ((∀ L ∈ Ls, L.lw = w ∧ L.size = s) ∧ Volume.checkPassives (some w) (some s) Ls = .ok ()) ∨
    ((¬ ∀ L ∈ Ls, L.lw = w ∧ L.size = s) ∧ Volume.checkPassives (some w) (some s) Ls = .error .valueError)
  | [] => by left; exact ⟨by simp, by simp [Volume.checkPassives]⟩
  | L :: Ls => by
    unfold Volume.checkPassives Volume.checkPassives.checkSize
    simp only
    by_cases h1 : w.1 ≠ L.lw.1 ∨ w.2 ≠ L.lw.2
    · right
      rw [if_pos h1]
      refine ⟨fun h => ?_, rfl⟩
      have := (h L (by simp)).1
      rw [this] at h1; simp at h1
    · rw [if_neg h1]
      push Not at h1
      have hw : L.lw = w := Prod.ext h1.1.symm h1.2.symm
      by_cases h2 : s ≠ L.size
      · right
        rw [if_pos h2]
        exact ⟨fun h => h2 (h L (by simp)).2.symm, rfl⟩
      · rw [if_neg h2]
        push Not at h2
        rcases check_some w s Ls with ⟨h, e⟩ | ⟨h, e⟩
        · left; exact ⟨by intro K hK; simp only [List.mem_cons] at hK; rcases hK with rfl | hK; exacts [⟨hw, h2.symm⟩, h K hK], e⟩
        · right; exact ⟨fun hh => h (fun K hK => hh K (by simp [hK])), e⟩

theorem check_none (Ls : List PassiveLayer) :
    (Agree Ls ∧ Volume.checkPassives none none Ls = .ok ()) ∨ (¬ Agree Ls ∧ Volume.checkPassives none none Ls = .error .valueError) := by
  cases Ls with
  | nil => left; exact ⟨by intro L hL; simp at hL, by simp [Volume.checkPassives]⟩
  | cons L Ls =>
    have e : Volume.checkPassives none none (L :: Ls) = Volume.checkPassives (some L.lw) (some L.size) Ls := by
      simp [Volume.checkPassives, Volume.checkPassives.checkSize]
    rw [e]
    rcases check_some L.lw L.size Ls with ⟨h, e⟩ | ⟨h, e⟩
    · left
      refine ⟨?_, e⟩
      have hall : ∀ K ∈ L :: Ls, K.lw = L.lw ∧ K.size = L.size := by
        intro K hK
        simp only [List.mem_cons] at hK
        rcases hK with rfl | hK
        exacts [⟨rfl, rfl⟩, h K hK]
      intro K hK K' hK'
      exact ⟨(hall K hK).1.trans (hall K' hK').1.symm, (hall K hK).2.trans (hall K' hK').2.symm⟩
    · right
      exact ⟨fun ha => h fun K hK => ha K (by simp [hK]) L (by simp), e⟩

/-- **C64.** Construction without a budget raises exactly when two passive layers differ in footprint or voxel size or two devices differ; otherwise the
volume holds the layers in the given order. (Without any layer it is an IndexError.) -/
theorem construction (argsort : List ℝ → List Nat) (layers : List AnyLayer) (devices : List String) (hd : devices ≠ []) :
    let Ls := layers.filterMap fun l => match l with | .passive L => some L | .detector _ => none
    let consistent := Agree Ls ∧ ∀ d ∈ devices, ∀ d' ∈ devices, d = d'
    (consistent → ∃ V, Volume.make argsort layers devices none = .ok V ∧ V.layers = layers ∧ V.budget = none) ∧
    (¬ consistent → Volume.make argsort layers devices none = .error .valueError) ∧
    (¬ consistent → ∀ b, Volume.make argsort layers devices (some b) = .error .valueError) := by
  intro Ls consistent
  have hp : ∀ bud, Volume.passives ⟨layers, bud, [], []⟩ = Ls := by
    intro bud
    simp only [Volume.passives, Ls]
    congr 1; funext l; cases l <;> rfl
  have hdev : ((∀ d ∈ devices, ∀ d' ∈ devices, d = d') ∧ ∃ d, Volume.getDevice devices = .ok d) ∨
      ((¬ ∀ d ∈ devices, ∀ d' ∈ devices, d = d') ∧ Volume.getDevice devices = .error .valueError) := by
    cases devices with
    | nil => exact absurd rfl hd
    | cons d ds =>
      by_cases h : ds.all (fun e => e == d) = true
      · left
        refine ⟨?_, d, by simp only [Volume.getDevice, h, if_true]⟩
        have hall : ∀ e ∈ d :: ds, e = d := by simpa using h
        intro e he e' he'
        rw [hall e he, hall e' he']
      · right
        refine ⟨fun hh => h ?_, by simp only [Volume.getDevice, h]; simp⟩
        simp only [List.all_eq_true, beq_iff_eq]
        exact fun e he => hh e (by simp [he]) d (by simp)
  rcases hdev with ⟨h1, d, e1⟩ | ⟨h1, e1⟩
  · rcases check_none Ls with ⟨h2, e2⟩ | ⟨h2, e2⟩
    · refine ⟨fun _ => ⟨⟨layers, none, [], []⟩, by unfold Volume.make; rw [e1]; simp only [hp, e2], rfl, rfl⟩, fun h => absurd ⟨h2, h1⟩ h, fun h => absurd ⟨h2, h1⟩ h⟩
    · refine ⟨fun h => absurd h.1 h2, fun _ => ?_, fun _ b => ?_⟩ <;> (unfold Volume.make; rw [e1]; simp only [hp, e2])
  · refine ⟨fun h => absurd h.2 h1, fun _ => ?_, fun _ b => ?_⟩ <;> (unfold Volume.make; rw [e1])

example : Agree [⟨(1, 1), 2, 1, 0.1, "pdg", none⟩, ⟨(1, 1), 1, 1, 0.1, "pdg", none⟩] ∧
    ¬ Agree [⟨(1, 1), 2, 1, 0.1, "pdg", none⟩, ⟨(1, 1), 1, 0.5, 0.1, "pdg", none⟩] := by
  constructor
  · simp [Agree]
  · simp [Agree]; norm_num

end C64

end

end Tomopt
