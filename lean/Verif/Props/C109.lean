import Verif.Props.C22_25
import Verif.Props.C106
import Verif.Lemmas.Budget

/- C109: larger panels and larger budgets never make a detector see worse. -/
namespace Tomopt

noncomputable section
open Real Scatter MeasureTheory ProbabilityTheory

namespace C109

/-- Wherever a muon crosses, the second panel answers and its resolution in x and in y and its efficiency are no lower than those of the first. -/
def NoWorse (p p' : Panel) : Prop :=
  ∀ q : ℝ × ℝ, ∃ (r r' : ℝ × ℝ) (e e' : ℝ), p.getResolution q none = .ok r ∧ p'.getResolution q none = .ok r' ∧ p.getEfficiency q none = .ok e ∧ p'.getEfficiency q none = .ok e' ∧
    r.1 ≤ r'.1 ∧ r.2 ≤ r'.2 ∧ e ≤ e'

/-- the response along one axis does not fall when the panel grows -/
theorem ratio_mono (k : PanelKind) (hk : Panel.KindOk k) (mu s s' x : ℝ) (hs : 0 < s) (h : s ≤ s') : Panel.ratio k mu s x ≤ Panel.ratio k mu s' x := by
  have hs' : 0 < s' := lt_of_lt_of_le hs h
  cases k with
  | gauss =>
    simp only [Panel.ratio, Panel.gaussRatio_eq]
    apply exp_le_exp.mpr
    rw [neg_div, neg_div, neg_le_neg_iff]
    apply div_le_div_of_nonneg_left (sq_nonneg _) (by positivity)
    have : (s / 4) ^ 2 ≤ (s' / 4) ^ 2 := by gcongr
    linarith
  | sigmoid c =>
    have hc : 0 < c := hk
    simp only [Panel.ratio, Panel.sigRatio_eq _ _ _ _ hs, Panel.sigRatio_eq _ _ _ _ hs']
    rw [div_le_div_iff_of_pos_right (Panel.sigm_pos _)]
    apply Panel.sigm_le
    rw [div_le_div_iff_of_pos_right hc]
    have : |x - mu| / (s' / 2) ≤ |x - mu| / (s / 2) := div_le_div_of_nonneg_left (abs_nonneg _) (by positivity) (by linarith)
    linarith

/-- a panel that is at least as long and as wide as another, and otherwise the same -/
structure Larger (p p' : Panel) : Prop where
  same : p' = { p with span := p'.span, budgetScale := p'.budgetScale }
  long : p.scaledSpan.1 ≤ p'.scaledSpan.1
  wide : p.scaledSpan.2 ≤ p'.scaledSpan.2

theorem at_mono (p p' : Panel) (hv : C23.Valid p) (hl : Larger p p') (q : ℝ × ℝ) (i i' : Bool) (hi : i = true → i' = true) :
    p'.continuous = p.continuous ∧ (p.resAt q i).1 ≤ (p'.resAt q i').1 ∧ (p.resAt q i).2 ≤ (p'.resAt q i').2 ∧ p.effAt q i ≤ p'.effAt q i' := by
  obtain ⟨r0, e0, x0, y0, kd⟩ := hv
  obtain ⟨hsame, h1, h2⟩ := hl
  have ek : p'.kind = p.kind := by rw [hsame]
  have er : p'.res = p.res := by rw [hsame]
  have ee : p'.eff = p.eff := by rw [hsame]
  have exy : p'.xy = p.xy := by rw [hsame]
  have ec : p'.continuous = p.continuous := by rw [hsame]; rfl
  refine ⟨ec, ?_⟩
  cases hc : p.continuous with
  | true =>
    have hx := ratio_mono p.kind kd p.xy.1 _ _ q.1 x0 h1
    have hy := ratio_mono p.kind kd p.xy.2 _ _ q.2 y0 h2
    have px := Panel.ratio_pos p.kind p.xy.1 _ q.1 x0
    have py := Panel.ratio_pos p.kind p.xy.2 _ q.2 y0
    refine ⟨?_, ?_, ?_⟩
    · simp only [Panel.resAt, ec, hc, if_true, ek, er, exy]
      exact max_le_max_right _ (mul_le_mul_of_nonneg_left hx r0.le)
    · simp only [Panel.resAt, ec, hc, if_true, ek, er, exy]
      exact max_le_max_right _ (mul_le_mul_of_nonneg_left hy r0.le)
    · have : p.eff * (Panel.ratio p.kind p.xy.1 p.scaledSpan.1 q.1 * Panel.ratio p.kind p.xy.2 p.scaledSpan.2 q.2) ≤
          p.eff * (Panel.ratio p.kind p.xy.1 p'.scaledSpan.1 q.1 * Panel.ratio p.kind p.xy.2 p'.scaledSpan.2 q.2) :=
        mul_le_mul_of_nonneg_left (mul_le_mul hx hy py.le (px.le.trans hx)) e0.le
      simp only [Panel.effAt, ec, hc, if_true, ek, ee, exy]
      cases hk : p.kind with
      | gauss => rw [hk] at this; exact this
      | sigmoid s => rw [hk] at this; exact max_le_max_right _ this
  | false =>
    simp only [Panel.resAt, Panel.effAt, ec, hc, Bool.false_eq_true, if_false, er, ee]
    cases i with
    | true => rw [hi rfl]; simp
    | false => cases i' <;> simp [r0.le, e0.le]

theorem check_ok (P : Panel) (a : 0 < P.scaledSpan.1) (b : 0 < P.scaledSpan.2) : P.checkResponse = .ok () := by
  unfold Panel.checkResponse Panel.checkGauss
  split
  · rw [if_pos ⟨by positivity, by positivity⟩]
  · rfl

/-- **C109: panels.** A panel that differs from a valid one only in being at least as long and as wide sees no worse at any point, Gaussian or sigmoid, in training and in realistic validation. -/
theorem larger_panel (p p' : Panel) (hv : C23.Valid p) (hl : Larger p p') : NoWorse p p' := by
  intro q
  unfold Panel.getResolution Panel.getEfficiency
  rw [(at_mono p p' hv hl q true true id).1, check_ok p hv.spanX hv.spanY, check_ok p' (lt_of_lt_of_le hv.spanX hl.long) (lt_of_lt_of_le hv.spanY hl.wide)]
  cases hc : p.continuous with
  | true => exact ⟨_, _, _, _, rfl, rfl, rfl, rfl, (at_mono p p' hv hl q true true id).2⟩
  | false =>
    have exy : p'.xy = p.xy := by rw [hl.same]
    have h1 := hl.long
    have h2 := hl.wide
    have hin : p.xyMask q = true → p'.xyMask q = true := by
      unfold Panel.xyMask Panel.low Panel.high
      rw [exy]
      simp only [Bool.and_eq_true, decide_eq_true_eq, ge_iff_le]
      rintro ⟨⟨⟨a, b⟩, c⟩, d⟩
      exact ⟨⟨⟨by linarith, by linarith⟩, by linarith⟩, by linarith⟩
    exact ⟨_, _, _, _, rfl, rfl, rfl, rfl, (at_mono p p' hv hl q _ _ hin).2⟩

/-- no larger, where infinite is the largest -/
def Below : XF → XF → Prop
  | .num _, .pinf => True
  | .pinf, .pinf => True
  | .num a, .num b => a ≤ b
  | _, _ => False

theorem quot_below (r r' : ℝ) (h0 : 0 ≤ r) (h : r ≤ r') : Below (XF.quot 1 r') (XF.quot 1 r) := by
  unfold XF.quot
  by_cases hr : r = 0
  · subst hr
    by_cases hr' : r' = 0 <;> simp [hr', Below]
  · have hp : 0 < r := lt_of_le_of_ne h0 (Ne.symm hr)
    simp only [hr, (lt_of_lt_of_le hp h).ne', ne_eq, not_false_eq_true, if_true, Below]
    exact one_div_le_one_div_of_le hp h

/-- **C109: hits.** For the same muons, the larger panel records hits of no larger uncertainty and of no lower efficiency, muon by muon, at the same height and of the same true positions. -/
theorem larger_hits (p p' : Panel) (hv : C23.Valid p) (hl : Larger p p') (noise : Nat → ℝ × ℝ) (b : Batch Row) :
    ∃ reco gen unc eff reco' unc' eff', p.getHits noise b = .ok [("reco_xyz", reco), ("gen_xyz", gen), ("unc_xyz", unc), ("eff", eff)] ∧
      p'.getHits noise b = .ok [("reco_xyz", reco'), ("gen_xyz", gen), ("unc_xyz", unc'), ("eff", eff')] ∧ gen = (b.muons.map fun m => [.num m.x, .num m.y, .num p.z]) ∧
      ∀ (i : Nat) (m : Muon), b.muons[i]? = some m → ∃ u v u' v' e e', unc[i]? = some [u, v, .num 0] ∧ unc'[i]? = some [u', v', .num 0] ∧
        eff[i]? = some [.num e] ∧ eff'[i]? = some [.num e'] ∧ Below u' u ∧ Below v' v ∧ e ≤ e' := by
  have hc := (at_mono p p' hv hl (0, 0) true true id).1
  have hz : p'.z = p.z := by rw [hl.same]
  have hnn : ∀ q i, 0 ≤ (p.resAt q i).1 ∧ 0 ≤ (p.resAt q i).2 := by
    intro q i
    unfold Panel.resAt
    split
    · exact ⟨le_max_of_le_right (by norm_num), le_max_of_le_right (by norm_num)⟩
    · split <;> simp [hv.res.le]
  unfold Panel.getHits
  rw [hc, check_ok p hv.spanX hv.spanY, check_ok p' (lt_of_lt_of_le hv.spanX hl.long) (lt_of_lt_of_le hv.spanY hl.wide)]
  have hok : (if p.continuous = true then (.ok () : Except Err Unit) else .ok ()) = .ok () := by split <;> rfl
  rw [hok]
  simp only [Panel.hitGen, hz]
  refine ⟨_, _, _, _, _, _, _, rfl, rfl, rfl, fun i m hm => ?_⟩
  · simp only [List.getElem?_map, hm, Option.map_some, Panel.hitUnc, Panel.hitEff]
    have exy : p'.xy = p.xy := by rw [hl.same]
    have h1 := hl.long
    have h2 := hl.wide
    have hin : Batch.inWindow (some p.low) (some p.high) m = true → Batch.inWindow (some p'.low) (some p'.high) m = true := by
      unfold Batch.inWindow Panel.low Panel.high
      rw [exy]
      simp only [Bool.and_eq_true, decide_eq_true_eq, ge_iff_le]
      rintro ⟨⟨⟨a, b⟩, c⟩, d⟩
      exact ⟨⟨⟨by linarith, by linarith⟩, by linarith⟩, by linarith⟩
    obtain ⟨-, m1, m2, m3⟩ := at_mono p p' hv hl (m.x, m.y) _ _ hin
    exact ⟨_, _, _, _, _, _, rfl, rfl, rfl, rfl, quot_below _ _ (hnn _ _).1 m1, quot_below _ _ (hnn _ _).2 m2, m3⟩

/-- a panel given a share of a budget, and a larger share -/
theorem larger_share (p : Panel) (hr : 0 < p.res) (he : 0 < p.eff) (hk : Panel.KindOk p.kind) (hc : 0 < p.m2cost) (h1 : 0 < p.span.1) (h2 : 0 < p.span.2)
    (b b' : ℝ) (hb : 0 < b) (hbb : b ≤ b') :
    (p.assignBudget (some b)).budgetScale ≤ (p.assignBudget (some b')).budgetScale ∧ NoWorse (p.assignBudget (some b)) (p.assignBudget (some b')) := by
  have hs : sqrt (b / (p.m2cost * (p.span.1 * p.span.2))) ≤ sqrt (b' / (p.m2cost * (p.span.1 * p.span.2))) :=
    sqrt_le_sqrt (div_le_div_of_nonneg_right hbb (by positivity))
  have hp : 0 < sqrt (b / (p.m2cost * (p.span.1 * p.span.2))) := sqrt_pos.mpr (by positivity)
  refine ⟨hs, larger_panel _ _ ⟨hr, he, mul_pos h1 hp, mul_pos h2 hp, hk⟩ ⟨rfl, ?_, ?_⟩⟩
  · exact mul_le_mul_of_nonneg_left hs h1.le
  · exact mul_le_mul_of_nonneg_left hs h2.le

/-- **C109: budgets of panels.** -/
theorem larger_panel_budget (p : Panel) (hr : 0 < p.res) (he : 0 < p.eff) (hk : Panel.KindOk p.kind) (hc : 0 < p.m2cost) (h1 : 0 < p.span.1) (h2 : 0 < p.span.2)
    (b b' : ℝ) (hb : 0 < b) (hbb : b ≤ b') : NoWorse (p.assignBudget (some b)) (p.assignBudget (some b')) :=
  (larger_share p hr he hk hc h1 h2 b b' hb hbb).2

/-- a panel that can be bought and works -/
structure Good (p : Panel) : Prop where
  res : 0 < p.res
  eff : 0 < p.eff
  kind : Panel.KindOk p.kind
  cost : 0 < p.m2cost
  spanX : 0 < p.span.1
  spanY : 0 < p.span.2

/-- The same layer; detectors have their panels at the same places, and each sees no worse. -/
def LayerNoWorse : AnyLayer → AnyLayer → Prop
  | .passive L, .passive L' => L' = L
  | .detector D, .detector D' => D' = { D with panels := D'.panels } ∧ List.Forall₂ (fun a a' => ∃ p p', a = .panel p ∧ a' = .panel p' ∧
      p' = { p with budgetScale := p'.budgetScale } ∧ NoWorse p p') D.panels D'.panels
  | _, _ => False

theorem layer_grow {argsort : List ℝ → List Nat} (ha : IsArgsort argsort) (D : DetLayer) (s s' : List ℝ) (hp : ∀ a ∈ D.panels, ∃ p, a = .panel p ∧ Good p)
    (hs : List.Forall₂ (fun v v' => 0 < v ∧ v ≤ v') s s') (hl : s.length = D.panels.length) :
    ∃ E E', D.assignBudget argsort (some s) = .ok E ∧ D.assignBudget argsort (some s') = .ok E' ∧ LayerNoWorse (.detector E) (.detector E') := by
  have hl' : s'.length = D.panels.length := hs.length_eq ▸ hl
  have hpr : ∀ a ∈ D.panels, a.Priced := by
    intro a h
    obtain ⟨p, rfl, g⟩ := hp a h
    exact mul_pos g.cost (mul_pos g.spanX g.spanY)
  have hperm := zorder_perm ha D
  have hlen : (D.zorder argsort).length = D.panels.length := by simpa using hperm.length_eq
  have hn : (D.zorder argsort).Nodup := hperm.nodup_iff.mpr List.nodup_range
  have hlt : ∀ j ∈ D.zorder argsort, j < D.panels.length := fun j hj => List.mem_range.mp (hperm.mem_iff.mp hj)
  obtain ⟨ps, h1, h2, _, h4⟩ := assignLoop_ok s (D.zorder argsort) 0 D.panels hn hlt hpr (by omega)
  obtain ⟨ps', h1', h2', _, h4'⟩ := assignLoop_ok s' (D.zorder argsort) 0 D.panels hn hlt hpr (by omega)
  refine ⟨{ D with panels := ps }, { D with panels := ps' }, by simp [DetLayer.assignBudget, h1], by simp [DetLayer.assignBudget, h1'], rfl, ?_⟩
  simp only
  rw [List.forall₂_iff_get]
  refine ⟨by omega, ?_⟩
  intro j hj hj'
  have hmem : j ∈ D.zorder argsort := hperm.mem_iff.mpr (List.mem_range.mpr (by omega))
  obtain ⟨k, hk⟩ := List.mem_iff_getElem?.mp hmem
  obtain ⟨p, v, e1, e2, e3⟩ := h4 k j hk
  obtain ⟨p', v', e1', e2', e3'⟩ := h4' k j hk
  rw [e1] at e1'
  simp only [Option.some.injEq, AnyPanel.panel.injEq] at e1'
  subst e1'
  obtain ⟨p2, e, g⟩ := hp _ (List.mem_of_getElem? e1)
  simp only [AnyPanel.panel.injEq] at e
  subst e
  rw [Nat.zero_add] at e2 e2'
  obtain ⟨k1, v1⟩ := List.getElem?_eq_some_iff.mp e2
  obtain ⟨k2, v2⟩ := List.getElem?_eq_some_iff.mp e2'
  have hvv := (List.forall₂_iff_get.mp hs).2 k k1 k2
  simp only [List.get_eq_getElem, v1, v2] at hvv
  have a1 : ps[j] = .panel (p.assignBudget (some v)) := by rw [List.getElem?_eq_getElem hj] at e3; simpa using e3
  have a2 : ps'[j] = .panel (p.assignBudget (some v')) := by rw [List.getElem?_eq_getElem hj'] at e3'; simpa using e3'
  exact ⟨_, _, a1, a2, rfl, (larger_share p g.res g.eff g.kind g.cost g.spanX g.spanY v v' hvv.1 hvv.2).2⟩

theorem loop_grow {argsort : List ℝ → List Nat} (ha : IsArgsort argsort) (s s' : List ℝ) (hs : List.Forall₂ (fun v v' => 0 < v ∧ v ≤ v') s s') (nCosts : List Nat) :
    ∀ (ls : List AnyLayer) (bi li : Nat), nCosts.drop li = (detsOf ls).map (fun D => D.panels.length) →
    (s.drop bi).length = ((detsOf ls).flatMap (·.panels)).length → (∀ D ∈ detsOf ls, ∀ a ∈ D.panels, ∃ p, a = .panel p ∧ Good p) →
    ∃ out out', Volume.assignLoop argsort s nCosts bi li ls = .ok out ∧ Volume.assignLoop argsort s' nCosts bi li ls = .ok out' ∧ List.Forall₂ LayerNoWorse out out'
  | [], bi, li, _, _, _ => ⟨[], [], rfl, rfl, .nil⟩
  | .passive L :: ls, bi, li, hn, hl, hp => by
    obtain ⟨o, o', h1, h2, h3⟩ := loop_grow ha s s' hs nCosts ls bi li (by simpa [detsOf] using hn) (by simpa [detsOf] using hl) (by simpa [detsOf] using hp)
    exact ⟨.passive L :: o, .passive L :: o', by simp [Volume.assignLoop, h1], by simp [Volume.assignLoop, h2], .cons rfl h3⟩
  | .detector D :: ls, bi, li, hn, hl, hp => by
    have hdet : detsOf (.detector D :: ls) = D :: detsOf ls := rfl
    rw [hdet] at hn hl hp
    simp only [List.map_cons, List.flatMap_cons, List.length_append, List.length_drop] at hn hl
    have hli : nCosts[li]? = some D.panels.length := by
      have := congrArg (fun l => l[0]?) hn
      simpa using this
    have hn' : nCosts.drop (li + 1) = (detsOf ls).map (fun D => D.panels.length) := by
      have := congrArg List.tail hn
      simpa using this
    obtain ⟨E, E', e1, e2, e3⟩ := layer_grow ha D ((s.drop bi).take D.panels.length) ((s'.drop bi).take D.panels.length) (hp D (by simp))
      (List.forall₂_take _ (List.forall₂_drop _ hs)) (by simp; omega)
    obtain ⟨o, o', h1, h2, h3⟩ := loop_grow ha s s' hs nCosts ls (bi + D.panels.length) (li + 1) hn'
      (by simp only [List.length_drop]; omega) (fun F hF => hp F (by simp [hF]))
    exact ⟨.detector E :: o, .detector E' :: o', by simp [Volume.assignLoop, hli, e1, h1], by simp [Volume.assignLoop, hli, e2, h2], .cons e3 h3⟩

/-- **C109: budgets of volumes.** Two volumes that differ only in that the second has the larger budget: once the budget is shared out, every panel of the second is where its counterpart is and
sees no worse, at any point. -/
theorem larger_budget (argsort : List ℝ → List Nat) (ha : IsArgsort argsort) (V : Volume) (b b' : ℝ) (hb : 0 < b) (hbb : b ≤ b') (hB : V.Budgeted b)
    (hp : ∀ a ∈ V.panels, ∃ p, a = .panel p ∧ Good p) :
    ∃ W W', V.assignBudget argsort = .ok W ∧ ({ V with budget := some b' } : Volume).assignBudget argsort = .ok W' ∧ List.Forall₂ LayerNoWorse W.layers W'.layers := by
  obtain ⟨e1, e2, e3⟩ := hB
  have hpos : ∀ w ∈ softmax V.weights, 0 < w := by
    intro x hx
    simp only [softmax, List.mem_map] at hx
    obtain ⟨y, hy, rfl⟩ := hx
    refine div_pos (exp_pos _) (List.sum_pos _ (fun c hc => ?_) fun h => ?_)
    · obtain ⟨d, _, rfl⟩ := List.mem_map.mp hc
      exact exp_pos _
    · rw [List.map_eq_nil_iff.mp h] at hy
      simp at hy
  have hs : List.Forall₂ (fun v v' => 0 < v ∧ v ≤ v') ((softmax V.weights).map (b * ·)) ((softmax V.weights).map (b' * ·)) := by
    rw [List.forall₂_map_left_iff, List.forall₂_map_right_iff, List.forall₂_same]
    exact fun w hw => ⟨mul_pos hb (hpos w hw), mul_le_mul_of_nonneg_right hbb (hpos w hw).le⟩
  obtain ⟨o, o', h1, h2, h3⟩ := loop_grow ha _ _ hs V.nCosts V.layers 0 0 (by rw [List.drop_zero, e2]; rfl)
    (by rw [List.drop_zero, List.length_map]; simp only [softmax, List.length_map]; rw [e3]; rfl)
    (fun D hD a h => hp a (List.mem_flatMap.mpr ⟨D, hD, h⟩))
  refine ⟨{ V with layers := o }, { V with budget := some b', layers := o' }, ?_, ?_, h3⟩
  · unfold Volume.assignBudget
    simp only [e1, h1]
  · unfold Volume.assignBudget
    simp only [h2]

variable {n : Nat} {Ω : Type} [MeasurableSpace Ω]

/-- **C109: tracks.** Hits at the same heights whose standard deviations are the uncertainties the fit is told, up to a common factor for all hits (equal efficiencies): if the hits of the second set
are each at least as precise, so is the track fitted to them, in x and in y at any height. -/
theorem tracks_partial (P : Measure Ω) (lw : ℝ × ℝ) (h2 : 2 ≤ n) (z u v u' v' : Fin n → ℝ) (hu : ∀ k, 0 < u k) (hv : ∀ k, 0 < v k) (hu' : ∀ k, 0 < u' k) (hv' : ∀ k, 0 < v' k)
    (hz : z ⟨0, by omega⟩ ≠ z ⟨1, by omega⟩) (X Y X' Y' : Fin n → Ω → ℝ) (t t' : Ω → Track)
    (ht : ∀ ω, trajectory lw (C26.rows (C106.measured (X · ω) (Y · ω) z u v)) = .ok (some (t ω)))
    (ht' : ∀ ω, trajectory lw (C26.rows (C106.measured (X' · ω) (Y' · ω) z u' v')) = .ok (some (t' ω)))
    (s s' : ℝ) (hs' : 0 ≤ s') (h : ℝ)
    (m2 : ∀ k, MemLp (X k) 2 P ∧ MemLp (Y k) 2 P ∧ MemLp (X' k) 2 P ∧ MemLp (Y' k) 2 P)
    (hi : Pairwise fun k l => IndepFun (X k) (X l) P ∧ IndepFun (Y k) (Y l) P ∧ IndepFun (X' k) (X' l) P ∧ IndepFun (Y' k) (Y' l) P)
    (hsd : ∀ k, variance (X k) P = (s * u k) ^ 2 ∧ variance (Y k) P = (s * v k) ^ 2 ∧ variance (X' k) P = (s' * u' k) ^ 2 ∧ variance (Y' k) P = (s' * v' k) ^ 2)
    (hle : ∀ k, s' * u' k ≤ s * u k ∧ s' * v' k ≤ s * v k) :
    variance (fun ω => ((t' ω).atZ h).1) P ≤ variance (fun ω => ((t ω).atZ h).1) P ∧ variance (fun ω => ((t' ω).atZ h).2) P ≤ variance (fun ω => ((t ω).atZ h).2) P := by
  have get : ∀ (x y : Fin n → Ω → ℝ) (u v : Fin n → ℝ) (t : Ω → Track), (∀ k, 0 < u k) → (∀ k, 0 < v k) →
      (∀ ω, trajectory lw (C26.rows (C106.measured (x · ω) (y · ω) z u v)) = .ok (some (t ω))) →
      ∀ ω, (t ω).atZ h = (∑ k, C106.share z u h k * x k ω, ∑ k, C106.share z v h k * y k ω) := by
    intro x y u v t hu hv ht ω
    obtain ⟨t1, e1, -, e2⟩ := C106.track_share lw h2 (x · ω) (y · ω) z u v hu hv hz
    rw [ht ω] at e1
    simp only [Except.ok.injEq, Option.some.injEq] at e1
    rw [e1]
    exact e2 h
  simp only [get X Y u v t hu hv ht, get X' Y' u' v' t' hu' hv' ht']
  have key : ∀ (X X' : Fin n → Ω → ℝ) (u u' : Fin n → ℝ), (∀ k, 0 < u k) → (∀ k, 0 < u' k) → (∀ k, MemLp (X k) 2 P) → (∀ k, MemLp (X' k) 2 P) →
      (Pairwise fun k l => IndepFun (X k) (X l) P) → (Pairwise fun k l => IndepFun (X' k) (X' l) P) →
      (∀ k, variance (X k) P = (s * u k) ^ 2) → (∀ k, variance (X' k) P = (s' * u' k) ^ 2) → (∀ k, s' * u' k ≤ s * u k) →
      variance (fun ω => ∑ k, C106.share z u' h k * X' k ω) P ≤ variance (fun ω => ∑ k, C106.share z u h k * X k ω) P := by
    intro X X' u u' hu hu' a a' b b' c c' hle
    rw [C106.variance_weighted P X a b _ (fun k => s * u k) c, C106.variance_weighted P X' a' b' _ (fun k => s' * u' k) c']
    obtain ⟨l1, l2⟩ := C106.share_line z u hu _ _ hz h
    have hb := mul_le_mul_of_nonneg_left (C106.share_best z u' hu' _ _ hz h (C106.share z u h) l1 l2) (sq_nonneg s')
    rw [Finset.mul_sum, Finset.mul_sum] at hb
    calc _ = ∑ k, s' ^ 2 * (C106.share z u' h k ^ 2 * u' k ^ 2) := Finset.sum_congr rfl fun k _ => by ring
      _ ≤ ∑ k, s' ^ 2 * (C106.share z u h k ^ 2 * u' k ^ 2) := hb
      _ ≤ _ := Finset.sum_le_sum fun k _ => by
        have h0 : 0 ≤ s' * u' k := mul_nonneg hs' (hu' k).le
        have h1 : (s' * u' k) ^ 2 ≤ (s * u k) ^ 2 := pow_le_pow_left₀ h0 (hle k) 2
        calc _ = C106.share z u h k ^ 2 * (s' * u' k) ^ 2 := by ring
          _ ≤ _ := mul_le_mul_of_nonneg_left h1 (sq_nonneg _)
  exact ⟨key X X' u u' hu hu' (fun k => (m2 k).1) (fun k => (m2 k).2.2.1) (fun _ _ h => (hi h).1) (fun _ _ h => (hi h).2.2.1) (fun k => (hsd k).1) (fun k => (hsd k).2.2.1) fun k => (hle k).1,
    key Y Y' v v' hv hv' (fun k => (m2 k).2.1) (fun k => (m2 k).2.2.2) (fun _ _ h => (hi h).2.1) (fun _ _ h => (hi h).2.2.2) (fun k => (hsd k).2.1) (fun k => (hsd k).2.2.2) fun k => (hle k).2⟩

/-- what the fit is told about one muon by one panel: the recorded hit, and its uncertainty divided by its efficiency -/
def told (p : Panel) (N : ℝ × ℝ) (m : Muon) : X3 × X3 := (p.recoX N m, scaleUnc (p.uncX m) (p.effX m))

/-- a Gaussian panel around the origin, a metre long and `w` metres wide, of nominal resolution and efficiency 1 -/
def around (w h : ℝ) : Panel := ⟨.gauss, 1, 1, 1, (0, 0), h, (1, w), 1, true, true⟩

/-- a muon flying straight down, a metre from the middle of the panels in y -/
def beside : Muon := { x := 0, y := 1, z := 3, p := 1, th := 0, ph := 0, id := 0 }

theorem around_told (w h : ℝ) (hw : 0 < w) (N : ℝ × ℝ) : ∃ r v : ℝ, 0 < r ∧ 0 < v ∧
    told (around w h) N beside = ((.num N.1, .num (1 + N.2 / r), .num h), (.num (1 / exp (-8 / w ^ 2)), .num v, .num 0)) := by
  have hc : (around w h).continuous = true := rfl
  have cr : crossing beside h = (0, 1) := by simp [crossing, beside]
  have rx : Panel.ratio .gauss 0 1 0 = 1 := Panel.ratio_centre _ _ _ one_pos
  have ry : Panel.ratio .gauss 0 w 1 = exp (-8 / w ^ 2) := by
    simp only [Panel.ratio, Panel.gaussRatio_eq]
    congr 1
    field_simp
    norm_num
  have hres : (around w h).resAt (0, 1) ((around w h).inside beside) = (1, max (exp (-8 / w ^ 2)) 1e-10) := by
    unfold Panel.resAt
    rw [if_pos hc]
    simp only [around, Panel.scaledSpan, mul_one, one_mul, rx, ry]
    norm_num
  have heff : (around w h).effAt (0, 1) ((around w h).inside beside) = exp (-8 / w ^ 2) := by
    unfold Panel.effAt
    rw [if_pos hc]
    simp only [around, Panel.scaledSpan, mul_one, one_mul, rx, ry]
  have hr : 0 < max (exp (-8 / w ^ 2)) (1e-10 : ℝ) := lt_max_of_lt_left (exp_pos _)
  have he := exp_pos (-8 / w ^ 2)
  have hadd : ∀ l x e : ℝ, l + (x - l + e) = x + e := fun l x e => by ring
  refine ⟨max (exp (-8 / w ^ 2)) 1e-10, 1 / max (exp (-8 / w ^ 2)) 1e-10 / exp (-8 / w ^ 2), hr, by positivity, ?_⟩
  have hz : (around w h).z = h := rfl
  have ht : (around w h).training = true := rfl
  simp only [told, Panel.recoX, Panel.uncX, Panel.effX, scaleUnc, hz, cr, hres, heff, Panel.recoCoord, ht, Bool.not_true, Bool.false_and, Bool.false_eq_true, if_false, XF.quot, ne_eq, one_ne_zero,
    hr.ne', he.ne', not_false_eq_true, if_true, XF.addR, hadd, XF.div, div_one, zero_add, zero_div]

omit [MeasurableSpace Ω] in
/-- **C109 (violated): tracks.** Three panels above one another, noise independent and of standard deviation one. The lowest panel is replaced by a wider one. Its hits are as precise as before in x and its
efficiency is higher, so the fit gives it more weight than the equally precise others: the position in x of the fitted track at the height of the middle panel scatters more than before. -/
theorem wider_violated : ∃ (Ω : Type) (_ : MeasurableSpace Ω) (P : Measure Ω) (N : Fin 3 → Ω → ℝ × ℝ) (top middle low wide : Panel) (m : Muon) (t t' : Ω → Track), IsProbabilityMeasure P ∧
    (Pairwise fun k l => IndepFun (fun ω => (N k ω).1) (fun ω => (N l ω).1) P) ∧
    (∀ k, MemLp (fun ω => (N k ω).1) 2 P ∧ ∫ ω, (N k ω).1 ∂P = 0 ∧ variance (fun ω => (N k ω).1) P = 1) ∧
    C23.Valid top ∧ C23.Valid middle ∧ C23.Valid low ∧ Larger low wide ∧
    (∀ ω, trajectory (1, 1) [told top (N 0 ω) m, told middle (N 1 ω) m, told low (N 2 ω) m] = .ok (some (t ω))) ∧
    (∀ ω, trajectory (1, 1) [told top (N 0 ω) m, told middle (N 1 ω) m, told wide (N 2 ω) m] = .ok (some (t' ω))) ∧
    variance (fun ω => ((t ω).atZ middle.z).1) P < variance (fun ω => ((t' ω).atZ middle.z).1) P := by
  obtain ⟨Ω, mΩ, P, X, hP, hind, hX⟩ := C106.normal_noise (Fin 3)
  have hv : ∀ w h : ℝ, 0 < w → C23.Valid (around w h) := fun w h hw => ⟨one_pos, one_pos, by simp [around, Panel.scaledSpan], by simpa [around, Panel.scaledSpan] using hw, trivial⟩
  have vr : ∀ k, variance (X k) P = (1 : ℝ) ^ 2 := fun k => by rw [(hX k).2.2, one_pow]
  -- the fit to three panels, the lowest of width `w`
  have fit : ∀ w : ℝ, 0 < w → ∃ t : Ω → Track,
      (∀ ω, trajectory (1, 1) [told (around 1 2) (X 0 ω, X 0 ω) beside, told (around 1 1) (X 1 ω, X 1 ω) beside, told (around w 0) (X 2 ω, X 2 ω) beside] = .ok (some (t ω))) ∧
      variance (fun ω => ((t ω).atZ 1).1) P = ∑ k, C106.share ![2, 1, 0] ![1 / exp (-8), 1 / exp (-8), 1 / exp (-8 / w ^ 2)] 1 k ^ 2 := by
    intro w hw
    have w0 := exp_pos (-8 / w ^ 2)
    choose r0 v0 a0 b0 c0 using fun N : ℝ × ℝ => around_told 1 2 one_pos N
    choose r1 v1 a1 b1 c1 using fun N : ℝ × ℝ => around_told 1 1 one_pos N
    choose r2 v2 a2 b2 c2 using fun N : ℝ × ℝ => around_told w 0 hw N
    have hu : ∀ k : Fin 3, 0 < (![1 / exp (-8), 1 / exp (-8), 1 / exp (-8 / w ^ 2)] : Fin 3 → ℝ) k := by
      intro k; fin_cases k <;> simp <;> positivity
    have hz : (![2, 1, 0] : Fin 3 → ℝ) ⟨0, by omega⟩ ≠ (![2, 1, 0] : Fin 3 → ℝ) ⟨1, by omega⟩ := by
      show (2 : ℝ) ≠ 1
      norm_num
    choose t ht _ hs using fun ω => C106.track_share (1, 1) (by omega : 2 ≤ 3) (X · ω)
      ![1 + X 0 ω / r0 (X 0 ω, X 0 ω), 1 + X 1 ω / r1 (X 1 ω, X 1 ω), 1 + X 2 ω / r2 (X 2 ω, X 2 ω)] ![2, 1, 0] ![1 / exp (-8), 1 / exp (-8), 1 / exp (-8 / w ^ 2)]
      ![v0 (X 0 ω, X 0 ω), v1 (X 1 ω, X 1 ω), v2 (X 2 ω, X 2 ω)] hu (by intro k; fin_cases k <;> simp [b0, b1, b2]) hz
    refine ⟨t, fun ω => ?_, ?_⟩
    · rw [← ht ω, c0, c1, c2]
      simp [C26.rows, C106.measured, List.ofFn_succ]
    · simp only [hs]
      rw [C106.variance_weighted P X (fun k => (hX k).1) hind _ (fun _ => 1) vr]
      simp
  obtain ⟨t, ht, hvt⟩ := fit 1 one_pos
  obtain ⟨t', ht', hvt'⟩ := fit 2 two_pos
  refine ⟨Ω, mΩ, P, fun k ω => (X k ω, X k ω), around 1 2, around 1 1, around 1 0, around 2 0, beside, t, t', hP, hind, hX, hv _ _ one_pos, hv _ _ one_pos, hv _ _ one_pos,
    ⟨rfl, le_refl _, by simp [around, Panel.scaledSpan]⟩, ht, ht', ?_⟩
  show variance (fun ω => ((t ω).atZ 1).1) P < variance (fun ω => ((t' ω).atZ 1).1) P
  rw [hvt, hvt']
  -- the variance as a function of the weights
  have shares : ∀ a b : ℝ, 0 < a → 0 < b → ∑ k, C106.share ![2, 1, 0] ![1 / a, 1 / a, 1 / b] 1 k ^ 2 =
      1 / 3 + 6 * (2 * b ^ 2 / (a ^ 2 + 5 * b ^ 2) - 1 / 3) ^ 2 := by
    intro a b ha hb
    have s0 : C106.S0 ![1 / a, 1 / a, 1 / b] = 2 * a ^ 2 + b ^ 2 := by
      simp [C106.S0, Fin.sum_univ_three]; ring
    have s1 : C106.S1 ![2, 1, 0] ![1 / a, 1 / a, 1 / b] = 3 * a ^ 2 := by
      simp [C106.S1, Fin.sum_univ_three]; ring
    have s2 : C106.S2 ![2, 1, 0] ![1 / a, 1 / a, 1 / b] = 5 * a ^ 2 := by
      simp [C106.S2, Fin.sum_univ_three]; ring
    have sd : C106.Det ![2, 1, 0] ![1 / a, 1 / a, 1 / b] = a ^ 2 * (a ^ 2 + 5 * b ^ 2) := by
      rw [C106.Det, s0, s1, s2]; ring
    have k0 : C106.share ![2, 1, 0] ![1 / a, 1 / a, 1 / b] 1 0 = 2 * b ^ 2 / (a ^ 2 + 5 * b ^ 2) := by
      rw [C106.share, s0, s1, s2, sd]
      simp
      field_simp
      ring
    have k1 : C106.share ![2, 1, 0] ![1 / a, 1 / a, 1 / b] 1 1 = (a ^ 2 + b ^ 2) / (a ^ 2 + 5 * b ^ 2) := by
      rw [C106.share, s0, s1, s2, sd]
      simp
      field_simp
      ring
    have k2 : C106.share ![2, 1, 0] ![1 / a, 1 / a, 1 / b] 1 2 = 2 * b ^ 2 / (a ^ 2 + 5 * b ^ 2) := by
      rw [C106.share, s0, s1, s2, sd]
      simp
      field_simp
      ring
    have hd : a ^ 2 + 5 * b ^ 2 ≠ 0 := by positivity
    have e : (a ^ 2 + b ^ 2) / (a ^ 2 + 5 * b ^ 2) = 1 - 2 * (2 * b ^ 2 / (a ^ 2 + 5 * b ^ 2)) := by field_simp; ring
    rw [Fin.sum_univ_three, k0, k1, k2, e]
    ring
  have e1 : exp (-8 / 1 ^ 2) = exp (-8) := by norm_num
  rw [e1, shares _ _ (exp_pos _) (exp_pos _), shares _ _ (exp_pos _) (exp_pos _)]
  have hlt : exp (-8) < exp (-8 / 2 ^ 2) := exp_lt_exp.mpr (by norm_num)
  have h0 := exp_pos (-8)
  have hne : exp (-8) ^ 2 < exp (-8 / 2 ^ 2) ^ 2 := by gcongr
  have z1 : 2 * exp (-8) ^ 2 / (exp (-8) ^ 2 + 5 * exp (-8) ^ 2) - 1 / 3 = 0 := by field_simp; norm_num
  have z2 : 0 < 2 * exp (-8 / 2 ^ 2) ^ 2 / (exp (-8) ^ 2 + 5 * exp (-8 / 2 ^ 2) ^ 2) - 1 / 3 := by
    rw [sub_pos, div_lt_div_iff₀ (by norm_num) (by positivity)]
    linarith
  rw [z1]
  have := pow_pos z2 2
  linarith

/-- A sigmoid panel in realistic validation, doubled in size. -/
example : let p : Panel := ⟨.sigmoid 0.5, 1000, 0.9, 1, (0.5, 0.5), 2.2, (1, 2), 1, true, false⟩
    C23.Valid p ∧ Larger p { p with budgetScale := 2 } := by
  refine ⟨⟨by norm_num, by norm_num, by simp [Panel.scaledSpan], by simp [Panel.scaledSpan], show (0 : ℝ) < 0.5 by norm_num⟩, rfl, ?_, ?_⟩ <;> simp [Panel.scaledSpan]

/-- A volume of three panels with a budget of 10, and of 12. -/
example : ∃ argsort, IsArgsort argsort ∧ ∃ W W', (⟨[.detector ⟨"above", (1, 1), 3, 1, [.panel ⟨.gauss, 1000, 1, 1, (0.5, 0.5), 2.2, (1, 2), 1, true, true⟩,
        .panel ⟨.sigmoid 0.5, 1000, 1, 2, (0.5, 0.5), 2.8, (1, 1), 1, true, true⟩]⟩,
       .passive ⟨(1, 1), 2, 1, 0.1, "pdg", none⟩,
       .detector ⟨"below", (1, 1), 1, 1, [.panel ⟨.gauss, 1000, 1, 1, (0.5, 0.5), 0.5, (1, 1), 1, true, true⟩]⟩], some 10, [0, 1, 0], [2, 1]⟩ : Volume).assignBudget argsort = .ok W ∧
    (⟨[.detector ⟨"above", (1, 1), 3, 1, [.panel ⟨.gauss, 1000, 1, 1, (0.5, 0.5), 2.2, (1, 2), 1, true, true⟩,
        .panel ⟨.sigmoid 0.5, 1000, 1, 2, (0.5, 0.5), 2.8, (1, 1), 1, true, true⟩]⟩,
       .passive ⟨(1, 1), 2, 1, 0.1, "pdg", none⟩,
       .detector ⟨"below", (1, 1), 1, 1, [.panel ⟨.gauss, 1000, 1, 1, (0.5, 0.5), 0.5, (1, 1), 1, true, true⟩]⟩], some 12, [0, 1, 0], [2, 1]⟩ : Volume).assignBudget argsort = .ok W' ∧
    List.Forall₂ LayerNoWorse W.layers W'.layers := by
  obtain ⟨argsort, ha⟩ := C13.argsort_exists
  refine ⟨argsort, ha, ?_⟩
  have g : ∀ (k : PanelKind) (hk : Panel.KindOk k) (c : ℝ) (hc : 0 < c) (z w : ℝ) (hw : 0 < w), Good ⟨k, 1000, 1, c, (0.5, 0.5), z, (1, w), 1, true, true⟩ := fun k hk c hc z w hw =>
    ⟨by norm_num, by norm_num, hk, hc, by norm_num, hw⟩
  exact larger_budget argsort ha _ 10 12 (by norm_num) (by norm_num) ⟨rfl, rfl, rfl⟩ (by
    intro a h
    simp only [Volume.panels, Volume.detectors, List.filterMap_cons, List.filterMap_nil, List.flatMap_cons, List.flatMap_nil, List.append_nil, List.cons_append, List.nil_append, List.mem_cons, List.not_mem_nil, or_false] at h
    rcases h with rfl | rfl | rfl
    · exact ⟨_, rfl, g .gauss trivial _ (by norm_num) _ _ (by norm_num)⟩
    · exact ⟨_, rfl, g (.sigmoid 0.5) (show (0 : ℝ) < 0.5 by norm_num) _ (by norm_num) _ _ (by norm_num)⟩
    · exact ⟨_, rfl, g .gauss trivial _ (by norm_num) _ _ (by norm_num)⟩)

/-- Three independent hits, and the same with half the noise: the hypotheses of `tracks_partial` are met. -/
example : ∃ (Ω : Type) (_ : MeasurableSpace Ω) (P : Measure Ω) (X X' : Fin 3 → Ω → ℝ) (t t' : Ω → Track),
    (∀ ω, trajectory (1, 1) (C26.rows (C106.measured (X · ω) (X · ω) ![2, 1, 0] (fun _ => 1) (fun _ => 1))) = .ok (some (t ω))) ∧
    (∀ ω, trajectory (1, 1) (C26.rows (C106.measured (X' · ω) (X' · ω) ![2, 1, 0] (fun _ => 1 / 2) (fun _ => 1 / 2))) = .ok (some (t' ω))) ∧
    variance (fun ω => ((t' ω).atZ 5).1) P ≤ variance (fun ω => ((t ω).atZ 5).1) P := by
  obtain ⟨Ω, mΩ, P, X, hP, hind, hX⟩ := C106.normal_noise (Fin 3)
  have hz : (![2, 1, 0] : Fin 3 → ℝ) ⟨0, by omega⟩ ≠ (![2, 1, 0] : Fin 3 → ℝ) ⟨1, by omega⟩ := by
    show (2 : ℝ) ≠ 1
    norm_num
  choose t ht _ _ using fun ω => C106.track_share (1, 1) (by omega : 2 ≤ 3) (X · ω) (X · ω) ![2, 1, 0] (fun _ => 1) (fun _ => 1) (fun _ => one_pos) (fun _ => one_pos) hz
  choose t' ht' _ _ using fun ω => C106.track_share (1, 1) (by omega : 2 ≤ 3) (fun k => (1 / 2) * X k ω) (fun k => (1 / 2) * X k ω) ![2, 1, 0] (fun _ => 1 / 2) (fun _ => 1 / 2)
    (fun _ => by norm_num) (fun _ => by norm_num) hz
  have m' : ∀ k, MemLp (fun ω => (1 / 2) * X k ω) 2 P := fun k => (hX k).1.const_mul _
  have i' : Pairwise fun k l => IndepFun (fun ω => (1 / 2) * X k ω) (fun ω => (1 / 2) * X l ω) P := fun k l h => (hind h).comp (measurable_const_mul _) (measurable_const_mul _)
  have v' : ∀ k, variance (fun ω => (1 / 2) * X k ω) P = (1 * (1 / 2)) ^ 2 := fun k => by rw [variance_const_mul, (hX k).2.2]; norm_num
  have v : ∀ k, variance (X k) P = ((1 : ℝ) * 1) ^ 2 := fun k => by rw [(hX k).2.2]; norm_num
  exact ⟨Ω, mΩ, P, X, fun k ω => (1 / 2) * X k ω, t, t', ht, ht', (tracks_partial P (1, 1) (by omega : 2 ≤ 3) ![2, 1, 0] (fun _ => 1) (fun _ => 1) (fun _ => 1 / 2) (fun _ => 1 / 2)
    (fun _ => one_pos) (fun _ => one_pos) (fun _ => by norm_num) (fun _ => by norm_num) hz X X (fun k ω => (1 / 2) * X k ω) (fun k ω => (1 / 2) * X k ω) t t' ht ht' 1 1 (by norm_num) 5
    (fun k => ⟨(hX k).1, (hX k).1, m' k, m' k⟩) (fun k l h => ⟨hind h, hind h, i' h, i' h⟩) (fun k => ⟨v k, v k, v' k, v' k⟩) (fun k => ⟨by norm_num, by norm_num⟩)).1⟩

end C109

end

end Tomopt
