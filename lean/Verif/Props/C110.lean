import Verif.Props.C22_25
import Mathlib.Analysis.SpecialFunctions.ExpDeriv
import Mathlib.Analysis.Calculus.Deriv.Abs
import Mathlib.Analysis.Calculus.Deriv.Inv
import Mathlib.Analysis.Calculus.LocalExtr.Basic

/- C110: in training the response of a panel has derivatives that point the right way. -/
namespace Tomopt

noncomputable section
open Real Filter Topology

namespace C110

/-- the panel moved in x, moved in y -/
def movedX (p : Panel) (c : ℝ) : Panel := { p with xy := (c, p.xy.2) }
def movedY (p : Panel) (c : ℝ) : Panel := { p with xy := (p.xy.1, c) }
/-- the panel with another length, another width, another share of the budget -/
def long (p : Panel) (s : ℝ) : Panel := { p with span := (s, p.span.2) }
def wide (p : Panel) (s : ℝ) : Panel := { p with span := (p.span.1, s) }
def scaled (p : Panel) (b : ℝ) : Panel := { p with budgetScale := b }

theorem sigm_deriv (x : ℝ) : ∃ d, 0 < d ∧ HasDerivAt Panel.sigm d x := by
  have h1 : HasDerivAt (fun x : ℝ => 1 + exp (-x)) (-exp (-x)) x := by
    have := ((hasDerivAt_neg x).exp).const_add 1
    simpa using this
  have h0 : 1 + exp (-x) ≠ 0 := by positivity
  refine ⟨exp (-x) / (1 + exp (-x)) ^ 2, by positivity, ?_⟩
  have := h1.inv h0
  simp only [neg_neg] at this
  have e : Panel.sigm = (fun x : ℝ => 1 + exp (-x))⁻¹ := by
    funext y; simp [Panel.sigm]
  rw [e]
  exact this

/-- the derivative of the response along an axis with respect to the centre of the panel -/
theorem ratio_centre_deriv (k : PanelKind) (hk : Panel.KindOk k) (mu s x : ℝ) (hs : 0 < s) (hx : x ≠ mu) :
    ∃ d, HasDerivAt (fun c => Panel.ratio k c s x) d mu ∧ 0 < d * (x - mu) := by
  have hx' : x - mu ≠ 0 := sub_ne_zero.mpr hx
  cases k with
  | gauss =>
    simp only [Panel.ratio, Panel.gaussRatio_eq]
    have h1 : HasDerivAt (fun c : ℝ => -((x - c) ^ 2) / (2 * (s / 4) ^ 2)) (2 * (x - mu) / (2 * (s / 4) ^ 2)) mu := by
      have := ((((hasDerivAt_id mu).const_sub x).pow 2).neg).div_const (2 * (s / 4) ^ 2)
      simp only [id_eq, Nat.cast_ofNat, Nat.add_one_sub_one, pow_one, mul_neg, mul_one, neg_neg] at this
      exact this
    refine ⟨_, h1.exp, ?_⟩
    have : exp (-((x - mu) ^ 2) / (2 * (s / 4) ^ 2)) * (2 * (x - mu) / (2 * (s / 4) ^ 2)) * (x - mu) =
        exp (-((x - mu) ^ 2) / (2 * (s / 4) ^ 2)) * (2 * (x - mu) ^ 2 / (2 * (s / 4) ^ 2)) := by ring
    rw [this]
    have := pow_pos (abs_pos.mpr hx') 2
    rw [sq_abs] at this
    positivity
  | sigmoid c =>
    have hc : 0 < c := hk
    have e : ∀ m, Panel.ratio (.sigmoid c) m s x = Panel.sigm ((1 - |x - m| / (s / 2)) / c) / Panel.sigm (1 / c) := fun m => by
      simp only [Panel.ratio, Panel.sigRatio_eq _ _ _ _ hs]
    simp only [e]
    obtain ⟨d0, p0, h0⟩ := sigm_deriv ((1 - |x - mu| / (s / 2)) / c)
    have ha : HasDerivAt (fun m : ℝ => |x - m|) (SignType.sign (x - mu) * -1) mu := (hasDerivAt_abs hx').comp mu ((hasDerivAt_id mu).const_sub x)
    have h1 := ((ha.div_const (s / 2)).const_sub 1).div_const c
    refine ⟨_, (h0.comp mu h1).div_const _, ?_⟩
    have hp := Panel.sigm_pos (1 / c)
    have key : d0 * (-(SignType.sign (x - mu) * -1 / (s / 2)) / c) / Panel.sigm (1 / c) * (x - mu) =
        d0 * ((SignType.sign (x - mu) * (x - mu)) / (s / 2) / c) / Panel.sigm (1 / c) := by ring
    rw [key, sign_mul_self]
    have := abs_pos.mpr hx'
    positivity

/-- and with respect to its size -/
theorem ratio_span_deriv (k : PanelKind) (hk : Panel.KindOk k) (mu s x : ℝ) (hs : 0 < s) (hx : x ≠ mu) :
    ∃ d, HasDerivAt (fun l => Panel.ratio k mu l x) d s ∧ 0 < d := by
  have hx' : x - mu ≠ 0 := sub_ne_zero.mpr hx
  have hpos := abs_pos.mpr hx'
  cases k with
  | gauss =>
    simp only [Panel.ratio, Panel.gaussRatio_eq]
    have h1 : HasDerivAt (fun l : ℝ => -((x - mu) ^ 2) / (2 * (l / 4) ^ 2)) (16 * (x - mu) ^ 2 / s ^ 3) s := by
      have h2 : HasDerivAt (fun l : ℝ => 2 * (l / 4) ^ 2) (s / 4) s := by
        have := (((hasDerivAt_id s).div_const 4).pow 2).const_mul 2
        refine this.congr_deriv ?_
        simp only [id_eq, Nat.cast_ofNat, Nat.add_one_sub_one, pow_one]
        ring
      have h3 := (hasDerivAt_const s (-((x - mu) ^ 2))).div h2 (by positivity)
      refine h3.congr_deriv ?_
      field_simp
      ring
    refine ⟨_, h1.exp, ?_⟩
    have := pow_pos hpos 2
    rw [sq_abs] at this
    positivity
  | sigmoid c =>
    have hc : 0 < c := hk
    obtain ⟨d0, p0, h0⟩ := sigm_deriv ((1 - |x - mu| / (s / 2)) / c)
    have h2 : HasDerivAt (fun l : ℝ => |x - mu| / (l / 2)) (-(2 * |x - mu| / s ^ 2)) s := by
      have h3 := (hasDerivAt_const s |x - mu|).div ((hasDerivAt_id s).div_const 2) (by simp only [id_eq]; positivity)
      refine h3.congr_deriv ?_
      simp only [id_eq]
      field_simp
      ring
    have h1 := (h2.const_sub 1).div_const c
    have hd := (h0.comp s h1).div_const (Panel.sigm (1 / c))
    have hp := Panel.sigm_pos (1 / c)
    refine ⟨_, hd.congr_of_eventuallyEq ?_, by rw [neg_neg]; positivity⟩
    filter_upwards [lt_mem_nhds hs] with l hl
    simp only [Panel.ratio, Panel.sigRatio_eq _ _ _ _ hl, Function.comp]

/-- in the middle of the panel its size makes no difference -/
theorem ratio_middle (k : PanelKind) (mu s : ℝ) : HasDerivAt (fun l => Panel.ratio k mu l mu) 0 s := by
  have e : ∀ l, Panel.ratio k mu l mu = 1 := by
    intro l
    cases k with
    | gauss => simp [Panel.ratio, Panel.gaussRatio_eq]
    | sigmoid c =>
      simp only [Panel.ratio, Panel.sigRatio, sub_self, zero_div, mul_zero, sub_zero]
      exact div_self (Panel.sigm_pos _).ne'
  simp only [e]
  exact hasDerivAt_const _ _

/-- A panel that depends on a number: near `t0` it answers for the point `q` with these resolutions and this efficiency. -/
def Answers (P : ℝ → Panel) (q : ℝ × ℝ) (t0 : ℝ) (rx ry ef : ℝ → ℝ) : Prop :=
  ∀ᶠ t in 𝓝 t0, (P t).getResolution q none = .ok (rx t, ry t) ∧ (P t).getEfficiency q none = .ok (ef t)

/-- the efficiency from the responses along the axes -/
def effVal (k : PanelKind) (E a b : ℝ) : ℝ := match k with
  | .gauss => E * (a * b)
  | .sigmoid _ => max (E * (a * b)) 1e-10

theorem eff_deriv (k : PanelKind) (E : ℝ) (a b : ℝ → ℝ) (t0 da db : ℝ) (ha : HasDerivAt a da t0) (hb : HasDerivAt b db t0) (h : 1e-10 < effVal k E (a t0) (b t0)) :
    HasDerivAt (fun t => effVal k E (a t) (b t)) (E * (da * b t0 + a t0 * db)) t0 := by
  have hd := (ha.mul hb).const_mul E
  cases k with
  | gauss => exact hd
  | sigmoid c =>
    have h' : 1e-10 < E * (a t0 * b t0) := by
      rcases lt_max_iff.mp h with h | h
      · exact h
      · exact absurd h (lt_irrefl _)
    refine hd.congr_of_eventuallyEq ?_
    filter_upwards [hd.continuousAt.eventually (lt_mem_nhds h')] with t ht
    exact max_eq_left (le_of_lt ht)

theorem res_deriv (R : ℝ) (a : ℝ → ℝ) (t0 da : ℝ) (ha : HasDerivAt a da t0) (h : 1e-10 < max (R * a t0) 1e-10) :
    HasDerivAt (fun t => max (R * a t) 1e-10) (R * da) t0 := by
  have h' : 1e-10 < R * a t0 := by
    rcases lt_max_iff.mp h with h | h
    · exact h
    · exact absurd h (lt_irrefl _)
  have hd := ha.const_mul R
  refine hd.congr_of_eventuallyEq ?_
  filter_upwards [hd.continuousAt.eventually (lt_mem_nhds h')] with t ht
  exact max_eq_left (le_of_lt ht)

/-- what a working panel answers in training -/
theorem answer (p : Panel) (hx : 0 < p.scaledSpan.1) (hy : 0 < p.scaledSpan.2) (hm : p.training = true ∨ p.realistic = false) (q : ℝ × ℝ) :
    p.getResolution q none = .ok (max (p.res * Panel.ratio p.kind p.xy.1 p.scaledSpan.1 q.1) 1e-10, max (p.res * Panel.ratio p.kind p.xy.2 p.scaledSpan.2 q.2) 1e-10) ∧
    p.getEfficiency q none = .ok (effVal p.kind p.eff (Panel.ratio p.kind p.xy.1 p.scaledSpan.1 q.1) (Panel.ratio p.kind p.xy.2 p.scaledSpan.2 q.2)) := by
  have hc : p.continuous = true := by
    unfold Panel.continuous
    rcases hm with h | h <;> simp [h]
  have hk : p.checkResponse = .ok () := by
    unfold Panel.checkResponse Panel.checkGauss
    split
    · rw [if_pos ⟨by positivity, by positivity⟩]
    · rfl
  unfold Panel.getResolution Panel.getEfficiency Panel.resAt Panel.effAt
  simp only [hc, if_true, hk]
  refine ⟨trivial, ?_⟩
  cases p.kind <;> rfl

/-- the derivatives of the answers from those of the responses along the axes -/
theorem answers_deriv (P : ℝ → Panel) (k : PanelKind) (R E : ℝ) (hR : 0 < R) (hE : 0 < E) (q : ℝ × ℝ) (t0 : ℝ) (a b : ℝ → ℝ) (da db : ℝ)
    (ha : HasDerivAt a da t0) (hb : HasDerivAt b db t0)
    (hP : ∀ᶠ t in 𝓝 t0, (P t).getResolution q none = .ok (max (R * a t) 1e-10, max (R * b t) 1e-10) ∧ (P t).getEfficiency q none = .ok (effVal k E (a t) (b t)))
    (h1 : 1e-10 < max (R * a t0) 1e-10) (h2 : 1e-10 < max (R * b t0) 1e-10) (h3 : 1e-10 < effVal k E (a t0) (b t0)) :
    ∃ rx ry ef : ℝ → ℝ, Answers P q t0 rx ry ef ∧ HasDerivAt rx (R * da) t0 ∧ HasDerivAt ry (R * db) t0 ∧ HasDerivAt ef (E * (da * b t0 + a t0 * db)) t0 :=
  ⟨_, _, _, hP, res_deriv R a t0 da ha h1, res_deriv R b t0 db hb h2, eff_deriv k E a b t0 da db ha hb h3⟩

variable (p : Panel) (hv : C23.Valid p) (hm : p.training = true ∨ p.realistic = false) (q r : ℝ × ℝ) (e : ℝ) (hr : p.getResolution q none = .ok r) (he : p.getEfficiency q none = .ok e)
  (h1 : 1e-10 < r.1) (h2 : 1e-10 < r.2) (h3 : 1e-10 < e)

include hv hm hr he h1 h2 h3

/-- **C110: position.** A valid panel in training, Gaussian or sigmoid, and a muon crossing at `q`, not so far away that the answers are at their lower limit. Resolution and efficiency are differentiable in
the position of the panel. If the muon is not at the middle in x, the derivatives with respect to the position in x of efficiency and resolution in x have the sign of the way to the muon: moving the panel
towards the muon improves both. Likewise in y. -/
theorem position :
    (q.1 ≠ p.xy.1 → ∃ rx ry ef dr de, Answers (movedX p) q p.xy.1 rx ry ef ∧ HasDerivAt rx dr p.xy.1 ∧ HasDerivAt ry 0 p.xy.1 ∧ HasDerivAt ef de p.xy.1 ∧
      0 < dr * (q.1 - p.xy.1) ∧ 0 < de * (q.1 - p.xy.1)) ∧
    (q.2 ≠ p.xy.2 → ∃ rx ry ef dr de, Answers (movedY p) q p.xy.2 rx ry ef ∧ HasDerivAt rx 0 p.xy.2 ∧ HasDerivAt ry dr p.xy.2 ∧ HasDerivAt ef de p.xy.2 ∧
      0 < dr * (q.2 - p.xy.2) ∧ 0 < de * (q.2 - p.xy.2)) := by
  obtain ⟨a1, a2⟩ := answer p hv.spanX hv.spanY hm q
  rw [hr] at a1
  rw [he] at a2
  simp only [Except.ok.injEq] at a1 a2
  subst a1
  subst a2
  have px := Panel.ratio_pos p.kind p.xy.1 _ q.1 hv.spanX
  have py := Panel.ratio_pos p.kind p.xy.2 _ q.2 hv.spanY
  constructor
  · intro hq
    obtain ⟨d, hd, hs⟩ := ratio_centre_deriv p.kind hv.kind p.xy.1 p.scaledSpan.1 q.1 hv.spanX hq
    obtain ⟨rx, ry, ef, A, B, C, D⟩ := answers_deriv (movedX p) p.kind p.res p.eff hv.res hv.eff q p.xy.1 _ _ _ 0 hd (hasDerivAt_const _ (Panel.ratio p.kind p.xy.2 p.scaledSpan.2 q.2))
      (Eventually.of_forall fun c => answer (movedX p c) hv.spanX hv.spanY hm q) h1 h2 h3
    refine ⟨rx, ry, ef, _, _, A, B, by simpa using C, D, ?_, ?_⟩
    · rw [mul_assoc]; exact mul_pos hv.res hs
    · rw [mul_zero, add_zero, show ∀ E d b w : ℝ, E * (d * b) * w = E * b * (d * w) from fun _ _ _ _ => by ring]
      exact mul_pos (mul_pos hv.eff py) hs
  · intro hq
    obtain ⟨d, hd, hs⟩ := ratio_centre_deriv p.kind hv.kind p.xy.2 p.scaledSpan.2 q.2 hv.spanY hq
    obtain ⟨rx, ry, ef, A, B, C, D⟩ := answers_deriv (movedY p) p.kind p.res p.eff hv.res hv.eff q p.xy.2 _ _ 0 _ (hasDerivAt_const _ (Panel.ratio p.kind p.xy.1 p.scaledSpan.1 q.1)) hd
      (Eventually.of_forall fun c => answer (movedY p c) hv.spanX hv.spanY hm q) h1 h2 h3
    refine ⟨rx, ry, ef, _, _, A, by simpa using B, C, D, ?_, ?_⟩
    · rw [mul_assoc]; exact mul_pos hv.res hs
    · rw [zero_mul, zero_add, show ∀ E d b w : ℝ, E * (b * d) * w = E * b * (d * w) from fun _ _ _ _ => by ring]
      exact mul_pos (mul_pos hv.eff px) hs

/-- **C110: size.** Under the same conditions they are differentiable in length, width and share of the budget, with positive derivatives: growing improves the answers for muons that are not in the middle. -/
theorem size (hb : 0 < p.budgetScale) :
    (q.1 ≠ p.xy.1 → ∃ rx ry ef dr de, Answers (long p) q p.span.1 rx ry ef ∧ HasDerivAt rx dr p.span.1 ∧ HasDerivAt ry 0 p.span.1 ∧ HasDerivAt ef de p.span.1 ∧ 0 < dr ∧ 0 < de) ∧
    (q.2 ≠ p.xy.2 → ∃ rx ry ef dr de, Answers (wide p) q p.span.2 rx ry ef ∧ HasDerivAt rx 0 p.span.2 ∧ HasDerivAt ry dr p.span.2 ∧ HasDerivAt ef de p.span.2 ∧ 0 < dr ∧ 0 < de) ∧
    (q ≠ p.xy → ∃ rx ry ef dx dy de, Answers (scaled p) q p.budgetScale rx ry ef ∧ HasDerivAt rx dx p.budgetScale ∧ HasDerivAt ry dy p.budgetScale ∧ HasDerivAt ef de p.budgetScale ∧
      0 ≤ dx ∧ 0 ≤ dy ∧ 0 < dx + dy ∧ 0 < de) := by
  obtain ⟨a1, a2⟩ := answer p hv.spanX hv.spanY hm q
  rw [hr] at a1
  rw [he] at a2
  simp only [Except.ok.injEq] at a1 a2
  subst a1
  subst a2
  have px := Panel.ratio_pos p.kind p.xy.1 _ q.1 hv.spanX
  have py := Panel.ratio_pos p.kind p.xy.2 _ q.2 hv.spanY
  have sx : 0 < p.span.1 := (mul_pos_iff_of_pos_right hb).mp hv.spanX
  have sy : 0 < p.span.2 := (mul_pos_iff_of_pos_right hb).mp hv.spanY
  have lin : ∀ b s : ℝ, HasDerivAt (fun l => l * b) b s := fun b s => by simpa using (hasDerivAt_id s).mul_const b
  have lin' : ∀ b s : ℝ, HasDerivAt (fun l => b * l) b s := fun b s => by simpa using (hasDerivAt_id s).const_mul b
  refine ⟨fun hq => ?_, fun hq => ?_, fun hq => ?_⟩
  · obtain ⟨d, hd, hs⟩ := ratio_span_deriv p.kind hv.kind p.xy.1 p.scaledSpan.1 q.1 hv.spanX hq
    have hd' : HasDerivAt (fun l => Panel.ratio p.kind p.xy.1 (l * p.budgetScale) q.1) (d * p.budgetScale) p.span.1 := by
      have := HasDerivAt.comp (h := fun l => l * p.budgetScale) p.span.1 hd (lin p.budgetScale p.span.1)
      exact this
    obtain ⟨rx, ry, ef, A, B, C, D⟩ := answers_deriv (long p) p.kind p.res p.eff hv.res hv.eff q p.span.1 _ _ _ 0 hd' (hasDerivAt_const _ (Panel.ratio p.kind p.xy.2 p.scaledSpan.2 q.2))
      (by filter_upwards [lt_mem_nhds sx] with l hl using answer (long p l) (mul_pos hl hb) hv.spanY hm q) h1 h2 h3
    refine ⟨rx, ry, ef, _, _, A, B, by simpa using C, D, ?_, ?_⟩
    · exact mul_pos hv.res (mul_pos hs hb)
    · rw [mul_zero, add_zero]
      exact mul_pos hv.eff (mul_pos (mul_pos hs hb) py)
  · obtain ⟨d, hd, hs⟩ := ratio_span_deriv p.kind hv.kind p.xy.2 p.scaledSpan.2 q.2 hv.spanY hq
    have hd' : HasDerivAt (fun l => Panel.ratio p.kind p.xy.2 (l * p.budgetScale) q.2) (d * p.budgetScale) p.span.2 := by
      have := HasDerivAt.comp (h := fun l => l * p.budgetScale) p.span.2 hd (lin p.budgetScale p.span.2)
      exact this
    obtain ⟨rx, ry, ef, A, B, C, D⟩ := answers_deriv (wide p) p.kind p.res p.eff hv.res hv.eff q p.span.2 _ _ 0 _ (hasDerivAt_const _ (Panel.ratio p.kind p.xy.1 p.scaledSpan.1 q.1)) hd'
      (by filter_upwards [lt_mem_nhds sy] with l hl using answer (wide p l) hv.spanX (mul_pos hl hb) hm q) h1 h2 h3
    refine ⟨rx, ry, ef, _, _, A, by simpa using B, C, D, ?_, ?_⟩
    · exact mul_pos hv.res (mul_pos hs hb)
    · rw [zero_mul, zero_add]
      exact mul_pos hv.eff (mul_pos px (mul_pos hs hb))
  · have one : ∀ (mu s x : ℝ), 0 < s → 0 < s * p.budgetScale → ∃ d, HasDerivAt (fun b => Panel.ratio p.kind mu (s * b) x) d p.budgetScale ∧ 0 ≤ d ∧ (x ≠ mu → 0 < d) := by
      intro mu s x hs hsb
      by_cases hx : x = mu
      · subst hx
        refine ⟨0, ?_, le_refl _, fun h => absurd rfl h⟩
        have := HasDerivAt.comp (h := fun l => s * l) p.budgetScale (ratio_middle p.kind x (s * p.budgetScale)) (lin' s p.budgetScale)
        rw [zero_mul] at this
        exact this
      · obtain ⟨d, hd, hp⟩ := ratio_span_deriv p.kind hv.kind mu (s * p.budgetScale) x hsb hx
        have := HasDerivAt.comp (h := fun l => s * l) p.budgetScale hd (lin' s p.budgetScale)
        exact ⟨d * s, this, (mul_pos hp hs).le, fun _ => mul_pos hp hs⟩
    obtain ⟨d1, u1, u2, u3⟩ := one p.xy.1 p.span.1 q.1 sx hv.spanX
    obtain ⟨d2, w1, w2, w3⟩ := one p.xy.2 p.span.2 q.2 sy hv.spanY
    obtain ⟨rx, ry, ef, A, B, C, D⟩ := answers_deriv (scaled p) p.kind p.res p.eff hv.res hv.eff q p.budgetScale _ _ _ _ u1 w1
      (by filter_upwards [lt_mem_nhds hb] with l hl using answer (scaled p l) (mul_pos sx hl) (mul_pos sy hl) hm q) h1 h2 h3
    have hor : q.1 ≠ p.xy.1 ∨ q.2 ≠ p.xy.2 := by
      by_contra h
      push Not at h
      exact hq (Prod.ext h.1 h.2)
    have hpos : 0 < d1 + d2 := by
      rcases hor with h | h
      · have := u3 h; linarith
      · have := w3 h; linarith
    refine ⟨rx, ry, ef, _, _, _, A, B, C, D, mul_nonneg hv.res.le u2, mul_nonneg hv.res.le w2, ?_, ?_⟩
    · rw [← mul_add]; exact mul_pos hv.res hpos
    · apply mul_pos hv.eff
      rcases hor with h | h
      · have i1 := mul_pos (u3 h) py
        have i2 := mul_nonneg px.le w2
        exact add_pos_of_pos_of_nonneg i1 i2
      · have i1 := mul_nonneg u2 py.le
        have i2 := mul_pos px (w3 h)
        exact add_pos_of_nonneg_of_pos i1 i2

omit hv hm hr he h1 h2 h3

/-- the point lies strictly inside the panel or strictly outside -/
def OffEdge (p : Panel) (q : ℝ × ℝ) : Prop :=
  (p.low.1 < q.1 ∧ q.1 < p.high.1 ∧ p.low.2 < q.2 ∧ q.2 < p.high.2) ∨ q.1 < p.low.1 ∨ p.high.1 < q.1 ∨ q.2 < p.low.2 ∨ p.high.2 < q.2

/-- **C110: realistic validation.** There the answers do not change at all with small changes of position or size, whenever the point is not on the edge: derivatives are zero and nothing could be learnt. -/
theorem realistic_flat (ht : p.training = false) (hr : p.realistic = true) (hq : OffEdge p q) (P : ℝ → Panel) (t0 : ℝ) (h0 : P t0 = p)
    (hsame : ∀ t, P t = { p with xy := (P t).xy, span := (P t).span, budgetScale := (P t).budgetScale })
    (hx : ContinuousAt (fun t => (P t).xy) t0) (hs : ContinuousAt (fun t => (P t).span) t0) (hb : ContinuousAt (fun t => (P t).budgetScale) t0) :
    ∃ r e, ∀ᶠ t in 𝓝 t0, (P t).getResolution q none = .ok r ∧ (P t).getEfficiency q none = .ok e := by
  have c1 : ContinuousAt (fun t => (P t).low.1) t0 := (continuous_fst.continuousAt.comp hx).sub (((continuous_fst.continuousAt.comp hs).mul hb).div_const 2)
  have c2 : ContinuousAt (fun t => (P t).low.2) t0 := (continuous_snd.continuousAt.comp hx).sub (((continuous_snd.continuousAt.comp hs).mul hb).div_const 2)
  have c3 : ContinuousAt (fun t => (P t).high.1) t0 := (continuous_fst.continuousAt.comp hx).add (((continuous_fst.continuousAt.comp hs).mul hb).div_const 2)
  have c4 : ContinuousAt (fun t => (P t).high.2) t0 := (continuous_snd.continuousAt.comp hx).add (((continuous_snd.continuousAt.comp hs).mul hb).div_const 2)
  have hm : ∀ᶠ t in 𝓝 t0, (P t).xyMask q = p.xyMask q := by
    unfold OffEdge at hq
    rw [← h0] at hq ⊢
    unfold Panel.xyMask
    rcases hq with ⟨a, b, c, d⟩ | a | a | a | a
    · filter_upwards [c1.eventually (gt_mem_nhds a), c3.eventually (lt_mem_nhds b), c2.eventually (gt_mem_nhds c), c4.eventually (lt_mem_nhds d)] with t e1 e2 e3 e4
      simp [e1.le, e2, e3.le, e4, a.le, b, c.le, d]
    · filter_upwards [c1.eventually (lt_mem_nhds a)] with t e
      simp [not_le.mpr e, not_le.mpr a]
    · filter_upwards [c3.eventually (gt_mem_nhds a)] with t e
      simp [not_lt.mpr e.le, not_lt.mpr a.le]
    · filter_upwards [c2.eventually (lt_mem_nhds a)] with t e
      simp [not_le.mpr e, not_le.mpr a]
    · filter_upwards [c4.eventually (gt_mem_nhds a)] with t e
      simp [not_lt.mpr e.le, not_lt.mpr a.le]
  refine ⟨if p.xyMask q then (p.res, p.res) else (0, 0), if p.xyMask q then p.eff else 0, ?_⟩
  filter_upwards [hm] with t h
  have hc : (P t).continuous = false := by rw [hsame t]; simp [Panel.continuous, ht, hr]
  have e1 : (P t).res = p.res := by rw [hsame t]
  have e2 : (P t).eff = p.eff := by rw [hsame t]
  unfold Panel.getResolution Panel.getEfficiency Panel.resAt Panel.effAt
  simp only [hc, Bool.false_eq_true, if_false, Option.getD_none, h, e1, e2]
  exact ⟨trivial, trivial⟩

/-- **C110 (violated at one point).** For a muon in the very middle of a sigmoid panel the efficiency is not differentiable in the position of the panel: it has a peak with a corner. -/
theorem middle_violated : ∃ p : Panel, C23.Valid p ∧ p.training = true ∧ ∀ ef : ℝ → ℝ, (∀ c, (movedX p c).getEfficiency p.xy none = .ok (ef c)) → ¬ DifferentiableAt ℝ ef p.xy.1 := by
  refine ⟨⟨.sigmoid 1, 1000, 1, 1, (0, 0), 1, (2, 2), 1, true, true⟩, ⟨by norm_num, by norm_num, by simp [Panel.scaledSpan], by simp [Panel.scaledSpan], show (0 : ℝ) < 1 by norm_num⟩, rfl, ?_⟩
  intro ef hef hd
  set p : Panel := ⟨.sigmoid 1, 1000, 1, 1, (0, 0), 1, (2, 2), 1, true, true⟩ with hp
  have hval : ∀ c, ef c = max (Panel.sigm (1 - |c|) / Panel.sigm 1) 1e-10 := by
    intro c
    obtain ⟨-, a⟩ := answer (movedX p c) (by simp [movedX, hp, Panel.scaledSpan]) (by simp [movedX, hp, Panel.scaledSpan]) (Or.inl rfl) p.xy
    rw [hef c] at a
    simp only [Except.ok.injEq] at a
    rw [a]
    have r1 : Panel.ratio (.sigmoid 1) c 2 0 = Panel.sigm (1 - |c|) / Panel.sigm 1 := by
      simp only [Panel.ratio, Panel.sigRatio_eq _ _ _ _ two_pos]
      simp
    have r2 : Panel.ratio (.sigmoid 1) 0 2 0 = 1 := Panel.ratio_centre _ _ _ two_pos
    simp only [effVal, movedX, hp, Panel.scaledSpan, mul_one, one_mul, r1, r2]
  -- at the middle the efficiency is largest, so a derivative there would be zero
  have h0 : ef 0 = 1 := by
    rw [hval]
    simp only [abs_zero, sub_zero]
    rw [div_self (Panel.sigm_pos _).ne']
    norm_num
  have hloc : IsLocalMax ef 0 := by
    refine Eventually.of_forall fun c => ?_
    rw [h0, hval]
    refine max_le ?_ (by norm_num)
    rw [div_le_one (Panel.sigm_pos _)]
    exact Panel.sigm_le (by have := abs_nonneg c; linarith)
  have hz := hloc.deriv_eq_zero
  have hder : HasDerivAt ef 0 0 := by
    have := hd.hasDerivAt
    rw [show p.xy.1 = 0 from rfl, hz] at this
    exact this
  -- on the right it agrees with a function whose derivative is not zero
  obtain ⟨d, dpos, hsig⟩ := sigm_deriv 1
  have hg : HasDerivAt (fun c : ℝ => Panel.sigm (1 - c) / Panel.sigm 1) (d * -1 / Panel.sigm 1) 0 := by
    have := HasDerivAt.comp (h := fun c : ℝ => 1 - c) (0 : ℝ) (h₂ := Panel.sigm) (by simpa using hsig) ((hasDerivAt_id (0 : ℝ)).const_sub 1)
    exact this.div_const _
  have hw1 : HasDerivWithinAt (fun c : ℝ => Panel.sigm (1 - c) / Panel.sigm 1) 0 (Set.Ici 0) 0 := by
    refine hder.hasDerivWithinAt.congr_of_eventuallyEq ?_ ?_
    · have hcont : ∀ᶠ c in 𝓝 (0 : ℝ), 1e-10 < Panel.sigm (1 - c) / Panel.sigm 1 := by
        refine hg.continuousAt.eventually (lt_mem_nhds ?_)
        simp only [sub_zero]
        rw [div_self (Panel.sigm_pos _).ne']
        norm_num
      filter_upwards [self_mem_nhdsWithin, mem_nhdsWithin_of_mem_nhds hcont] with c hc hc'
      rw [hval, abs_of_nonneg hc, max_eq_left (le_of_lt hc')]
    · rw [h0]
      simp only [sub_zero]
      exact div_self (Panel.sigm_pos _).ne'
  have huniq := (uniqueDiffOn_Ici (0 : ℝ) 0 Set.self_mem_Ici).eq_deriv _ hw1 hg.hasDerivWithinAt
  have hpos := Panel.sigm_pos 1
  have : 0 < d / Panel.sigm 1 := div_pos dpos hpos
  have e : d * -1 / Panel.sigm 1 = -(d / Panel.sigm 1) := by ring
  rw [e] at huniq
  linarith

/-- A Gaussian panel in training and a muon beside its middle: the conditions of `position` and `size` are met. -/
example : let p : Panel := ⟨.gauss, 1000, 1, 1, (0, 0), 1, (4, 4), 1, true, true⟩
    C23.Valid p ∧ 0 < p.budgetScale ∧ ∃ r e, p.getResolution (1, 1) none = .ok r ∧ p.getEfficiency (1, 1) none = .ok e ∧ 1e-10 < r.1 ∧ 1e-10 < r.2 ∧ 1e-10 < e ∧ (1, 1) ≠ p.xy := by
  intro p
  have hv : C23.Valid p := ⟨by norm_num [p], by norm_num [p], by simp [p, Panel.scaledSpan], by simp [p, Panel.scaledSpan], trivial⟩
  obtain ⟨a, b⟩ := answer p hv.spanX hv.spanY (Or.inl rfl) (1, 1)
  have hr : Panel.ratio .gauss 0 4 1 = exp (-(1 / 2)) := by
    simp only [Panel.ratio, Panel.gaussRatio_eq]
    norm_num
  have he : 1 / 2 ≤ exp (-(1 / 2) : ℝ) := by
    have := add_one_le_exp (-(1 / 2) : ℝ)
    linarith
  have hx : Panel.ratio p.kind p.xy.1 p.scaledSpan.1 (1, 1).1 = exp (-(1 / 2)) := by simp only [p, Panel.scaledSpan, mul_one, hr]
  have hy : Panel.ratio p.kind p.xy.2 p.scaledSpan.2 (1, 1).2 = exp (-(1 / 2)) := by simp only [p, Panel.scaledSpan, mul_one, hr]
  rw [hx, hy] at a b
  refine ⟨hv, one_pos, _, _, a, b, ?_, ?_, ?_, by simp [p]⟩
  · refine lt_max_of_lt_left ?_
    simp only [p]
    linarith
  · refine lt_max_of_lt_left ?_
    simp only [p]
    linarith
  · simp only [p, effVal, one_mul]
    nlinarith

/-- A panel in realistic validation whose middle moves with `t`. -/
example : let p : Panel := ⟨.sigmoid 0.2, 1000, 0.9, 1, (0, 0), 1, (1, 1), 1, true, false⟩
    OffEdge p (0.2, 0.3) ∧ movedX p 0 = p ∧ ∀ t, movedX p t = { p with xy := (movedX p t).xy, span := (movedX p t).span, budgetScale := (movedX p t).budgetScale } := by
  refine ⟨Or.inl ?_, rfl, fun _ => rfl⟩
  simp only [Panel.low, Panel.high, Panel.scaledSpan]
  norm_num

end C110

end

end Tomopt
