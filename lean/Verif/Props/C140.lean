import Verif.Model.RoundedBudget
import Verif.Lemmas.Within
import Verif.Lemmas.Floats
import Verif.Lemmas.RoundedGen
import Mathlib.Analysis.Complex.ExponentialBounds

/-
Property theorems: C140, budgets in floating point.
-/
namespace Tomopt

noncomputable section

namespace C140

open Infer Budget Floats Real C135

/-- A panel with a size and a price. -/
structure Priced (p : Panel) : Prop where
  price : 0 < p.m2cost
  x : 0 < p.span.1
  y : 0 < p.span.2

/-- what a panel costs: its area times the price of a square metre, for the size it has -/
def cost (fl : ℝ → ℝ) (p : Panel) : ℝ := p.m2cost * ((spanFl fl p).1 * (spanFl fl p).2)

/-- What a routine for exponentials must do for `spent`: no negative results, and one at zero. Results may underflow to zero. -/
structure Exps (ex : ℝ → ℝ) : Prop where
  nonneg : ∀ y, 0 ≤ ex y
  zero : ex 0 = 1

variable {ε b : ℝ} {fl ex : ℝ → ℝ} {D : Nat → Nat} {sm : List ℝ → ℝ} {w : List ℝ} {ps : List Panel}

/-! ### Helpers -/

theorem foldl_max : ∀ (l : List ℝ) (a : ℝ), a ≤ l.foldl max a ∧ (∀ x ∈ l, x ≤ l.foldl max a) ∧ (l.foldl max a = a ∨ l.foldl max a ∈ l)
  | [], a => by simp
  | y :: l, a => by
    obtain ⟨h1, h2, h3⟩ := foldl_max l (max a y)
    simp only [List.foldl_cons, List.mem_cons]
    refine ⟨le_trans (le_max_left _ _) h1, ?_, ?_⟩
    · rintro x (rfl | hx)
      · exact le_trans (le_max_right _ _) h1
      · exact h2 x hx
    · rcases h3 with h | h
      · rcases max_choice a y with e | e <;> rw [e] at h ⊢ <;> simp [h]
      · exact Or.inr (Or.inr h)

theorem le_top : ∀ {w : List ℝ}, ∀ x ∈ w, x ≤ top w
  | a :: l, x, hx => by
    obtain ⟨h1, h2, -⟩ := foldl_max l a
    simp only [List.mem_cons] at hx
    rcases hx with rfl | hx
    · exact h1
    · exact h2 x hx

theorem top_mem : ∀ {w : List ℝ}, w ≠ [] → top w ∈ w
  | a :: l, _ => by
    obtain ⟨-, -, h3⟩ := foldl_max l a
    simp only [top, List.tail_cons, List.headD_cons, List.mem_cons]
    exact h3

theorem fl_zero (hr : Rounds ε fl) : fl 0 = 0 := by
  have := hr.rel 0
  simpa using this

theorem exps_nonneg (he : Exps ex) : ∀ e ∈ expsFl fl ex w, 0 ≤ e := by
  intro e h
  obtain ⟨x, -, rfl⟩ := List.mem_map.mp h
  exact he.nonneg _

theorem exps_pos (hr : Rounds ε fl) (he : Exps ex) (hw : w ≠ []) : 0 < (expsFl fl ex w).sum := by
  have h1 : (1 : ℝ) ∈ expsFl fl ex w := List.mem_map.mpr ⟨top w, top_mem hw, by rw [sub_self, fl_zero hr, he.zero]⟩
  have := List.single_le_sum (exps_nonneg he) 1 h1
  linarith

/-- one share -/
theorem share_within (hr : Rounds ε fl) {k : Nat} {e e' S S' : ℝ} (hb : 0 < b) (he : 0 ≤ e) (he' : 0 ≤ e') (hS : 0 < S) (hS' : 0 < S') {j : Nat} (h1 : Within ε j e e')
    (h2 : Within ε k S S') : Within ε (j + k + 2) (fl (b * fl (e / S))) (b * (e' / S')) := by
  have a := Within.round (fl := fl) hr (div_nonneg he hS.le) (Within.div hr he he' hS hS' h1 h2)
  have c := Within.mul hr hb.le hb.le (Within.fl_nonneg hr (div_nonneg he hS.le)) (div_nonneg he' hS'.le) (Within.refl hr 0 hb.le) a
  have d := Within.round (fl := fl) hr (mul_nonneg hb.le (Within.fl_nonneg hr (div_nonneg he hS.le))) c
  rwa [show 0 + (j + k + 1) + 1 = j + k + 2 by ring] at d

theorem price_within (hr : Rounds ε fl) {p : Panel} (hp : Priced p) : 0 < fl (p.m2cost * fl (p.span.1 * p.span.2)) ∧
    Within ε 2 (fl (p.m2cost * fl (p.span.1 * p.span.2))) (p.m2cost * (p.span.1 * p.span.2)) := by
  have h0 := mul_pos hp.x hp.y
  have h1 := Within.fl_pos hr h0
  have h2 := mul_pos hp.price h1
  refine ⟨Within.fl_pos hr h2, Within.round (fl := fl) hr h2.le ?_⟩
  simpa using Within.mul hr hp.price.le hp.price.le h1.le h0.le (Within.refl hr 0 hp.price.le) (Within.round_one hr h0.le)

/-- the cost of a panel which was given a share -/
theorem cost_within (hr : Rounds ε fl) {p : Panel} (hp : Priced p) {s : ℝ} (hs : 0 ≤ s) : 0 ≤ cost fl (assignFl fl p s) ∧ Within ε 8 (cost fl (assignFl fl p s)) s := by
  obtain ⟨q0, q⟩ := price_within hr hp
  have c0 : 0 < p.m2cost * (p.span.1 * p.span.2) := mul_pos hp.price (mul_pos hp.x hp.y)
  have d0 := div_nonneg hs q0.le
  have d := Within.round (fl := fl) hr d0 (Within.div hr hs hs q0 c0 (Within.refl hr 0 hs) q)
  have d' := Within.mono hr (show 0 + 2 + 1 ≤ 2 * 2 by norm_num) (Within.fl_nonneg hr d0) (div_nonneg hs c0.le) d
  have r := Within.round (fl := fl) hr (sqrt_nonneg _) (Within.sqrt hr d')
  have r0 := Within.fl_nonneg (fl := fl) hr (sqrt_nonneg (fl (s / fl (p.m2cost * fl (p.span.1 * p.span.2)))))
  set k := fl (sqrt (fl (s / fl (p.m2cost * fl (p.span.1 * p.span.2))))) with hk
  have x := Within.round (fl := fl) hr (mul_nonneg hp.x.le r0) (Within.mul hr hp.x.le hp.x.le r0 (sqrt_nonneg _) (Within.refl hr 0 hp.x.le) r)
  have y := Within.round (fl := fl) hr (mul_nonneg hp.y.le r0) (Within.mul hr hp.y.le hp.y.le r0 (sqrt_nonneg _) (Within.refl hr 0 hp.y.le) r)
  have x0 := Within.fl_nonneg (fl := fl) hr (mul_nonneg hp.x.le r0)
  have y0 := Within.fl_nonneg (fl := fl) hr (mul_nonneg hp.y.le r0)
  have xy := Within.mul hr x0 (mul_nonneg hp.x.le (sqrt_nonneg _)) y0 (mul_nonneg hp.y.le (sqrt_nonneg _)) x y
  have z := Within.mul hr hp.price.le hp.price.le (mul_nonneg x0 y0) (mul_nonneg (mul_nonneg hp.x.le (sqrt_nonneg _)) (mul_nonneg hp.y.le (sqrt_nonneg _))) (Within.refl hr 0 hp.price.le) xy
  refine ⟨mul_nonneg hp.price.le (mul_nonneg x0 y0), ?_⟩
  have e : p.m2cost * (p.span.1 * √(s / (p.m2cost * (p.span.1 * p.span.2))) * (p.span.2 * √(s / (p.m2cost * (p.span.1 * p.span.2))))) = s := by
    have h := mul_self_sqrt (div_nonneg hs c0.le)
    calc p.m2cost * (p.span.1 * √(s / (p.m2cost * (p.span.1 * p.span.2))) * (p.span.2 * √(s / (p.m2cost * (p.span.1 * p.span.2)))))
        = p.m2cost * (p.span.1 * p.span.2) * (√(s / (p.m2cost * (p.span.1 * p.span.2))) * √(s / (p.m2cost * (p.span.1 * p.span.2)))) := by ring
      _ = s := by rw [h, mul_div_cancel₀ _ c0.ne']
  rw [e] at z
  exact z

theorem costFl_within (hr : Rounds ε fl) {p : Panel} (hp : Priced p) {s : ℝ} (hs : 0 ≤ s) : 0 ≤ costFl fl (assignFl fl p s) ∧ Within ε 10 (costFl fl (assignFl fl p s)) s := by
  obtain ⟨h0, h⟩ := cost_within (fl := fl) hr hp hs
  have hxy : 0 ≤ (spanFl fl (assignFl fl p s)).1 * (spanFl fl (assignFl fl p s)).2 := by
    have : 0 ≤ p.m2cost * ((spanFl fl (assignFl fl p s)).1 * (spanFl fl (assignFl fl p s)).2) := h0
    exact nonneg_of_mul_nonneg_right this hp.price
  have a := Within.mul hr hp.price.le hp.price.le (Within.fl_nonneg hr hxy) hxy (Within.refl hr 0 hp.price.le) (Within.round_one hr hxy)
  have c := Within.round (fl := fl) hr (mul_nonneg hp.price.le (Within.fl_nonneg hr hxy)) a
  exact ⟨Within.fl_nonneg hr (mul_nonneg hp.price.le (Within.fl_nonneg hr hxy)), Within.trans hr c h⟩

theorem shares_length : (sharesFl fl ex sm b w).length = w.length := by simp [sharesFl, expsFl]

theorem sum_pos (hr : Rounds ε fl) (hs : Summation fl D sm) (he : Exps ex) (hw : w ≠ []) : 0 < sm (expsFl fl ex w) :=
  Within.pos hr (Within.summed hr hs _ (exps_nonneg he)) (exps_pos hr he hw)

theorem share_get (i : Nat) (hi : i < w.length) : (sharesFl fl ex sm b w)[i]? = some (fl (b * fl (ex (fl (w[i] - top w)) / sm (expsFl fl ex w)))) := by
  simp [sharesFl, expsFl, List.getElem?_eq_getElem hi]

theorem share_nonneg (hr : Rounds ε fl) (hs : Summation fl D sm) (he : Exps ex) (hw : w ≠ []) (hb : 0 < b) : ∀ s ∈ sharesFl fl ex sm b w, 0 ≤ s := by
  intro s h
  obtain ⟨e, h1, rfl⟩ := List.mem_map.mp h
  exact Within.fl_nonneg hr (mul_nonneg hb.le (Within.fl_nonneg hr (div_nonneg (exps_nonneg he e h1) (sum_pos hr hs he hw).le)))

theorem shares_within (hr : Rounds ε fl) (hs : Summation fl D sm) (he : Exps ex) (hw : w ≠ []) (hb : 0 < b) : Within ε (D w.length + 2) (sharesFl fl ex sm b w).sum b := by
  have h1 := Within.summed hr hs (expsFl fl ex w) (exps_nonneg he)
  have hl : (expsFl fl ex w).length = w.length := by simp [expsFl]
  rw [hl] at h1
  have hp := exps_pos (w := w) hr he hw
  have h2 := Within.sum (ε := ε) (k := D w.length + 2) (fun e => fl (b * fl (e / sm (expsFl fl ex w)))) (fun e => b * (e / (expsFl fl ex w).sum)) (expsFl fl ex w) (fun e h => by
    have h0 := exps_nonneg he e h
    have := share_within hr hb h0 h0 (sum_pos (w := w) hr hs he hw) hp (Within.refl hr 0 h0) h1
    rwa [Nat.zero_add] at this)
  have e : ((expsFl fl ex w).map fun e => b * (e / (expsFl fl ex w).sum)).sum = b := by
    rw [List.sum_map_mul_left, show (fun e : ℝ => e / (expsFl fl ex w).sum) = fun e => e * (expsFl fl ex w).sum⁻¹ from funext fun e => div_eq_mul_inv _ _, List.sum_map_mul_right]
    simp only [List.map_id']
    rw [mul_inv_cancel₀ hp.ne', mul_one]
  rw [e] at h2
  exact h2

theorem zip_within {k : Nat} (f : Panel → ℝ) : ∀ (ps : List Panel) (ss : List ℝ), ps.length = ss.length → (∀ p ∈ ps, ∀ s ∈ ss, Within ε k (f (assignFl fl p s)) s) →
    Within ε k ((List.zipWith (assignFl fl) ps ss).map f).sum ss.sum
  | [], [], _, _ => by simp [Within]
  | p :: ps, s :: ss, hl, h => by
    simp only [List.zipWith_cons_cons, List.map_cons, List.sum_cons]
    exact Within.add (h p (by simp) s (by simp)) (zip_within f ps ss (by simpa using hl) fun p hp s hs => h p (by simp [hp]) s (by simp [hs]))

/-! ### The property -/

/-- **C140.** Whatever the weights, the panels and their prices: what the panels cost in total, for the sizes they really get, and the sum of the costs they report, are the budget up
to the errors of rounding, `D n + 12` of them, where `D n` is the number of additions one after the other. Exponentials may be inaccurate or underflow. -/
theorem spent (hr : Rounds ε fl) (hs : Summation fl D sm) (he : Exps ex) (hb : 0 < b) (hw : w ≠ []) (hl : ps.length = w.length) (hp : ∀ p ∈ ps, Priced p)
    (hk : ((D w.length + 12 : Nat) : ℝ) * ε ≤ 1 / 20) :
    |((assignAllFl fl ex sm b w ps).map (cost fl)).sum - b| ≤ 11 / 10 * (((D w.length + 12 : Nat) : ℝ) * ε) * b ∧
    |((assignAllFl fl ex sm b w ps).map (costFl fl)).sum - b| ≤ 11 / 10 * (((D w.length + 12 : Nat) : ℝ) * ε) * b := by
  have hsh := shares_within hr hs he hw hb
  have hn := share_nonneg hr hs he hw hb
  have hl' : ps.length = (sharesFl fl ex sm b w).length := by rw [shares_length, hl]
  have h1 := Within.trans hr (zip_within (ε := ε) (fl := fl) (k := 8) (cost fl) ps _ hl' fun p hp' s hs' => (cost_within hr (hp p hp') (hn s hs')).2) hsh
  have h2 := Within.trans hr (zip_within (ε := ε) (fl := fl) (k := 10) (costFl fl) ps _ hl' fun p hp' s hs' => (costFl_within hr (hp p hp') (hn s hs')).2) hsh
  have n1 : 0 ≤ ((assignAllFl fl ex sm b w ps).map (cost fl)).sum := le_trans (mul_nonneg (Within.pow_pos' hr _).le hb.le) h1.1
  exact ⟨Within.error hr hk hb.le (Within.mono hr (by omega) n1 hb.le h1), Within.error hr hk hb.le (by rwa [show 10 + (D w.length + 2) = D w.length + 12 by ring] at h2)⟩

/-- An accurate routine for exponentials between `-R` and zero. -/
def Accurate (ε : ℝ) (R : Nat) (ex : ℝ → ℝ) : Prop := ∀ y, -(R : ℝ) ≤ y → y ≤ 0 → Within ε 2 (ex y) (exp y)

theorem exp_within (hr : Rounds ε fl) {R : Nat} (hR : R * ε ≤ 1) (ha : Accurate ε (R + 1) ex) {d : ℝ} (h0 : d ≤ 0) (h1 : -(R : ℝ) ≤ d) : Within ε (R + 2) (ex (fl d)) (exp d) := by
  have hd := abs_le.mp (hr.rel d)
  rw [abs_of_nonpos h0] at hd
  have hR0 : (0 : ℝ) ≤ R := Nat.cast_nonneg R
  have hε := hr.nonneg
  have hdR : ε * -d ≤ R * ε := by nlinarith
  have f0 : fl d ≤ 0 := by nlinarith [hd.2, hr.small]
  have f1 : -((R + 1 : Nat) : ℝ) ≤ fl d := by push_cast; linarith [hd.1]
  have h2 := ha _ f1 f0
  have hpow : (1 - ε) ^ R ≤ exp (-(R * ε)) := by
    rw [show -((R : ℝ) * ε) = R * (-ε) by ring, exp_nat_mul]
    exact pow_le_pow_left₀ (by linarith [hr.small]) (by linarith [add_one_le_exp (-ε)]) R
  have h3 : Within ε R (exp (fl d)) (exp d) := by
    constructor
    · calc (1 - ε) ^ R * exp d ≤ exp (-(R * ε)) * exp d := mul_le_mul_of_nonneg_right hpow (exp_pos _).le
        _ = exp (-(R * ε) + d) := (exp_add _ _).symm
        _ ≤ exp (fl d) := exp_le_exp.mpr (by linarith [hd.1])
    · calc (1 - ε) ^ R * exp (fl d) ≤ exp (-(R * ε)) * exp (fl d) := mul_le_mul_of_nonneg_right hpow (exp_pos _).le
        _ = exp (-(R * ε) + fl d) := (exp_add _ _).symm
        _ ≤ exp d := exp_le_exp.mpr (by linarith [hd.2])
  have := Within.trans hr h2 h3
  rwa [Nat.add_comm] at this

/-- the share of a weight does not depend on what is subtracted from all weights -/
theorem softmax_shift (w : List ℝ) (m x : ℝ) : exp (x - m) / (w.map fun x => exp (x - m)).sum = exp x / (w.map exp).sum := by
  have : (w.map fun x => exp (x - m)).sum = (w.map exp).sum * exp (-m) := by
    rw [← List.sum_map_mul_right]
    congr 1
    exact List.map_congr_left fun x _ => by rw [sub_eq_add_neg, exp_add]
  rw [this, sub_eq_add_neg, exp_add, mul_div_mul_right _ _ (exp_pos _).ne']

/-- **C140.** Each panel costs what its weight says: the budget times `exp w / Σ exp w`, up to `D n + 2 R + 14` errors of rounding, where no weight is more than `R` below the largest. -/
theorem share (hr : Rounds ε fl) (hs : Summation fl D sm) (he : Exps ex) {R : Nat} (ha : Accurate ε (R + 1) ex) (hb : 0 < b) (hR : ∀ x ∈ w, top w - R ≤ x)
    (hl : ps.length = w.length) (hp : ∀ p ∈ ps, Priced p) (hk : ((D w.length + 2 * R + 14 : Nat) : ℝ) * ε ≤ 1 / 20) (i : Nat) (hi : i < w.length) :
    ∃ p, (assignAllFl fl ex sm b w ps)[i]? = some p ∧
      |cost fl p - b * (exp w[i] / (w.map exp).sum)| ≤ 11 / 10 * (((D w.length + 2 * R + 14 : Nat) : ℝ) * ε) * (b * (exp w[i] / (w.map exp).sum)) := by
  have hw : w ≠ [] := by rintro rfl; simp at hi
  have hRe : (R : ℝ) * ε ≤ 1 := by
    have : (R : ℝ) ≤ ((D w.length + 2 * R + 14 : Nat) : ℝ) := by exact_mod_cast (by omega : R ≤ D w.length + 2 * R + 14)
    nlinarith [hr.nonneg]
  have hx : ∀ x ∈ w, Within ε (R + 2) (ex (fl (x - top w))) (exp (x - top w)) := fun x h => exp_within hr hRe ha (by linarith [le_top x h]) (by linarith [hR x h])
  have hS := Within.summed' hr hs (fun x => ex (fl (x - top w))) (fun x => exp (x - top w)) w (fun x _ => he.nonneg _) hx
  have hS0 : 0 < (w.map fun x => exp (x - top w)).sum := List.sum_pos _ (by intro y hy; obtain ⟨x, -, rfl⟩ := List.mem_map.mp hy; exact exp_pos _) (by simpa using hw)
  have hsm : 0 < sm (w.map fun x => ex (fl (x - top w))) := Within.pos hr hS hS0
  have hsh := share_within hr hb (he.nonneg (fl (w[i] - top w))) (exp_pos _).le hsm hS0 (hx w[i] (List.getElem_mem hi)) hS
  rw [softmax_shift] at hsh
  have hi' : i < ps.length := by omega
  refine ⟨assignFl fl ps[i] (fl (b * fl (ex (fl (w[i] - top w)) / sm (w.map fun x => ex (fl (x - top w)))))), ?_, ?_⟩
  · simp [assignAllFl, sharesFl, expsFl, List.getElem?_zipWith, List.getElem?_eq_getElem hi, List.getElem?_eq_getElem hi']
  · obtain ⟨c0, c⟩ := cost_within (fl := fl) hr (hp ps[i] (List.getElem_mem hi')) (Within.fl_nonneg hr (mul_nonneg hb.le (Within.fl_nonneg hr (div_nonneg (he.nonneg (fl (w[i] - top w))) hsm.le))))
    have := Within.trans hr c hsh
    rw [show 8 + (R + 2 + (D w.length + (R + 2)) + 2) = D w.length + 2 * R + 14 by ring] at this
    exact Within.error hr hk (mul_nonneg hb.le (div_nonneg (exp_pos _).le (List.sum_nonneg (by intro y hy; obtain ⟨x, -, rfl⟩ := List.mem_map.mp hy; exact (exp_pos _).le)))) this

/-- **C140.** Rounding never turns preferences around: with rounding to nearest and a routine for exponentials that never falls, a larger weight never gets a smaller share, and equal weights
get equal shares. -/
theorem order {p : Nat} (hp : 1 ≤ p) (hf : Nearest p fl) (hs : Summation fl D sm) (hm : Monotone ex) (he : Exps ex) (hb : 0 ≤ b) (i j : Nat) (hi : i < w.length) (hj : j < w.length) (h : w[i] ≤ w[j]) :
    ∃ s t, (sharesFl fl ex sm b w)[i]? = some s ∧ (sharesFl fl ex sm b w)[j]? = some t ∧ s ≤ t := by
  have hr : Rounds (1 / 2 ^ p) fl := ⟨by positivity, by rw [div_lt_one (by positivity)]; exact one_lt_pow₀ (by norm_num) (by omega), nearest_rel p p hp le_rfl fl hf⟩
  have hw : w ≠ [] := by rintro rfl; simp at hi
  have h0 := (sum_pos (w := w) hr hs he hw).le
  exact ⟨_, _, share_get i hi, share_get j hj, nearest_mono hf (mul_le_mul_of_nonneg_left (nearest_mono hf (div_le_div_of_nonneg_right (hm (nearest_mono hf (by linarith))) h0)) hb)⟩

/-! ### What the code refutes -/

theorem tree_ones {p : Nat} (hf : Nearest p fl) : ∀ t : Tree, (∀ x ∈ t.leaves, x = 1) → t.leaves.length ≤ 2 ^ p → t.eval fl = t.leaves.length
  | .nil, _, _ => by simp [Tree.eval, Tree.leaves]
  | .leaf x, h, _ => by simp [Tree.eval, Tree.leaves, h x (by simp [Tree.leaves])]
  | .node l r, h, hn => by
    simp only [Tree.leaves, List.length_append] at hn
    have h1 := tree_ones hf l (fun x hx => h x (by simp [Tree.leaves, hx])) (by omega)
    have h2 := tree_ones hf r (fun x hx => h x (by simp [Tree.leaves, hx])) (by omega)
    simp only [Tree.eval, Tree.leaves, List.length_append, h1, h2]
    rw [← Nat.cast_add, nearest_self p fl hf]
    have := isFloat_int p ((l.leaves.length + r.leaves.length : Nat) : ℤ) (by rw [Nat.abs_cast]; exact_mod_cast hn)
    simpa using this

/-- **C140 is refuted by the code.** The budget is exceeded: a budget of one shared by three panels with equal weights, as at the start, is handed out in shares which add up to more than one, in
single precision, whatever the order of additions. -/
theorem exceeded_violated (hf : Nearest 24 fl) (hs : Summation fl D sm) (he : Exps ex) : 1 < (sharesFl fl ex sm 1 [0, 0, 0]).sum := by
  have z : fl 0 = 0 := nearest_self 24 fl hf 0 (isFloat_zero 24)
  have e : expsFl fl ex [0, 0, 0] = [1, 1, 1] := by simp [expsFl, top, z, he.zero]
  have t : sm [1, 1, 1] = 3 := by
    obtain ⟨t, h1, -, h3⟩ := hs [1, 1, 1]
    rw [h3, tree_ones hf t (fun x hx => by simpa using h1.mem_iff.mp hx) (by rw [h1.length_eq]; norm_num), h1.length_eq]
    norm_num
  have q : fl (1 / 3) = 11184811 / 2 ^ 25 := by
    have := nearest_eq 24 (by norm_num) fl hf (-2) 11184811 (1 / 3) (by norm_num) (by norm_num) (by norm_num [abs_lt])
    rw [this]
    norm_num
  have q1 : fl (1 * fl (1 / 3)) = 11184811 / 2 ^ 25 := by rw [one_mul, nearest_self 24 fl hf _ (hf _).1, q]
  simp only [sharesFl, e, t, List.map_cons, List.map_nil, q1, List.sum_cons, List.sum_nil]
  norm_num

theorem tiny : exp (-104) < 1 / 2 ^ 150 := by
  have h := exp_one_gt_d9
  have h1 : (2.7182818283 : ℝ) ^ 104 ≤ exp 104 := by
    rw [show (104 : ℝ) = ((104 : Nat) : ℝ) * 1 by norm_num, exp_nat_mul]
    exact pow_le_pow_left₀ (by norm_num) h.le 104
  rw [exp_neg, ← one_div]
  exact one_div_lt_one_div_of_lt (by norm_num) (lt_of_lt_of_le (by norm_num) h1)

/-- **C140 is refuted by the code.** A panel whose weight is 104 or more below the largest vanishes in single precision, where exponentials below half of the smallest number are zero: it has no size, costs
nothing, and no point is on it. If it is a Gaussian panel then training stops with a `ValueError` at the first muons. -/
theorem vanishes_violated (hf : Nearest 24 fl) (hu : ∀ y, exp y < 1 / 2 ^ 150 → ex y = 0) (hl : ps.length = w.length) (i : Nat) (hi : i < w.length) (h : w[i] ≤ top w - 104) :
    ∃ p, (assignAllFl fl ex sm b w ps)[i]? = some p ∧ spanFl fl p = (0, 0) ∧ cost fl p = 0 ∧ (∀ q, p.xyMask q = false) ∧
      (p.kind = .gauss → p.training = true → ∀ noise batch, p.getHits noise batch = .error .valueError) := by
  have z : fl 0 = 0 := nearest_self 24 fl hf 0 (isFloat_zero 24)
  have h1 : fl (w[i] - top w) ≤ -104 := nearest_le 24 fl hf _ _ (by simpa using isFloat_int 24 (-104) (by norm_num)) (by linarith)
  have h2 : ex (fl (w[i] - top w)) = 0 := hu _ (lt_of_le_of_lt (exp_le_exp.mpr h1) tiny)
  have hi' : i < ps.length := by omega
  have e : (assignAllFl fl ex sm b w ps)[i]? = some { ps[i] with budgetScale := 0 } := by
    simp [assignAllFl, sharesFl, expsFl, List.getElem?_zipWith, List.getElem?_eq_getElem hi, List.getElem?_eq_getElem hi', h2, z, assignFl]
  refine ⟨_, e, by simp [spanFl, z], by simp [cost, spanFl, z], fun q => ?_, fun hk ht noise batch => ?_⟩
  · simp only [Panel.xyMask, Panel.low, Panel.high, Panel.scaledSpan, mul_zero, zero_div, sub_zero, add_zero]
    by_cases hq : q.1 < ps[i].xy.1
    · simp [not_le.mpr hq]
    · simp [hq]
  · simp only at hk ht
    simp [Panel.getHits, Panel.continuous, Panel.checkResponse, Panel.checkGauss, Panel.scaledSpan, hk, ht]

/-! ### The hypotheses can be met -/

/-- exponentials in single precision, exact but for underflow -/
def flushed (y : ℝ) : ℝ := if exp y < 1 / 2 ^ 150 then 0 else exp y

theorem flushed_exps : Exps flushed := by
  constructor
  · intro y
    unfold flushed
    split
    · exact le_refl _
    · exact (exp_pos y).le
  · unfold flushed
    rw [if_neg (by norm_num [exp_zero])]
    exact exp_zero

/-- two square panels of a square metre which cost one and two per square metre -/
def pair : List Panel := [⟨.gauss, 1000, 1, 1, (0, 0), 1, (1, 1), 1, true, true⟩, ⟨.gauss, 1000, 1, 2, (0, 0), 0, (1, 1), 1, true, true⟩]

theorem pair_priced : ∀ p ∈ pair, Priced p := by
  intro p hp
  simp only [pair, List.mem_cons, List.not_mem_nil, or_false] at hp
  rcases hp with rfl | rfl <;> exact ⟨by norm_num, by norm_num, by norm_num⟩

/-- There is a rounding to nearest and a routine for sums, and a budget of ten is spent on two panels with weights 0 and -104, the second of which vanishes. -/
example : ∃ fl : ℝ → ℝ, ∃ sm : List ℝ → ℝ, |((assignAllFl fl flushed sm 10 [0, -104] pair).map (cost fl)).sum - 10| ≤ 11 / 10 * (14 * (1 / 2 ^ 24)) * 10 ∧
    ∃ p, (assignAllFl fl flushed sm 10 [0, -104] pair)[1]? = some p ∧ cost fl p = 0 := by
  obtain ⟨fl, hf⟩ := rounding_exists 24 (by norm_num)
  have hr : Rounds (1 / 2 ^ 24) fl := ⟨by norm_num, by norm_num, nearest_rel 24 24 (by norm_num) le_rfl fl hf⟩
  obtain ⟨sm, hs⟩ : ∃ sm, Summation fl (fun n => n) sm := by
    have : ∀ xs : List ℝ, ∃ t : Tree, t.leaves = xs ∧ t.depth ≤ xs.length := by
      intro xs
      induction xs with
      | nil => exact ⟨.nil, rfl, le_refl _⟩
      | cons x xs ih =>
        obtain ⟨t, h1, h2⟩ := ih
        exact ⟨.node (.leaf x) t, by simp [Tree.leaves, h1], by simp [Tree.depth]; omega⟩
    choose t h1 h2 using this
    exact ⟨fun xs => (t xs).eval fl, fun xs => ⟨t xs, by rw [h1], h2 xs, rfl⟩⟩
  refine ⟨fl, sm, ?_, ?_⟩
  · have := (spent (b := 10) (w := [0, -104]) (ps := pair) hr hs flushed_exps (by norm_num) (by simp) rfl pair_priced (by norm_num)).1
    norm_num at this ⊢
    exact this
  · obtain ⟨p, h1, -, h3, -⟩ := vanishes_violated (b := 10) (ex := flushed) (sm := sm) (w := [0, -104]) (ps := pair) hf (fun y hy => by unfold flushed; rw [if_pos hy]) rfl 1 (by simp)
      (by norm_num [top])
    exact ⟨p, h1, h3⟩

/-- The exponential itself is an accurate routine, and it never falls. -/
example (R : Nat) : Accurate (1 / 2 ^ 24) R exp ∧ Monotone exp ∧ Exps exp :=
  ⟨fun y _ _ => ⟨by nlinarith [exp_pos y], by nlinarith [exp_pos y]⟩, exp_monotone, ⟨fun y => (exp_pos y).le, exp_zero⟩⟩

end C140

end

end Tomopt
