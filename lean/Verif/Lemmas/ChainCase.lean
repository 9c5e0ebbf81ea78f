import Verif.Lemmas.ChainBatch
import Verif.Lemmas.Normal

/- Helper lemmas: a detector of four panels, the highest of which moves, and muons that fly straight down through their middles; the noise of the panels gives them slanted tracks. -/
namespace Tomopt

noncomputable section
open Real Filter Topology Scatter Uncert Chain

namespace C121

/-- heights of the panels -/
def level : Plane 2 2 → ℝ → ℝ
  | .inl 0, t => 3 + t
  | .inl 1, _ => 1
  | .inr 0, _ => 0
  | .inr 1, _ => -1

/-- the panels -/
def four (p : Plane 2 2) (t : ℝ) : Panel := C109.around 1 (level p t)

/-- a muon flying straight down through the middles of the panels -/
def middle : Muon := { x := 0, y := 0, z := 4, p := 1, th := 0, ph := 0, id := 0 }

/-- the noise of the second panel above is `c` in x, that of the second panel below 1 -/
def shot (c : ℝ) : Ray 2 2 where
  muon _ := middle
  noise
    | .inl 1 => (c, 0)
    | .inr 1 => (1, 0)
    | _ => (0, 0)
  mom := 1

theorem middle_crossing (h : ℝ) : crossing middle h = (0, 0) := by simp [crossing, middle]

theorem around_centre (h : ℝ) (b : Bool) : (C109.around 1 h).resAt (0, 0) b = (1, 1) ∧ (C109.around 1 h).effAt (0, 0) b = 1 := by
  have hc : (C109.around 1 h).continuous = true := rfl
  have rx : Panel.ratio .gauss 0 1 0 = 1 := Panel.ratio_centre _ _ _ one_pos
  constructor
  · unfold Panel.resAt
    rw [if_pos hc]
    simp only [C109.around, Panel.scaledSpan, mul_one, rx]
    norm_num
  · unfold Panel.effAt
    rw [if_pos hc]
    simp only [C109.around, Panel.scaledSpan, mul_one, rx]

theorem around_middle (h : ℝ) (N : ℝ × ℝ) : (C109.around 1 h).recoX N middle = (.num N.1, .num N.2, .num h) ∧ (C109.around 1 h).uncX middle = (.num 1, .num 1, .num 0) ∧
    (C109.around 1 h).effX middle = .num 1 := by
  have hz : (C109.around 1 h).z = h := rfl
  have ht : (C109.around 1 h).training = true := rfl
  have hadd : ∀ l x e : ℝ, l + (x - l + e) = x + e := fun l x e => by ring
  refine ⟨?_, ?_, ?_⟩
  · simp only [Panel.recoX, hz, middle_crossing, (around_centre h _).1, Panel.recoCoord, ht, Bool.not_true, Bool.false_and, Bool.false_eq_true, if_false, XF.quot, ne_eq, one_ne_zero, not_false_eq_true,
      if_true, XF.addR, hadd, div_one, zero_add]
  · simp only [Panel.uncX, hz, middle_crossing, (around_centre h _).1, XF.quot, ne_eq, one_ne_zero, not_false_eq_true, if_true, div_one]
  · simp only [Panel.effX, hz, middle_crossing, (around_centre h _).2]

theorem four_hits (c t : ℝ) : hits four (shot c) t = fun k => match k.2 with
    | 0 => ((shot c).noise k.1).1
    | 1 => ((shot c).noise k.1).2
    | 2 => level k.1 t := by
  funext ⟨p, i⟩
  have := (around_middle (level p t) ((shot c).noise p)).1
  fin_cases i <;> simp only [hits, four, shot] <;> erw [this] <;> rfl

theorem four_uncs (c t : ℝ) : uncs four (shot c) t = fun k => if k.2 = 2 then 0 else 1 := by
  funext ⟨p, i⟩
  have := (around_middle (level p t) ((shot c).noise p)).2.1
  fin_cases i <;> simp only [uncs, four, shot] <;> erw [this] <;> simp [comp, num]

theorem four_wgts (c t : ℝ) : wgts four (shot c) t = fun _ => 1 := by
  funext ⟨p, i⟩
  have h1 := (around_middle (level p t) ((shot c).noise p)).2.1
  have h2 := (around_middle (level p t) ((shot c).noise p)).2.2
  have : scaleUnc ((four p t).uncX ((shot c).muon p)) ((four p t).effX ((shot c).muon p)) = (.num 1, .num 1, .num 0) := by
    have e1 : (four p t).uncX ((shot c).muon p) = (.num 1, .num 1, .num 0) := h1
    have e2 : (four p t).effX ((shot c).muon p) = .num 1 := h2
    rw [e1, e2]
    simp [scaleUnc, XF.div, XF.quot]
  fin_cases i <;> simp only [wgts, this] <;> rfl

/-- the fit to two hits goes through both -/
theorem trk_two {n n' : Nat} (f : Fin 2 → Plane n n') (h : Coords n n') (w : Scaled n n') (hw : ∀ k c, 0 < w (f k, c)) (hz : h (f 0, 2) ≠ h (f 1, 2)) :
    trk le_rfl f h w = ((h (f 1, 0) - h (f 0, 0), h (f 1, 1) - h (f 0, 1), h (f 1, 2) - h (f 0, 2)), (h (f 0, 0), h (f 0, 1), h (f 0, 2))) := by
  have fl : ∀ (c : Fin 3) (c' : Fin 2) (i : Fin 2), C111.fitted (fun k => h (f k, c)) (fun k => h (f k, 2)) (fun k => w (f k, c')) (h (f i, 2)) = h (f i, c) := by
    intro c c' i
    obtain ⟨s1, s2⟩ := C106.share_line (fun k => h (f k, 2)) (fun k => w (f k, c')) (fun k => hw k c') _ _ hz (h (f i, 2))
    unfold C111.fitted
    simp only [Fin.sum_univ_two] at s1 s2 ⊢
    generalize C106.share (fun k => h (f k, 2)) (fun k => w (f k, c')) (h (f i, 2)) 0 = a at *
    generalize C106.share (fun k => h (f k, 2)) (fun k => w (f k, c')) (h (f i, 2)) 1 = b at *
    have hd : h (f 0, 2) - h (f 1, 2) ≠ 0 := sub_ne_zero.mpr hz
    fin_cases i <;> simp only [Fin.zero_eta, Fin.mk_one, Fin.isValue] at s2 ⊢
    · have hb : b = 0 := by
        have : b * (h (f 0, 2) - h (f 1, 2)) = 0 := by linear_combination h (f 0, 2) * s1 - s2
        exact (mul_eq_zero.mp this).resolve_right hd
      have ha : a = 1 := by linarith
      rw [ha, hb]; ring
    · have ha : a = 0 := by
        have : a * (h (f 0, 2) - h (f 1, 2)) = 0 := by linear_combination s2 - h (f 1, 2) * s1
        exact (mul_eq_zero.mp this).resolve_right hd
      have hb : b = 1 := by linarith
      rw [ha, hb]; ring
  unfold trk
  have e0 : (⟨0, by omega⟩ : Fin 2) = 0 := rfl
  have e1 : (⟨1, by omega⟩ : Fin 2) = 1 := rfl
  simp only [e0, e1, fl]

/-- the hits, spelled out -/
theorem four_tracks (c t : ℝ) (ht : -1 < t) : trk le_rfl Sum.inl (hits four (shot c) t) (fun _ => 1) = ((c, 0, -(2 + t)), (0, 0, 3 + t)) ∧
    trk le_rfl Sum.inr (hits four (shot c) t) (fun _ => 1) = ((1, 0, -1), (0, 0, 0)) := by
  constructor
  · rw [trk_two Sum.inl _ _ (fun _ _ => one_pos) (by rw [four_hits]; simp only [level]; linarith), four_hits]
    simp only [shot, level, Prod.mk.injEq, and_true]
    exact ⟨by ring, by ring, by ring⟩
  · rw [trk_two Sum.inr _ _ (fun _ _ => one_pos) (by rw [four_hits]; simp only [level]; linarith), four_hits]
    simp only [shot, level, Prod.mk.injEq, and_true]
    exact ⟨by ring, by ring, by ring⟩

theorem four_fit (c t : ℝ) (ht : -1 < t) (hc : 0 < c) (hcn : c ≠ 2 + t) : Fit le_rfl le_rfl (hits four (shot c) t) (fun _ => 1) := by
  obtain ⟨e1, e2⟩ := four_tracks c t ht
  refine ⟨fun _ => one_pos, ?_, ?_, ?_, ?_, ?_⟩
  · rw [four_hits]
    show level (.inl 1) t < level (.inl 0) t
    simp only [level]
    linarith
  · rw [four_hits]
    show level (.inr 1) t < level (.inr 0) t
    simp only [level]
    linarith
  · rw [e1]; exact Or.inl hc.ne'
  · rw [e2]; exact Or.inl one_ne_zero
  · rw [e1, e2]
    rintro ⟨a, b, hab, h⟩
    simp only [scale3, Prod.mk.injEq, mul_zero, mul_one, true_and] at h
    obtain ⟨h1, h3⟩ := h
    have hb : a * (c - (2 + t)) = 0 := by linarith
    have ha : a = 0 := (mul_eq_zero.mp hb).resolve_right (sub_ne_zero.mpr hcn)
    rcases hab with h | h
    · exact h ha
    · rw [ha, zero_mul] at h1
      exact h h1.symm

theorem four_batch (lw : ℝ × ℝ) (cs : List ℝ) (hne : cs ≠ []) (hcs : ∀ c ∈ cs, 0 < c ∧ c ≠ 2) : Batch lw four 0 (cs.map shot) where
  above := le_rfl
  below := le_rfl
  some := by simpa using hne
  moving p := by
    have hv : C23.Valid (four p 0) := ⟨one_pos, one_pos, by simp [four, C109.around, Panel.scaledSpan], by simp [four, C109.around, Panel.scaledSpan], trivial⟩
    have dz : DifferentiableAt ℝ (fun t => level p t) 0 := by
      rcases p with i | i <;> fin_cases i
      · show DifferentiableAt ℝ (fun t : ℝ => 3 + t) 0
        fun_prop
      all_goals exact differentiableAt_const _
    exact ⟨fun t => ⟨rfl, rfl, rfl, rfl⟩, hv, differentiableAt_const _, differentiableAt_const _, dz, differentiableAt_const _, differentiableAt_const _, differentiableAt_const _⟩
  eff _ := le_rfl
  clear r hr p := by
    obtain ⟨c, -, rfl⟩ := List.mem_map.mp hr
    have hv : C23.Valid (four p 0) := ⟨one_pos, one_pos, by simp [four, C109.around, Panel.scaledSpan], by simp [four, C109.around, Panel.scaledSpan], trivial⟩
    refine ⟨?_, Or.inl rfl⟩
    obtain ⟨a, b⟩ := C110.answer (four p 0) hv.spanX hv.spanY (Or.inl rfl) (0, 0)
    have hx : Panel.ratio .gauss 0 1 0 = 1 := Panel.ratio_centre _ _ _ one_pos
    simp only [four, C109.around, Panel.scaledSpan, mul_one, hx, C110.effVal] at a b
    have hq : crossing ((shot c).muon p) (four p 0).z = (0, 0) := middle_crossing _
    exact ⟨(max 1 1e-10, max 1 1e-10), 1, by rw [hq]; exact a, by rw [hq]; exact b, lt_max_of_lt_left (by norm_num), lt_max_of_lt_left (by norm_num), by norm_num⟩
  usable r hr := by
    obtain ⟨c, hc, rfl⟩ := List.mem_map.mp hr
    rw [four_wgts]
    have hf := four_fit c 0 (by norm_num) (hcs c hc).1 (by simpa using (hcs c hc).2)
    refine ⟨_, _, trk_eq lw le_rfl Sum.inl _ _ (fun _ _ => one_pos) hf.above.ne', trk_eq lw le_rfl Sum.inr _ _ (fun _ _ => one_pos) hf.below.ne', ?_, ?_, hf.slantIn, hf.slantOut, hf.scatters⟩
    · exact sub_neg.mpr hf.above
    · exact sub_neg.mpr hf.below
  mom r hr := by
    obtain ⟨c, hc, rfl⟩ := List.mem_map.mp hr
    exact one_pos

/-- derivative of the angle to the vertical -/
theorem angle_deriv (p : ℝ → ℝ) (s0 d a : ℝ) (hp : HasDerivAt p (2 * a) s0) (h : d ^ 2 < p s0) (hd : 0 < d) : HasDerivAt (fun s => arccos (d / sqrt (p s))) (d * a / (p s0 * sqrt (p s0 - d ^ 2))) s0 := by
  have hp0 : 0 < p s0 := by nlinarith [sq_nonneg d]
  have hq := sqrt_pos.mpr hp0
  have hsq := sq_sqrt hp0.le
  have h1 : HasDerivAt (fun s => d / sqrt (p s)) (-(d * a) / (sqrt (p s0)) ^ 3) s0 := by
    refine ((hasDerivAt_const s0 d).fun_div (hp.sqrt hp0.ne') hq.ne').congr_deriv ?_
    field_simp
    ring
  have hlt : d / sqrt (p s0) < 1 := by
    rw [div_lt_one hq]
    exact lt_sqrt_of_sq_lt h
  have hpos : 0 < d / sqrt (p s0) := by positivity
  have h2 := HasDerivAt.comp s0 (hasDerivAt_arccos (by linarith) hlt.ne) h1
  refine h2.congr_deriv ?_
  have e : sqrt (1 - (d / sqrt (p s0)) ^ 2) = sqrt (p s0 - d ^ 2) / sqrt (p s0) := by
    rw [← sqrt_div (by linarith), div_pow, hsq]
    congr 1
    field_simp
  have hr : sqrt (p s0 - d ^ 2) ≠ 0 := (sqrt_pos.mpr (by linarith)).ne'
  rw [e]
  have hp3 : sqrt (p s0) ^ 3 = sqrt (p s0) * p s0 := by rw [pow_succ, hsq]; ring
  rw [hp3]
  field_simp

theorem thetaOf_eq (v : V3) (a : ℝ) (h : thetaOf v = some a) : a = arccos (-v.2.2 / vnorm v) := by
  unfold thetaOf at h
  split at h
  · exact absurd h (by simp)
  · simp only [Option.some.injEq] at h
    rw [← h]
    split
    · rfl
    · rename_i h1
      rw [not_not.mp h1, arccos_one]

theorem four_jac (lw : ℝ × ℝ) (c t : ℝ) (ht : -1 < t) (hc : 0 < c) (hcn : c ≠ 2 + t) (k : Plane 2 2 × Fin 3) (hk : k.2 ≠ 2) :
    jacs lw four (shot c) t .thIn k = (2 + t) / (c ^ 2 + (2 + t) ^ 2) * ((if k = (.inl 1, 0) then 1 else 0) - (if k = (.inl 0, 0) then 1 else 0)) := by
  have hf := four_fit c t ht hc hcn
  obtain ⟨-, -, -, -, near⟩ := vars_cd lw le_rfl le_rfl (hits four (shot c) t, fun _ => 1) hf
  have c0 : ContinuousAt (fun s : ℝ => ((Function.update (hits four (shot c) t) k s, fun _ => 1) : Coords 2 2 × Scaled 2 2)) (hits four (shot c) t k) :=
    (continuous_const.update k continuous_id).continuousAt.prodMk continuousAt_const
  have tend : Tendsto (fun s : ℝ => ((Function.update (hits four (shot c) t) k s, fun _ => 1) : Coords 2 2 × Scaled 2 2)) (𝓝 (hits four (shot c) t k)) (𝓝 (hits four (shot c) t, fun _ => 1)) := by
    simpa [ContinuousAt] using c0
  have near' := tend.eventually near
  have hz : ∀ p s, Function.update (hits four (shot c) t) k s (p, 2) = level p t := by
    intro p s
    rw [Function.update_of_ne (fun h => hk (by rw [← h])), four_hits]
  have v0 : hits four (shot c) t (.inl 0, 0) = 0 := by rw [four_hits]; rfl
  have v1 : hits four (shot c) t (.inl 1, 0) = c := by rw [four_hits]; rfl
  have v2 : hits four (shot c) t (.inl 0, 1) = 0 := by rw [four_hits]; rfl
  have v3 : hits four (shot c) t (.inl 1, 1) = 0 := by rw [four_hits]; rfl
  have dU : ∀ j, HasDerivAt (fun s => Function.update (hits four (shot c) t) k s j) (if k = j then 1 else 0) (hits four (shot c) t k) := by
    intro j
    have := hasDerivAt_pi.mp (hasDerivAt_update (hits four (shot c) t) k (hits four (shot c) t k)) j
    refine this.congr_deriv ?_
    by_cases h : k = j
    · subst h; simp
    · rw [if_neg h, Pi.single_eq_of_ne (Ne.symm h)]
  have hp : HasDerivAt (fun s => (Function.update (hits four (shot c) t) k s (.inl 1, 0) - Function.update (hits four (shot c) t) k s (.inl 0, 0)) ^ 2 +
      (Function.update (hits four (shot c) t) k s (.inl 1, 1) - Function.update (hits four (shot c) t) k s (.inl 0, 1)) ^ 2 + (2 + t) ^ 2)
      (2 * (c * ((if k = (.inl 1, 0) then 1 else 0) - (if k = (.inl 0, 0) then 1 else 0)))) (hits four (shot c) t k) := by
    refine (((((dU (.inl 1, 0)).sub (dU (.inl 0, 0))).pow 2).add (((dU (.inl 1, 1)).sub (dU (.inl 0, 1))).pow 2)).add_const _).congr_deriv ?_
    simp only [Pi.sub_apply, Function.update_eq_self, v0, v1, v2, v3]
    ring
  have hd := angle_deriv _ _ (2 + t) _ hp (by simp only [Function.update_eq_self, v0, v1, v2, v3]; nlinarith) (by linarith)
  simp only [Function.update_eq_self, v0, v1, v2, v3, sub_zero, ne_eq, OfNat.ofNat_ne_zero, not_false_eq_true, zero_pow, add_zero, add_sub_cancel_right, sqrt_sq hc.le] at hd
  unfold jacs Told.jacs jac pd
  simp only [told]
  rw [four_wgts]
  refine (HasDerivAt.congr_of_eventuallyEq (hd.congr_deriv ?_) ?_).deriv
  · field_simp
  · filter_upwards [near'] with s hs
    obtain ⟨-, -, -, h1, -⟩ := hs
    rw [trk_two Sum.inl _ _ (fun _ _ => one_pos) (by simp only [hz, level]; linarith)] at h1
    rw [thetaOf_eq _ _ h1]
    simp only [hz, level, vnorm, vdot]
    congr 2
    · ring
    · congr 1
      ring

theorem four_thIn (lw : ℝ × ℝ) (c t : ℝ) (ht : -1 < t) (hc : 0 < c) (hcn : c ≠ 2 + t) : spread (jacs lw four (shot c) t .thIn) (uncs four (shot c) t) = sqrt 2 * ((2 + t) / (c ^ 2 + (2 + t) ^ 2)) := by
  have hj := four_jac lw c t ht hc hcn
  unfold spread
  rw [four_uncs]
  have : ∀ k : Plane 2 2 × Fin 3, (jacs lw four (shot c) t .thIn k * (if k.2 = 2 then 0 else 1)) ^ 2 =
      ((2 + t) / (c ^ 2 + (2 + t) ^ 2)) ^ 2 * (((if k = (.inl 1, 0) then 1 else 0) - (if k = (.inl 0, 0) then 1 else 0)) ^ 2) := by
    rintro ⟨p, i⟩
    by_cases h : i = 2
    · subst h
      simp
    · rw [hj (p, i) h, if_neg h]
      ring
  simp only [this]
  rw [← Finset.mul_sum, sqrt_mul (sq_nonneg _), sqrt_sq (div_nonneg (by linarith) (by positivity)), mul_comm]
  congr 2
  simp [Fintype.sum_prod_type, Fin.sum_univ_three, Fin.sum_univ_two]
  norm_num

end C121

end

end Tomopt
