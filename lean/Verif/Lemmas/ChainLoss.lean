import Verif.Lemmas.Chain
import Verif.Props.C111
import Verif.Props.C98
import Verif.Props.C95
import Verif.Lemmas.Infer

/- Helper lemmas: panels, efficiencies and predictions as differentiable functions of a parameter. -/
namespace Tomopt

noncomputable section
open Real Filter Topology Scatter Uncert Chain


namespace C121

/-- position, uncertainty and efficiency a panel reports -/
theorem panel (P : ℝ → Panel) (t0 : ℝ) (hP : C111.Moving P t0) (m : Muon) (hc : C111.Clear (P t0) m) (N : ℝ × ℝ) :
    ∃ x y r s e : ℝ → ℝ, DifferentiableAt ℝ x t0 ∧ DifferentiableAt ℝ y t0 ∧ DifferentiableAt ℝ r t0 ∧ DifferentiableAt ℝ s t0 ∧ DifferentiableAt ℝ e t0 ∧ 0 < r t0 ∧ 0 < s t0 ∧ 0 < e t0 ∧
      ((P t0).eff ≤ 1 → e t0 ≤ 1) ∧
      ∀ᶠ t in 𝓝 t0, (P t).recoX N m = (.num (x t), .num (y t), .num (P t).z) ∧ (P t).uncX m = (.num (r t), .num (s t), .num 0) ∧ (P t).effX m = .num (e t) := by
  obtain ⟨r, e, hr, he, h1, h2, h3⟩ := hc.answers
  have hm0 := (hP.same t0).2.2.2
  obtain ⟨a1, a2⟩ := C110.answer (P t0) hP.valid.spanX hP.valid.spanY (Or.inl hm0) (crossing m (P t0).z)
  rw [hr] at a1
  rw [he] at a2
  simp only [Except.ok.injEq] at a1 a2
  subst a1
  subst a2
  have dsx : DifferentiableAt ℝ (fun t => (P t).scaledSpan.1) t0 := hP.long.mul hP.share
  have dsy : DifferentiableAt ℝ (fun t => (P t).scaledSpan.2) t0 := hP.wide.mul hP.share
  have dqx : DifferentiableAt ℝ (fun t => (crossing m (P t).z).1) t0 := by
    unfold crossing
    exact (((hP.z.const_sub _).mul_const _).mul_const _).const_add _
  have dqy : DifferentiableAt ℝ (fun t => (crossing m (P t).z).2) t0 := by
    unfold crossing
    exact (((hP.z.const_sub _).mul_const _).mul_const _).const_add _
  have da : DifferentiableAt ℝ (fun t => Panel.ratio (P t0).kind (P t).xy.1 (P t).scaledSpan.1 (crossing m (P t).z).1) t0 :=
    C111.ratio_diff _ hP.valid.kind _ _ _ t0 hP.x dsx dqx hP.valid.spanX (hc.off.imp id And.left)
  have db : DifferentiableAt ℝ (fun t => Panel.ratio (P t0).kind (P t).xy.2 (P t).scaledSpan.2 (crossing m (P t).z).2) t0 :=
    C111.ratio_diff _ hP.valid.kind _ _ _ t0 hP.y dsy dqy hP.valid.spanY (hc.off.imp id And.right)
  have drx := (C110.res_deriv (P t0).res _ t0 _ da.hasDerivAt h1).differentiableAt
  have dry := (C110.res_deriv (P t0).res _ t0 _ db.hasDerivAt h2).differentiableAt
  have de := (C110.eff_deriv (P t0).kind (P t0).eff _ _ t0 _ _ da.hasDerivAt db.hasDerivAt h3).differentiableAt
  have prx : 0 < max ((P t0).res * Panel.ratio (P t0).kind (P t0).xy.1 (P t0).scaledSpan.1 (crossing m (P t0).z).1) 1e-10 := lt_max_of_lt_right (by norm_num)
  have pry : 0 < max ((P t0).res * Panel.ratio (P t0).kind (P t0).xy.2 (P t0).scaledSpan.2 (crossing m (P t0).z).2) 1e-10 := lt_max_of_lt_right (by norm_num)
  have pe : 0 < C110.effVal (P t0).kind (P t0).eff (Panel.ratio (P t0).kind (P t0).xy.1 (P t0).scaledSpan.1 (crossing m (P t0).z).1) (Panel.ratio (P t0).kind (P t0).xy.2 (P t0).scaledSpan.2 (crossing m (P t0).z).2) :=
    lt_trans (by norm_num) h3
  refine ⟨_, _, _, _, _, dqx.fun_add ((differentiableAt_const N.1).fun_div drx prx.ne'), dqy.fun_add ((differentiableAt_const N.2).fun_div dry pry.ne'),
    (differentiableAt_const (1 : ℝ)).fun_div drx prx.ne', (differentiableAt_const (1 : ℝ)).fun_div dry pry.ne', de, div_pos one_pos prx, div_pos one_pos pry, pe, fun hle => ?_, ?_⟩
  · have r1 := Panel.ratio_le_one (P t0).kind hP.valid.kind (P t0).xy.1 (P t0).scaledSpan.1 (crossing m (P t0).z).1 hP.valid.spanX
    have r2 := Panel.ratio_le_one (P t0).kind hP.valid.kind (P t0).xy.2 (P t0).scaledSpan.2 (crossing m (P t0).z).2 hP.valid.spanY
    have r3 := Panel.ratio_pos (P t0).kind (P t0).xy.1 (P t0).scaledSpan.1 (crossing m (P t0).z).1 hP.valid.spanX
    have r4 := Panel.ratio_pos (P t0).kind (P t0).xy.2 (P t0).scaledSpan.2 (crossing m (P t0).z).2 hP.valid.spanY
    have hp : (P t0).eff * (Panel.ratio (P t0).kind (P t0).xy.1 (P t0).scaledSpan.1 (crossing m (P t0).z).1 * Panel.ratio (P t0).kind (P t0).xy.2 (P t0).scaledSpan.2 (crossing m (P t0).z).2) ≤ 1 :=
      mul_le_one₀ hle (by positivity) (mul_le_one₀ r1 r4.le r2)
    cases hk : (P t0).kind with
    | gauss => simpa only [C110.effVal, hk] using hp
    | sigmoid _ => simpa only [C110.effVal, hk] using max_le (by simpa only [hk] using hp) (by norm_num)
  filter_upwards [dsx.continuousAt.eventually (lt_mem_nhds hP.valid.spanX), dsy.continuousAt.eventually (lt_mem_nhds hP.valid.spanY), de.continuousAt.eventually (lt_mem_nhds pe)] with t tx ty te
  obtain ⟨k, hR, hE, hT⟩ := hP.same t
  have hc' : (P t).continuous = true := by simp [Panel.continuous, hT]
  have hres : ∀ i, (P t).resAt (crossing m (P t).z) i = (max ((P t0).res * Panel.ratio (P t0).kind (P t).xy.1 (P t).scaledSpan.1 (crossing m (P t).z).1) 1e-10,
      max ((P t0).res * Panel.ratio (P t0).kind (P t).xy.2 (P t).scaledSpan.2 (crossing m (P t).z).2) 1e-10) := fun i => by
    simp only [Panel.resAt, hc', if_true, k, hR]
  have heff : ∀ i, (P t).effAt (crossing m (P t).z) i = C110.effVal (P t0).kind (P t0).eff (Panel.ratio (P t0).kind (P t).xy.1 (P t).scaledSpan.1 (crossing m (P t).z).1)
      (Panel.ratio (P t0).kind (P t).xy.2 (P t).scaledSpan.2 (crossing m (P t).z).2) := fun i => by
    simp only [Panel.effAt, hc', if_true, k, hE]
    cases (P t0).kind <;> rfl
  have hx : max ((P t0).res * Panel.ratio (P t0).kind (P t).xy.1 (P t).scaledSpan.1 (crossing m (P t).z).1) 1e-10 ≠ 0 := (lt_max_of_lt_right (by norm_num)).ne'
  have hy : max ((P t0).res * Panel.ratio (P t0).kind (P t).xy.2 (P t).scaledSpan.2 (crossing m (P t).z).2) 1e-10 ≠ 0 := (lt_max_of_lt_right (by norm_num)).ne'
  simp only [Panel.recoX, Panel.uncX, Panel.effX, Panel.recoCoord, hres, heff, hT, Bool.not_true, Bool.false_and, Bool.false_eq_true, if_false, XF.quot, hx, hy, ne_eq,
    not_false_eq_true, if_true, XF.addR, Prod.mk.injEq, XF.num.injEq, and_true]
  exact ⟨by ring, by ring⟩

/-! ### Efficiencies -/

theorem pNone_lt : ∀ es : List ℝ, es ≠ [] → (∀ e ∈ es, 0 < e ∧ e ≤ 1) → pNone es < 1
  | [], h, _ => absurd rfl h
  | e :: es, _, h => by
    obtain ⟨h1, h2⟩ := pNone_mem es fun e he => ⟨(h e (by simp [he])).1.le, (h e (by simp [he])).2⟩
    obtain ⟨h3, h4⟩ := h e (by simp)
    simp only [pNone]
    nlinarith

theorem pTwo_pos (es : List ℝ) (h2 : 2 ≤ es.length) (h : ∀ e ∈ es, 0 < e ∧ e ≤ 1) : 0 < pTwo es := by
  match es, h2 with
  | e :: es, h2 =>
    have h1 := pNone_lt es (by rintro rfl; simp at h2) fun e he => h e (by simp [he])
    obtain ⟨h3, h4⟩ := h e (by simp)
    have h5 := (pTwo_mem es fun e he => ⟨(h e (by simp [he])).1.le, (h e (by simp [he])).2⟩).1
    simp only [pTwo]
    have := mul_pos h3 (sub_pos.mpr h1)
    have := mul_nonneg (sub_nonneg.mpr h4) h5
    linarith

theorem pNone_diff (t0 : ℝ) : ∀ l : List (ℝ → ℝ), (∀ f ∈ l, DifferentiableAt ℝ f t0) → DifferentiableAt ℝ (fun t => pNone (l.map (· t))) t0
  | [], _ => by simp [pNone]
  | f :: l, h => by
    simp only [List.map_cons, pNone]
    exact ((h f (by simp)).const_sub 1).mul (pNone_diff t0 l fun g hg => h g (by simp [hg]))

theorem pTwo_diff (t0 : ℝ) : ∀ l : List (ℝ → ℝ), (∀ f ∈ l, DifferentiableAt ℝ f t0) → DifferentiableAt ℝ (fun t => pTwo (l.map (· t))) t0
  | [], _ => by simp [pTwo]
  | f :: l, h => by
    simp only [List.map_cons, pTwo]
    have hl : ∀ g ∈ l, DifferentiableAt ℝ g t0 := fun g hg => h g (by simp [hg])
    have hf := h f (by simp)
    exact (hf.mul ((pNone_diff t0 l hl).const_sub 1)).add ((hf.const_sub 1).mul (pTwo_diff t0 l hl))

/-! ### Predictions -/

/-- what a voxel sees of a muon is differentiable -/
structure SeenDiff (s : ℝ → C98.Seen) (t0 : ℝ) : Prop where
  eff : DifferentiableAt ℝ (fun t => (s t).eff) t0
  prob : DifferentiableAt ℝ (fun t => (s t).prob) t0
  scat : DifferentiableAt ℝ (fun t => (s t).row.scat) t0
  scatUnc : DifferentiableAt ℝ (fun t => (s t).row.scatUnc) t0
  thIn : DifferentiableAt ℝ (fun t => (s t).row.thIn) t0
  thInUnc : DifferentiableAt ℝ (fun t => (s t).row.thInUnc) t0
  thOut : DifferentiableAt ℝ (fun t => (s t).row.thOut) t0
  thOutUnc : DifferentiableAt ℝ (fun t => (s t).row.thOutUnc) t0
  mom : ∀ t, (s t).row.mom = (s t0).row.mom
  momUnc : ∀ t, (s t).row.momUnc = 0

theorem good_near (s : ℝ → C98.Seen) (t0 : ℝ) (hd : SeenDiff s t0) (hg : C98.Good (s t0)) : ∀ᶠ t in 𝓝 t0, C98.Good (s t) := by
  filter_upwards [hd.eff.continuousAt.eventually (lt_mem_nhds hg.eff), hd.prob.continuousAt.eventually (lt_mem_nhds hg.prob), hd.scat.continuousAt.eventually (lt_mem_nhds hg.scat),
    hd.scatUnc.continuousAt.eventually (lt_mem_nhds hg.scatUnc), hd.thIn.continuousAt.eventually (lt_mem_nhds hg.thIn.1), hd.thIn.continuousAt.eventually (gt_mem_nhds hg.thIn.2),
    hd.thInUnc.continuousAt.eventually (lt_mem_nhds hg.thInUnc), hd.thOut.continuousAt.eventually (lt_mem_nhds hg.thOut.1), hd.thOut.continuousAt.eventually (gt_mem_nhds hg.thOut.2),
    hd.thOutUnc.continuousAt.eventually (lt_mem_nhds hg.thOutUnc)] with t h1 h2 h3 h4 h5 h6 h7 h8 h9 h10
  exact ⟨h1, h2, h3, h4, ⟨h5, h6⟩, h7, ⟨h8, h9⟩, h10, by rw [hd.mom]; exact hg.mom, hd.momUnc t⟩

theorem sum_diff {β : Type} (f : β → ℝ → ℝ) (t0 : ℝ) : ∀ l : List β, (∀ b ∈ l, DifferentiableAt ℝ (f b) t0) → DifferentiableAt ℝ (fun t => (l.map (f · t)).sum) t0
  | [], _ => by simp
  | b :: l, h => by
    simp only [List.map_cons, List.sum_cons]
    exact (h b (by simp)).add (sum_diff f t0 l fun c hc => h c (by simp [hc]))

theorem wmean_diff (w f : C98.Seen → ℝ) (l : List (ℝ → C98.Seen)) (t0 : ℝ) (hne : l ≠ []) (hw : ∀ s ∈ l, DifferentiableAt ℝ (fun t => w (s t)) t0)
    (hf : ∀ s ∈ l, DifferentiableAt ℝ (fun t => f (s t)) t0) (hp : ∀ s ∈ l, 0 < w (s t0)) : DifferentiableAt ℝ (fun t => C98.wmean w f (l.map (· t))) t0 := by
  unfold C98.wmean
  simp only [List.map_map, Function.comp_def]
  exact (sum_diff (fun s t => w (s t) * f (s t)) t0 l fun s hs => (hw s hs).mul (hf s hs)).div (sum_diff (fun s t => w (s t)) t0 l hw)
    (C98.sum_pos_of (fun s : ℝ → C98.Seen => w (s t0)) l hne hp).ne'

theorem weight_diff (x u : Infer.MuRow → ℝ) (s : ℝ → C98.Seen) (t0 : ℝ) (he : DifferentiableAt ℝ (fun t => (s t).eff) t0) (hp : DifferentiableAt ℝ (fun t => (s t).prob) t0)
    (hx : DifferentiableAt ℝ (fun t => x (s t).row) t0) (hu : DifferentiableAt ℝ (fun t => u (s t).row) t0) (h1 : 0 < x (s t0).row) (h2 : 0 < u (s t0).row) :
    DifferentiableAt ℝ (fun t => C98.weight x u (s t)) t0 := by
  simp only [C98.weight, C98.squareVar_eq]
  exact (he.mul hp).div (((hx.const_mul 2).mul hu).pow 2) (by positivity)

/-- the prediction of a voxel -/
theorem predicted_diff (big size : ℝ) (l : List (ℝ → C98.Seen)) (t0 : ℝ) (hne : l ≠ []) (hd : ∀ s ∈ l, SeenDiff s t0) (hg : ∀ s ∈ l, C98.Good (s t0)) :
    ∃ f : ℝ → ℝ, (∀ᶠ t in 𝓝 t0, C98.predicted big size (l.map (· t)) = .num (f t)) ∧ DifferentiableAt ℝ f t0 := by
  have near : ∀ᶠ t in 𝓝 t0, ∀ s ∈ l, C98.Good (s t) := by
    clear hne
    induction l with
    | nil => simp
    | cons a l ih =>
      filter_upwards [good_near a t0 (hd a (by simp)) (hg a (by simp)), ih (fun s hs => hd s (by simp [hs])) (fun s hs => hg s (by simp [hs]))] with t h1 h2
      intro s hs
      rcases List.mem_cons.mp hs with rfl | hs
      · exact h1
      · exact h2 s hs
  refine ⟨fun t => C98.fromSquares size (C98.wmean (C98.weight (·.scat) (·.scatUnc)) (fun m => m.row.scat ^ 2) (l.map (· t)))
      (sqrt (C98.wmean (C98.weight (·.thIn) (·.thInUnc)) (fun m => m.row.thIn ^ 2) (l.map (· t)))) (sqrt (C98.wmean (C98.weight (·.thOut) (·.thOutUnc)) (fun m => m.row.thOut ^ 2) (l.map (· t))))
      (C98.wmean (fun m => m.eff * m.prob) (fun m => m.row.mom ^ 2) (l.map (· t))), ?_, ?_⟩
  · filter_upwards [near] with t ht
    exact C98.estimate big size (l.map (· t)) (by simpa using hne) (by
      intro m hm
      obtain ⟨s, hs, rfl⟩ := List.mem_map.mp hm
      exact ht s hs)
  have w1 : ∀ s ∈ l, 0 < C98.weight (·.scat) (·.scatUnc) (s t0) := fun m hm => C98.weight_pos (hg m hm).eff (hg m hm).prob (hg m hm).scat (hg m hm).scatUnc
  have w2 : ∀ s ∈ l, 0 < C98.weight (·.thIn) (·.thInUnc) (s t0) := fun m hm => C98.weight_pos (hg m hm).eff (hg m hm).prob (hg m hm).thIn.1 (hg m hm).thInUnc
  have w3 : ∀ s ∈ l, 0 < C98.weight (·.thOut) (·.thOutUnc) (s t0) := fun m hm => C98.weight_pos (hg m hm).eff (hg m hm).prob (hg m hm).thOut.1 (hg m hm).thOutUnc
  have w4 : ∀ s ∈ l, 0 < (s t0).eff * (s t0).prob := fun m hm => mul_pos (hg m hm).eff (hg m hm).prob
  have d1 := wmean_diff _ (fun m => m.row.scat ^ 2) l t0 hne (fun s hs => weight_diff _ _ s t0 (hd s hs).eff (hd s hs).prob (hd s hs).scat (hd s hs).scatUnc (hg s hs).scat (hg s hs).scatUnc)
    (fun s hs => (hd s hs).scat.pow 2) w1
  have d2 := wmean_diff _ (fun m => m.row.thIn ^ 2) l t0 hne (fun s hs => weight_diff _ _ s t0 (hd s hs).eff (hd s hs).prob (hd s hs).thIn (hd s hs).thInUnc (hg s hs).thIn.1 (hg s hs).thInUnc)
    (fun s hs => (hd s hs).thIn.pow 2) w2
  have d3 := wmean_diff _ (fun m => m.row.thOut ^ 2) l t0 hne (fun s hs => weight_diff _ _ s t0 (hd s hs).eff (hd s hs).prob (hd s hs).thOut (hd s hs).thOutUnc (hg s hs).thOut.1 (hg s hs).thOutUnc)
    (fun s hs => (hd s hs).thOut.pow 2) w3
  have d4 := wmean_diff (fun m => m.eff * m.prob) (fun m => m.row.mom ^ 2) l t0 hne (fun s hs => (hd s hs).eff.mul (hd s hs).prob) (fun s hs => by
    simp only [(hd s hs).mom]
    exact differentiableAt_const _) w4
  have hg' : ∀ m ∈ l.map (· t0), C98.Good m := by
    intro m hm
    obtain ⟨s, hs, rfl⟩ := List.mem_map.mp hm
    exact hg s hs
  have hne' : l.map (· t0) ≠ [] := by simpa using hne
  have v1 : ∀ m ∈ l.map (· t0), 0 < C98.weight (·.scat) (·.scatUnc) m := by
    intro m hm; obtain ⟨s, hs, rfl⟩ := List.mem_map.mp hm; exact w1 s hs
  have v2 : ∀ m ∈ l.map (· t0), 0 < C98.weight (·.thIn) (·.thInUnc) m := by
    intro m hm; obtain ⟨s, hs, rfl⟩ := List.mem_map.mp hm; exact w2 s hs
  have v3 : ∀ m ∈ l.map (· t0), 0 < C98.weight (·.thOut) (·.thOutUnc) m := by
    intro m hm; obtain ⟨s, hs, rfl⟩ := List.mem_map.mp hm; exact w3 s hs
  have v4 : ∀ m ∈ l.map (· t0), 0 < m.eff * m.prob := by
    intro m hm; obtain ⟨s, hs, rfl⟩ := List.mem_map.mp hm; exact w4 s hs
  have p1 := C98.wmean_pos _ (fun m => m.row.scat ^ 2) _ hne' v1 fun m hm => pow_pos (hg' m hm).scat 2
  have p2 := C98.wmean_pos _ (fun m => m.row.thIn ^ 2) _ hne' v2 fun m hm => pow_pos (hg' m hm).thIn.1 2
  have p3 := C98.wmean_pos _ (fun m => m.row.thOut ^ 2) _ hne' v3 fun m hm => pow_pos (hg' m hm).thOut.1 2
  have p4 := C98.wmean_pos _ (fun m => m.row.mom ^ 2) _ hne' v4 fun m hm => pow_pos (hg' m hm).mom 2
  have hpi := pi_pos
  have c2 : 0 < cos (sqrt (C98.wmean (C98.weight (·.thIn) (·.thInUnc)) (fun m => m.row.thIn ^ 2) (l.map (· t0)))) := by
    apply cos_pos_of_mem_Ioo
    refine ⟨by have := sqrt_nonneg (C98.wmean (C98.weight (·.thIn) (·.thInUnc)) (fun m => m.row.thIn ^ 2) (l.map (· t0))); linarith, ?_⟩
    rw [sqrt_lt' (by positivity)]
    exact C98.wmean_lt _ _ _ _ hne' v2 fun m hm => pow_lt_pow_left₀ (hg' m hm).thIn.2 (hg' m hm).thIn.1.le two_ne_zero
  have c3 : 0 < cos (sqrt (C98.wmean (C98.weight (·.thOut) (·.thOutUnc)) (fun m => m.row.thOut ^ 2) (l.map (· t0)))) := by
    apply cos_pos_of_mem_Ioo
    refine ⟨by have := sqrt_nonneg (C98.wmean (C98.weight (·.thOut) (·.thOutUnc)) (fun m => m.row.thOut ^ 2) (l.map (· t0))); linarith, ?_⟩
    rw [sqrt_lt' (by positivity)]
    exact C98.wmean_lt _ _ _ _ hne' v3 fun m hm => pow_lt_pow_left₀ (hg' m hm).thOut.2 (hg' m hm).thOut.1.le two_ne_zero
  unfold C98.fromSquares
  refine DifferentiableAt.fun_div (differentiableAt_const _) ((d4.mul (d1.div_const 2)).mul (((d2.sqrt p2.ne').cos.add (d3.sqrt p3.ne').cos).div_const 2)) ?_
  positivity

end C121

end

end Tomopt
