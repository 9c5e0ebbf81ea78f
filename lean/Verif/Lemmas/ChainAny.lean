import Verif.Lemmas.ChainLoss
import Verif.Spec.Chain
import Verif.Model.Loss

/- Helper lemmas: what a voxel sees of a batch of muons, for anything that tells of them in a differentiable way. -/
namespace Tomopt

noncomputable section
open Real Filter Topology Scatter Uncert Chain

namespace C121

variable {n n' : Nat}

theorem traj_z {m : Nat} (lw : ℝ × ℝ) (h2 : 2 ≤ m) (f : Fin m → Plane n n') (h : Coords n n') (w : Scaled n n') (T : Track) (hT : trajectory lw (rowsOf f h w) = .ok (some T)) :
    T.1.2.2 = h (f ⟨1, by omega⟩, 2) - h (f ⟨0, by omega⟩, 2) := by
  have g : ∀ (i : Nat) (hi : i < m), (rowsOf f h w)[i]? =
      some ((.num (h (f ⟨i, hi⟩, 0)), .num (h (f ⟨i, hi⟩, 1)), .num (h (f ⟨i, hi⟩, 2))), (.num (w (f ⟨i, hi⟩, 0)), .num (w (f ⟨i, hi⟩, 1)), .num 0)) := by
    intro i hi
    simp [rowsOf, hi]
  unfold trajectory at hT
  rw [g 0 (by omega), g 1 (by omega)] at hT
  simp only [Except.ok.injEq, Option.bind_eq_bind, Option.bind_eq_some_iff, hitCoord, calcXYZ, Option.some.injEq, exists_eq_left'] at hT
  obtain ⟨_, _, _, _, _, _, _, _, rfl⟩ := hT
  rfl

theorem usable_fit (lw : ℝ × ℝ) (h2 : 2 ≤ n) (h2' : 2 ≤ n') (h : Coords n n') (w : Scaled n n') (hw : ∀ k, 0 < w k) (hu : Usable lw h w) : Fit h2 h2' h w := by
  obtain ⟨tin, tout, e1, e2, z1, z2, s1, s2, hp⟩ := hu
  have a := traj_z lw h2 _ h w tin e1
  have b := traj_z lw h2' _ h w tout e2
  rw [a, sub_neg] at z1
  rw [b, sub_neg] at z2
  have f1 := trk_eq lw h2 Sum.inl h w (fun k c => hw _) z1.ne'
  have f2 := trk_eq lw h2' Sum.inr h w (fun k c => hw _) z2.ne'
  rw [e1] at f1
  rw [e2] at f2
  simp only [Except.ok.injEq, Option.some.injEq] at f1 f2
  subst f1
  subst f2
  exact ⟨hw, z1, z2, s1, s2, hp⟩

/-- what is told of a muon is differentiable, and it can be used -/
structure Telling (lw : ℝ × ℝ) (a : ℝ → Told n n') (t0 : ℝ) : Prop where
  above : 2 ≤ n
  below : 2 ≤ n'
  dh : ∀ k, DifferentiableAt ℝ (fun t => (a t).hit k) t0
  du : ∀ k, DifferentiableAt ℝ (fun t => (a t).unc k) t0
  dw : ∀ k, DifferentiableAt ℝ (fun t => (a t).wgt k) t0
  de : ∀ p, DifferentiableAt ℝ (fun t => (a t).eff p) t0
  pw : ∀ k, 0 < (a t0).wgt k
  pu : ∀ k, k.2 ≠ 2 → 0 < (a t0).unc k
  pe : ∀ p, 0 < (a t0).eff p
  le : ∀ p, (a t0).eff p ≤ 1
  usable : Usable lw (a t0).hit (a t0).wgt

/-- what a voxel sees of a muon is differentiable, for Jacobians that are, and it can be used -/
theorem observed_any (lw : ℝ × ℝ) (Φ : ℝ → ℝ) (hΦ : Differentiable ℝ Φ) (hm : Monotone Φ) (size : ℝ) (hs : 0 ≤ size) (low : ℝ × ℝ × ℝ) (a : ℝ → Told n n') (t0 : ℝ) (hA : Telling lw a t0) (mom : ℝ)
    (hmom : 0 < mom) (J : ℝ → Var → Plane n n' × Fin 3 → ℝ) (hJ : ∀ v k, DifferentiableAt ℝ (fun t => J t v k) t0) (h0 : J t0 = (a t0).jacs lw) :
    SeenDiff (fun t => (a t).seen lw Φ size low (J t) mom) t0 ∧ C98.Good ((a t0).seen lw Φ size low (J t0) mom) := by
  obtain ⟨dh, du, dw, de, pw, pu⟩ : _ ∧ _ ∧ _ ∧ _ ∧ _ ∧ _ := ⟨hA.dh, hA.du, hA.dw, hA.de, hA.pw, hA.pu⟩
  have fit := usable_fit lw hA.above hA.below _ _ pw hA.usable
  obtain ⟨cd, ps, pin, pout, -⟩ := vars_cd lw hA.above hA.below ((a t0).hit, (a t0).wgt) fit
  have dq : DifferentiableAt ℝ (fun t => ((a t).hit, (a t).wgt)) t0 := (differentiableAt_pi.mpr dh).prodMk (differentiableAt_pi.mpr dw)
  have dv : ∀ v, DifferentiableAt ℝ (fun t => value lw v ((a t).hit, (a t).wgt)) t0 := fun v =>
    DifferentiableAt.comp (f := fun t => ((a t).hit, (a t).wgt)) t0 ((cd v).differentiableAt (by simp)) dq
  have sp : ∀ v, 0 < spread (J t0 v) ((a t0).unc) := fun v => by
    rw [h0]
    exact uncs_pos lw hA.above hA.below _ _ fit _ pu v
  have ds : ∀ v, DifferentiableAt ℝ (fun t => spread (J t v) ((a t).unc)) t0 := fun v => by
    unfold spread
    refine DifferentiableAt.sqrt (DifferentiableAt.fun_sum fun k _ => ((hJ v k).mul (du k)).pow 2) ?_
    exact (sqrt_pos.mp (sp v)).ne'
  have hla : (2 : Nat) ≤ (List.ofFn fun k => (a t0).eff (Sum.inl k)).length := by simpa using hA.above
  have hlb : (2 : Nat) ≤ (List.ofFn fun k => (a t0).eff (Sum.inr k)).length := by simpa using hA.below
  have effEq : ∀ t, (a t).muon = pTwo (List.ofFn fun k => (a t).eff (Sum.inl k)) * pTwo (List.ofFn fun k => (a t).eff (Sum.inr k)) := fun t => by
    rw [Told.muon, groupEff_eq _ (by simpa using hA.above), groupEff_eq _ (by simpa using hA.below)]
  have deff : DifferentiableAt ℝ (fun t => (a t).muon) t0 := by
    simp only [effEq]
    have a' := pTwo_diff t0 (List.ofFn fun k t => (a t).eff (Sum.inl k)) (by
      intro f hf
      obtain ⟨k, rfl⟩ := List.mem_ofFn.mp hf
      exact de _)
    have b' := pTwo_diff t0 (List.ofFn fun k t => (a t).eff (Sum.inr k)) (by
      intro f hf
      obtain ⟨k, rfl⟩ := List.mem_ofFn.mp hf
      exact de _)
    simp only [List.map_ofFn, Function.comp_def] at a' b'
    exact a'.mul b'
  have peff : 0 < (a t0).muon := by
    rw [effEq]
    refine mul_pos (pTwo_pos _ hla ?_) (pTwo_pos _ hlb ?_)
    · intro e he
      obtain ⟨k, rfl⟩ := List.mem_ofFn.mp he
      exact ⟨hA.pe _, hA.le _⟩
    · intro e he
      obtain ⟨k, rfl⟩ := List.mem_ofFn.mp he
      exact ⟨hA.pe _, hA.le _⟩
  have dz : ∀ (v : Var) (x : ℝ), DifferentiableAt ℝ (fun t => Φ ((x - value lw v ((a t).hit, (a t).wgt)) / (spread (J t v) ((a t).unc) + 1e-7))) t0 := fun v x => by
    have hne : spread (J t0 v) ((a t0).unc) + 1e-7 ≠ 0 := by
      have := sp v
      positivity
    exact DifferentiableAt.comp (g := Φ) t0 hΦ.differentiableAt (((dv v).const_sub x).fun_div ((ds v).add_const _) hne)
  have mono : ∀ (v : Var) (x : ℝ), 0 ≤ Φ ((x + size - value lw v ((a t0).hit, (a t0).wgt)) / (spread (J t0 v) ((a t0).unc) + 1e-7)) -
      Φ ((x - value lw v ((a t0).hit, (a t0).wgt)) / (spread (J t0 v) ((a t0).unc) + 1e-7)) := fun v x => by
    have hne : 0 < spread (J t0 v) ((a t0).unc) + 1e-7 := by
      have := sp v
      positivity
    exact sub_nonneg.mpr (hm (by gcongr; linarith))
  refine ⟨⟨deff, ?_, dv .scat, ds .scat, dv .thIn, ds .thIn, dv .thOut, ds .thOut, fun _ => rfl, fun _ => rfl⟩, ⟨peff, ?_, ps, sp .scat, pin, sp .thIn, pout, sp .thOut, hmom, rfl⟩⟩
  · simp only [Told.seen, Infer.voxelProb, muRow]
    exact ((((dz .pocaX _).sub (dz .pocaX _)).mul ((dz .pocaY _).sub (dz .pocaY _))).mul ((dz .pocaZ _).sub (dz .pocaZ _))).add_const _
  · simp only [Told.seen, Infer.voxelProb, muRow]
    have := mul_nonneg (mul_nonneg (mono .pocaX low.1) (mono .pocaY low.2.1)) (mono .pocaZ low.2.2)
    linarith

theorem told_row (lw : ℝ × ℝ) (Φ : ℝ → ℝ) (size : ℝ) (low : ℝ × ℝ × ℝ) (a : Told n n') (J : Var → Plane n n' × Fin 3 → ℝ) (mom : ℝ) :
    (a.seen lw Φ size low J mom).row.scat = value lw .scat (a.hit, a.wgt) ∧ (a.seen lw Φ size low J mom).row.thIn = value lw .thIn (a.hit, a.wgt) ∧
    (a.seen lw Φ size low J mom).row.thOut = value lw .thOut (a.hit, a.wgt) ∧ (a.seen lw Φ size low J mom).row.mom = mom := ⟨rfl, rfl, rfl, rfl⟩

/-- the Jacobians are differentiable -/
theorem jacs_any (lw : ℝ × ℝ) (a : ℝ → Told n n') (t0 : ℝ) (hA : Telling lw a t0) (v : Var) (k : Plane n n' × Fin 3) : DifferentiableAt ℝ (fun t => (a t).jacs lw v k) t0 := by
  have fit := usable_fit lw hA.above hA.below _ _ hA.pw hA.usable
  obtain ⟨cd, -⟩ := vars_cd lw hA.above hA.below ((a t0).hit, (a t0).wgt) fit
  exact pd_diff (value lw v) (fun t => (a t).hit) (fun t => (a t).wgt) t0 hA.dh hA.dw (cd v) k

/-! ### The loss -/

theorem sigmoid_diff (x : ℝ) : DifferentiableAt ℝ Loss.sigmoid x := by
  unfold Loss.sigmoid
  exact (differentiableAt_const _).div ((differentiableAt_id.neg.exp).const_add 1) (by have := exp_pos (-x); positivity)

theorem sigmoid_deriv_zero : HasDerivAt Loss.sigmoid (1 / 4) 0 := by
  have h1 : HasDerivAt (fun x : ℝ => 1 + exp (-x)) (-1) 0 := by simpa using ((hasDerivAt_neg (0 : ℝ)).exp).const_add 1
  have := (hasDerivAt_const (0 : ℝ) (1 : ℝ)).fun_div h1 (by simp)
  refine this.congr_deriv ?_
  norm_num

/-- the steep penalty: two pieces that meet with the same slope -/
theorem steep_diff (d : ℝ) : DifferentiableAt ℝ (fun d => if d ≤ 0 then 2 * Loss.sigmoid d else 1 + d / 2) d := by
  rcases lt_trichotomy d 0 with h | h | h
  · refine ((sigmoid_diff d).const_mul 2).congr_of_eventuallyEq ?_
    filter_upwards [gt_mem_nhds h] with x hx
    rw [if_pos (le_of_lt hx)]
  · subst h
    have a : HasDerivAt (fun d => 2 * Loss.sigmoid d) (1 / 2) 0 := by
      refine (sigmoid_deriv_zero.const_mul 2).congr_deriv (by norm_num)
    have c : HasDerivAt (fun d : ℝ => 1 + d / 2) (1 / 2) 0 := by
      simpa using ((hasDerivAt_id (0 : ℝ)).div_const 2).const_add 1
    have s0 : (2 : ℝ) * Loss.sigmoid 0 = 1 := by norm_num [Loss.sigmoid]
    have : HasDerivAt (fun d => if d ≤ 0 then 2 * Loss.sigmoid d else 1 + d / 2) (1 / 2) 0 := by
      rw [← hasDerivWithinAt_univ, ← Set.Iic_union_Ici (a := (0 : ℝ))]
      refine HasDerivWithinAt.union ?_ ?_
      · refine (a.hasDerivWithinAt (s := Set.Iic 0)).congr (fun x hx => if_pos hx) (if_pos le_rfl)
      · refine (c.hasDerivWithinAt (s := Set.Ici 0)).congr (fun x hx => ?_) (by simp [s0])
        rcases eq_or_lt_of_le (show (0 : ℝ) ≤ x from hx) with h | h
        · subst h; simp [s0]
        · rw [if_neg (not_le.mpr h)]
    exact this.differentiableAt
  · have : DifferentiableAt ℝ (fun d : ℝ => 1 + d / 2) d := by fun_prop
    refine this.congr_of_eventuallyEq ?_
    filter_upwards [lt_mem_nhds h] with x hx
    rw [if_neg (not_le.mpr hx)]

theorem budget_diff (steep : Bool) (b s : ℝ) (hb : b ≠ 0) (c : ℝ) (h : steep = true ∨ c ≠ b) : DifferentiableAt ℝ (fun c => Loss.budgetNum steep b s c) c := by
  have lin : DifferentiableAt ℝ (fun c : ℝ => s * (c - b) / b) c := by fun_prop
  cases steep with
  | true =>
    simp only [Loss.budgetNum, if_true]
    exact DifferentiableAt.comp (g := fun d => if d ≤ 0 then 2 * Loss.sigmoid d else 1 + d / 2) c (steep_diff _) lin
  | false =>
    have hc : c ≠ b := h.resolve_left (by simp)
    simp only [Loss.budgetNum, Bool.false_eq_true, if_false]
    refine ((DifferentiableAt.comp (g := Loss.sigmoid) c (sigmoid_diff _) lin).const_mul 2).add (DifferentiableAt.div_const ?_ b)
    rcases lt_or_gt_of_ne hc with h | h
    · refine (differentiableAt_const 0).congr_of_eventuallyEq ?_
      filter_upwards [gt_mem_nhds h] with x hx
      exact max_eq_right (by linarith)
    · refine (differentiableAt_id.sub_const b).congr_of_eventuallyEq ?_
      filter_upwards [lt_mem_nhds h] with x hx
      exact max_eq_left (by linarith)

theorem mse_diff {β : Type} (f : β → ℝ → ℝ) (t0 : ℝ) (df : ∀ b, DifferentiableAt ℝ (f b) t0) : ∀ (l : List β) (targ : List ℝ),
    DifferentiableAt ℝ (fun t => (List.zipWith (fun p t => (p - t) ^ 2) (l.map (f · t)) targ).sum) t0
  | [], _ => by simp
  | _ :: _, [] => by simp
  | b :: l, y :: ys => by
    simp only [List.map_cons, List.zipWith_cons_cons, List.sum_cons]
    exact (((df b).sub_const y).pow 2).add (mse_diff f t0 df l ys)

theorem ev_list {β : Type} (p : β → ℝ → Prop) (t0 : ℝ) : ∀ l : List β, (∀ b ∈ l, ∀ᶠ t in 𝓝 t0, p b t) → ∀ᶠ t in 𝓝 t0, ∀ b ∈ l, p b t
  | [], _ => by simp
  | a :: l, h => by
    filter_upwards [h a (by simp), ev_list p t0 l fun b hb => h b (by simp [hb])] with t h1 h2
    intro b hb
    rcases List.mem_cons.mp hb with rfl | hb
    · exact h1
    · exact h2 b hb

/-- the prediction of a voxel, for any Jacobians that are differentiable and are now what they should be -/
theorem prediction_told {β : Type} (lw : ℝ × ℝ) (Φ : ℝ → ℝ) (hΦ : Differentiable ℝ Φ) (hm : Monotone Φ) (big size : ℝ) (hs : 0 ≤ size) (a : β → ℝ → Told n n') (mom : β → ℝ) (t0 : ℝ) (rs : List β)
    (hne : rs ≠ []) (hA : ∀ r ∈ rs, Telling lw (a r) t0) (hmom : ∀ r ∈ rs, 0 < mom r) (J : β → ℝ → Var → Plane n n' × Fin 3 → ℝ) (hJ : ∀ r ∈ rs, ∀ v k, DifferentiableAt ℝ (fun t => J r t v k) t0)
    (h0 : ∀ r ∈ rs, J r t0 = (a r t0).jacs lw) (low : ℝ × ℝ × ℝ) :
    ∃ f : ℝ → ℝ, (∀ᶠ t in 𝓝 t0, C98.predicted big size (rs.map fun r => (a r t).seen lw Φ size low (J r t) (mom r)) = .num (f t)) ∧ DifferentiableAt ℝ f t0 := by
  have := predicted_diff big size (rs.map fun r t => (a r t).seen lw Φ size low (J r t) (mom r)) t0 (by simpa using hne)
    (by
      intro s hs'
      obtain ⟨r, hr, rfl⟩ := List.mem_map.mp hs'
      exact (observed_any lw Φ hΦ hm size hs low (a r) t0 (hA r hr) (mom r) (hmom r hr) (J r) (hJ r hr) (h0 r hr)).1)
    (by
      intro s hs'
      obtain ⟨r, hr, rfl⟩ := List.mem_map.mp hs'
      exact (observed_any lw Φ hΦ hm size hs low (a r) t0 (hA r hr) (mom r) (hmom r hr) (J r) (hJ r hr) (h0 r hr)).2)
  simpa only [List.map_map, Function.comp_def] using this

theorem loss_told {β : Type} (lw : ℝ × ℝ) (Φ : ℝ → ℝ) (hΦ : Differentiable ℝ Φ) (hm : Monotone Φ) (big size : ℝ) (hs : 0 ≤ size) (a : β → ℝ → Told n n') (mom : β → ℝ) (t0 : ℝ) (rs : List β)
    (hne : rs ≠ []) (hA : ∀ r ∈ rs, Telling lw (a r) t0) (hmom : ∀ r ∈ rs, 0 < mom r) (J : β → ℝ → Var → Plane n n' × Fin 3 → ℝ) (hJ : ∀ r ∈ rs, ∀ v k, DifferentiableAt ℝ (fun t => J r t v k) t0)
    (h0 : ∀ r ∈ rs, J r t0 = (a r t0).jacs lw)
    (voxels : List (ℝ × ℝ × ℝ)) (hv : voxels ≠ []) (targ : List ℝ) (cost : ℝ → ℝ) (dc : DifferentiableAt ℝ cost t0) (steep : Bool) (b s k : ℝ) (hb : b ≠ 0) (hk : steep = true ∨ cost t0 ≠ b) :
    ∃ L : ℝ → ℝ, DifferentiableAt ℝ L t0 ∧ ∀ᶠ t in 𝓝 t0, ∃ (ps : List ℝ) (e c : ℝ),
      (voxels.map fun low => C98.predicted big size (rs.map fun r => (a r t).seen lw Φ size low (J r t) (mom r))) = ps.map .num ∧
      Loss.mse ps targ = .num e ∧ (Loss.forward steep (some b) s ⟨some k⟩ e (cost t)).2 = (e, .num c) ∧ L t = e + c := by
  choose f hf df using fun low => prediction_told lw Φ hΦ hm big size hs a mom t0 rs hne hA hmom J hJ h0 low
  have hbud := (budget_diff steep b s hb (cost t0) hk).comp t0 dc
  have hmse := mse_diff f t0 df voxels targ
  refine ⟨fun t => (List.zipWith (fun p t => (p - t) ^ 2) (voxels.map (f · t)) targ).sum / voxels.length + Loss.budgetNum steep b s (cost t) * k, (hmse.div_const _).add (hbud.mul_const k), ?_⟩
  filter_upwards [ev_list (fun low t => C98.predicted big size (rs.map fun r => (a r t).seen lw Φ size low (J r t) (mom r)) = .num (f low t)) t0 voxels fun low _ => hf low] with t ht
  refine ⟨voxels.map (f · t), _, Loss.budgetNum steep b s (cost t) * k, ?_, ?_, ?_, rfl⟩
  · rw [List.map_map]
    exact List.map_congr_left ht
  · rw [Loss.mse, List.length_map, if_neg (by simpa using hv)]
  · simp only [Loss.forward, Loss.budgetCoef, if_neg hb, Option.getD_some]

end C121

end

end Tomopt
