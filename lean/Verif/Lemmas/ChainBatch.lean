import Verif.Lemmas.ChainAny

/- Helper lemmas: what a voxel sees of a batch of muons. -/
namespace Tomopt

noncomputable section
open Real Filter Topology Scatter Uncert Chain

namespace C121

variable {n n' : Nat}

/-- everything the panels report of a muon is differentiable -/
theorem reports (D : Plane n n' → ℝ → Panel) (t0 : ℝ) (r : Ray n n') (hM : ∀ p, C111.Moving (D p) t0) (hC : ∀ p, C111.Clear (D p t0) (r.muon p)) :
    (∀ k, DifferentiableAt ℝ (fun t => hits D r t k) t0) ∧ (∀ k, DifferentiableAt ℝ (fun t => uncs D r t k) t0) ∧ (∀ k, DifferentiableAt ℝ (fun t => wgts D r t k) t0) ∧
    (∀ p, DifferentiableAt ℝ (fun t => effs D r t p) t0) ∧ (∀ k, 0 < wgts D r t0 k) ∧ (∀ k, k.2 ≠ 2 → 0 < uncs D r t0 k) ∧ (∀ p, 0 < effs D r t0 p) ∧ (∀ p, (D p t0).eff ≤ 1 → effs D r t0 p ≤ 1) ∧
    ∀ᶠ t in 𝓝 t0, (∀ p, C109.told (D p t) (r.noise p) (r.muon p) =
        ((.num (hits D r t (p, 0)), .num (hits D r t (p, 1)), .num (hits D r t (p, 2))), (.num (wgts D r t (p, 0)), .num (wgts D r t (p, 1)), .num 0))) ∧
      (∀ p, (D p t).uncX (r.muon p) = (.num (uncs D r t (p, 0)), .num (uncs D r t (p, 1)), .num 0)) ∧ ∀ p, (D p t).effX (r.muon p) = .num (effs D r t p) := by
  choose x y u v e dx dy du dv de pu pv pe le hev using fun p => panel (D p) t0 (hM p) (r.muon p) (hC p) (r.noise p)
  have near := eventually_all.mpr hev
  have pe' := eventually_all.mpr fun p => (de p).continuousAt.eventually (lt_mem_nhds (pe p))
  have sc : ∀ (p : Plane n n') (t : ℝ), 0 < e p t → (D p t).uncX (r.muon p) = (.num (u p t), .num (v p t), .num 0) → (D p t).effX (r.muon p) = .num (e p t) →
      scaleUnc ((D p t).uncX (r.muon p)) ((D p t).effX (r.muon p)) = (.num (u p t / e p t), .num (v p t / e p t), .num 0) := by
    intro p t h h1 h2
    rw [h1, h2]
    simp only [scaleUnc, XF.div, XF.quot, if_pos h.ne', zero_div]
  have hh : ∀ p, (fun t => hits D r t (p, 0)) =ᶠ[𝓝 t0] x p ∧ (fun t => hits D r t (p, 1)) =ᶠ[𝓝 t0] y p ∧ (fun t => hits D r t (p, 2)) =ᶠ[𝓝 t0] fun t => (D p t).z := by
    intro p
    refine ⟨?_, ?_, ?_⟩ <;> filter_upwards [near] with t ht <;> simp only [hits, (ht p).1, comp, num]
  have hu : ∀ p, (fun t => uncs D r t (p, 0)) =ᶠ[𝓝 t0] u p ∧ (fun t => uncs D r t (p, 1)) =ᶠ[𝓝 t0] v p ∧ (fun t => uncs D r t (p, 2)) =ᶠ[𝓝 t0] fun _ => 0 := by
    intro p
    refine ⟨?_, ?_, ?_⟩ <;> filter_upwards [near] with t ht <;> simp only [uncs, (ht p).2.1, comp, num]
  have hw : ∀ p, (fun t => wgts D r t (p, 0)) =ᶠ[𝓝 t0] (fun t => u p t / e p t) ∧ (fun t => wgts D r t (p, 1)) =ᶠ[𝓝 t0] fun t => v p t / e p t := by
    intro p
    refine ⟨?_, ?_⟩ <;> filter_upwards [near, pe'] with t ht hp <;> simp only [wgts, sc p t (hp p) (ht p).2.1 (ht p).2.2] <;> rfl
  have he : ∀ p, (fun t => effs D r t p) =ᶠ[𝓝 t0] e p := by
    intro p
    filter_upwards [near] with t ht
    simp only [effs, (ht p).2.2, num]
  refine ⟨?_, ?_, ?_, ?_, ?_, ?_, ?_, ?_, ?_⟩
  · rintro ⟨p, c⟩
    fin_cases c
    · exact (dx p).congr_of_eventuallyEq (hh p).1
    · exact (dy p).congr_of_eventuallyEq (hh p).2.1
    · exact (hM p).z.congr_of_eventuallyEq (hh p).2.2
  · rintro ⟨p, c⟩
    fin_cases c
    · exact (du p).congr_of_eventuallyEq (hu p).1
    · exact (dv p).congr_of_eventuallyEq (hu p).2.1
    · exact (differentiableAt_const _).congr_of_eventuallyEq (hu p).2.2
  · rintro ⟨p, c⟩
    fin_cases c
    · exact ((du p).div (de p) (pe p).ne').congr_of_eventuallyEq (hw p).1
    · exact ((dv p).div (de p) (pe p).ne').congr_of_eventuallyEq (hw p).2
  · exact fun p => (de p).congr_of_eventuallyEq (he p)
  · rintro ⟨p, c⟩
    fin_cases c
    · exact (hw p).1.eq_of_nhds ▸ div_pos (pu p) (pe p)
    · exact (hw p).2.eq_of_nhds ▸ div_pos (pv p) (pe p)
  · rintro ⟨p, c⟩ hc
    fin_cases c
    · exact (hu p).1.eq_of_nhds ▸ pu p
    · exact (hu p).2.1.eq_of_nhds ▸ pv p
    · exact absurd rfl hc
  · exact fun p => (he p).eq_of_nhds ▸ pe p
  · exact fun p hp => (he p).eq_of_nhds ▸ le p hp
  · filter_upwards [near, pe'] with t ht hp
    refine ⟨fun p => ?_, fun p => ?_, fun p => ?_⟩
    · rw [C109.told, sc p t (hp p) (ht p).2.1 (ht p).2.2, (ht p).1]
      simp only [hits, wgts, sc p t (hp p) (ht p).2.1 (ht p).2.2, (ht p).1, comp, num, Prod.mk.injEq, and_true, true_and]
      exact ⟨rfl, rfl⟩
    · simp only [uncs, (ht p).2.1, comp, num]
    · simp only [effs, (ht p).2.2, num]

/-- so a muon of a batch can be learnt from -/
theorem telling (lw : ℝ × ℝ) (D : Plane n n' → ℝ → Panel) (t0 : ℝ) (rs : List (Ray n n')) (hB : Batch lw D t0 rs) (r : Ray n n') (hr : r ∈ rs) : Telling lw (told D r) t0 := by
  obtain ⟨dh, du, dw, de, pw, pu, pe, le, -⟩ := reports D t0 r hB.moving (hB.clear r hr)
  exact ⟨hB.above, hB.below, dh, du, dw, de, pw, pu, pe, fun p => le p (hB.eff p), hB.usable r hr⟩

/-- what a voxel sees of a muon is differentiable, for Jacobians that are, and it can be used -/
theorem observed (lw : ℝ × ℝ) (Φ : ℝ → ℝ) (hΦ : Differentiable ℝ Φ) (hm : Monotone Φ) (size : ℝ) (hs : 0 ≤ size) (low : ℝ × ℝ × ℝ) (D : Plane n n' → ℝ → Panel) (t0 : ℝ) (rs : List (Ray n n'))
    (hB : Batch lw D t0 rs) (r : Ray n n') (hr : r ∈ rs) (J : ℝ → Var → Plane n n' × Fin 3 → ℝ) (hJ : ∀ v k, DifferentiableAt ℝ (fun t => J t v k) t0) (h0 : J t0 = jacs lw D r t0) :
    SeenDiff (fun t => seen lw Φ size low D r (J t) t) t0 ∧ C98.Good (seen lw Φ size low D r (J t0) t0) :=
  observed_any lw Φ hΦ hm size hs low (told D r) t0 (telling lw D t0 rs hB r hr) r.mom (hB.mom r hr) J hJ h0

/-- the Jacobians are differentiable -/
theorem jacs_diff (lw : ℝ × ℝ) (D : Plane n n' → ℝ → Panel) (t0 : ℝ) (rs : List (Ray n n')) (hB : Batch lw D t0 rs) (r : Ray n n') (hr : r ∈ rs) (v : Var) (k : Plane n n' × Fin 3) :
    DifferentiableAt ℝ (fun t => jacs lw D r t v k) t0 :=
  jacs_any lw (told D r) t0 (telling lw D t0 rs hB r hr) v k

/-- the prediction of a voxel, for any Jacobians that are differentiable and are now what they should be -/
theorem prediction_any (lw : ℝ × ℝ) (Φ : ℝ → ℝ) (hΦ : Differentiable ℝ Φ) (hm : Monotone Φ) (big size : ℝ) (hs : 0 ≤ size) (D : Plane n n' → ℝ → Panel) (t0 : ℝ) (rs : List (Ray n n'))
    (hB : Batch lw D t0 rs) (J : Ray n n' → ℝ → Var → Plane n n' × Fin 3 → ℝ) (hJ : ∀ r ∈ rs, ∀ v k, DifferentiableAt ℝ (fun t => J r t v k) t0) (h0 : ∀ r, J r t0 = jacs lw D r t0) (low : ℝ × ℝ × ℝ) :
    ∃ f : ℝ → ℝ, (∀ᶠ t in 𝓝 t0, C98.predicted big size (rs.map fun r => seen lw Φ size low D r (J r t) t) = .num (f t)) ∧ DifferentiableAt ℝ f t0 :=
  prediction_told lw Φ hΦ hm big size hs (fun r => told D r) Ray.mom t0 rs hB.some (fun r hr => telling lw D t0 rs hB r hr) hB.mom J hJ (fun r _ => h0 r) low

theorem loss_any (lw : ℝ × ℝ) (Φ : ℝ → ℝ) (hΦ : Differentiable ℝ Φ) (hm : Monotone Φ) (big size : ℝ) (hs : 0 ≤ size) (D : Plane n n' → ℝ → Panel) (t0 : ℝ) (rs : List (Ray n n'))
    (hB : Batch lw D t0 rs) (J : Ray n n' → ℝ → Var → Plane n n' × Fin 3 → ℝ) (hJ : ∀ r ∈ rs, ∀ v k, DifferentiableAt ℝ (fun t => J r t v k) t0) (h0 : ∀ r, J r t0 = jacs lw D r t0)
    (voxels : List (ℝ × ℝ × ℝ)) (hv : voxels ≠ []) (targ : List ℝ) (cost : ℝ → ℝ) (dc : DifferentiableAt ℝ cost t0) (steep : Bool) (b s k : ℝ) (hb : b ≠ 0) (hk : steep = true ∨ cost t0 ≠ b) :
    ∃ L : ℝ → ℝ, DifferentiableAt ℝ L t0 ∧ ∀ᶠ t in 𝓝 t0, ∃ (ps : List ℝ) (e c : ℝ),
      (voxels.map fun low => C98.predicted big size (rs.map fun r => seen lw Φ size low D r (J r t) t)) = ps.map .num ∧
      Loss.mse ps targ = .num e ∧ (Loss.forward steep (some b) s ⟨some k⟩ e (cost t)).2 = (e, .num c) ∧ L t = e + c :=
  loss_told lw Φ hΦ hm big size hs (fun r => told D r) Ray.mom t0 rs hB.some (fun r hr => telling lw D t0 rs hB r hr) hB.mom J hJ (fun r _ => h0 r) voxels hv targ cost dc steep b s k hb hk

end C121

end

end Tomopt
