import Verif.Props.C96
import Mathlib.Analysis.SpecialFunctions.ExpDeriv
import Mathlib.Analysis.SpecialFunctions.Sqrt
import Mathlib.Analysis.SpecialFunctions.Log.Deriv
import Mathlib.Analysis.Calculus.Deriv.Inv
import Mathlib.Analysis.Calculus.LocalExtr.Basic
import Mathlib.Analysis.Calculus.FDeriv.Prod
import Mathlib.Order.Bounds.Basic

/- C123: what heat maps answer in training, and how it changes with their parameters. -/
namespace Tomopt

noncomputable section
open Real Filter Topology

namespace C123

/-- A Gaussian with centre `m` and widths `s` along the axes, up to a constant factor. -/
def gauss (m s q : ℝ × ℝ) : ℝ := exp (-((q.1 - m.1) ^ 2 / (2 * s.1 ^ 2) + (q.2 - m.2) ^ 2 / (2 * s.2 ^ 2))) / (s.1 * s.2)

/-- The sum of the Gaussians of a list of clusters. -/
def cover (cs : List ((ℝ × ℝ) × ℝ × ℝ)) (q : ℝ × ℝ) : ℝ := (cs.map fun c => gauss c.1 c.2 q).sum

/-- The heat map with other clusters, centres and widths. -/
def withClusters (h : Heatmap) (cs : List ((ℝ × ℝ) × ℝ × ℝ)) : Heatmap := { h with mu := cs.map (·.1), sig := cs.map (·.2) }

/-- Widths are positive. -/
def Wide (cs : List ((ℝ × ℝ) × ℝ × ℝ)) : Prop := ∀ c ∈ cs, 0 < c.2.1 ∧ 0 < c.2.2

theorem gauss_pos (m s q : ℝ × ℝ) (h : 0 < s.1 ∧ 0 < s.2) : 0 < gauss m s q := div_pos (exp_pos _) (mul_pos h.1 h.2)

theorem cover_pos : ∀ (cs : List ((ℝ × ℝ) × ℝ × ℝ)), cs ≠ [] → Wide cs → ∀ q, 0 < cover cs q
  | [], h, _, _ => absurd rfl h
  | [c], _, hw, q => by simpa [cover] using gauss_pos c.1 c.2 q (hw c (by simp))
  | c :: d :: cs, _, hw, q => by
    have := cover_pos (d :: cs) (by simp) (fun x hx => hw x (by simp [hx])) q
    have := gauss_pos c.1 c.2 q (hw c (by simp))
    simp only [cover, List.map_cons, List.sum_cons] at *
    linarith

theorem density_eq (h : Heatmap) (cs : List ((ℝ × ℝ) × ℝ × ℝ)) (hw : Wide cs) (q : ℝ × ℝ) : (withClusters h cs).density q = cover cs q * ((1 / (2 * π)) / cs.length) := by
  have hz : (withClusters h cs).mu.zip (withClusters h cs).sig = cs := by
    simp only [withClusters, List.zip_map', List.map_id']
  have hl : (withClusters h cs).mu.length = cs.length := by simp [withClusters]
  unfold Heatmap.density
  rw [hz, hl]
  have e : ∀ c ∈ cs, exp (Panel.normalLogProb c.1.1 c.2.1 q.1 + Panel.normalLogProb c.1.2 c.2.2 q.2) = gauss c.1 c.2 q * (1 / (2 * π)) := by
    intro c hc
    obtain ⟨h1, h2⟩ := hw c hc
    have hpi := pi_pos
    have hs : 0 < sqrt (2 * π) := by positivity
    have hss : sqrt (2 * π) * sqrt (2 * π) = 2 * π := mul_self_sqrt (by positivity)
    rw [Panel.normalLogProb, Panel.normalLogProb, show -((q.1 - c.1.1) ^ 2) / (2 * c.2.1 ^ 2) - log c.2.1 - log (sqrt (2 * π)) + (-((q.2 - c.1.2) ^ 2) / (2 * c.2.2 ^ 2) - log c.2.2 - log (sqrt (2 * π))) =
      -((q.1 - c.1.1) ^ 2 / (2 * c.2.1 ^ 2) + (q.2 - c.1.2) ^ 2 / (2 * c.2.2 ^ 2)) - (log c.2.1 + log c.2.2 + (log (sqrt (2 * π)) + log (sqrt (2 * π)))) by ring, exp_sub,
      ← log_mul hs.ne' hs.ne', hss, ← log_mul h1.ne' h2.ne', ← log_mul (by positivity) (by positivity), exp_log (by positivity), gauss]
    field_simp
  rw [List.map_congr_left e, List.sum_map_mul_right, cover]
  ring

theorem foldr_max_eq : ∀ (l : List ℝ) (M : ℝ), 0 ≤ M → M ∈ l → (∀ x ∈ l, x ≤ M) → l.foldr max 0 = M
  | l, M, h0, hm, hle => by
    refine le_antisymm ?_ ?_
    · clear hm
      induction l with
      | nil => exact h0
      | cons a l ih => exact max_le (hle a (by simp)) (ih fun x hx => hle x (by simp [hx]))
    · clear hle
      induction l with
      | nil => exact absurd hm (by simp)
      | cons a l ih =>
        rcases List.mem_cons.mp hm with rfl | h
        · exact le_max_left _ _
        · exact (ih h).trans (le_max_right _ _)

/-- `M` is the largest of the values of the sum of Gaussians at the centres of the clusters. -/
def Highest (cs : List ((ℝ × ℝ) × ℝ × ℝ)) (M : ℝ) : Prop := IsGreatest {x | ∃ c ∈ cs, x = cover cs c.1} M

theorem gmm_eq (h : Heatmap) (cs : List ((ℝ × ℝ) × ℝ × ℝ)) (hw : Wide cs) (M : ℝ) (hM : Highest cs M) (q : ℝ × ℝ) : (withClusters h cs).gmm q = sqrt (h.norm * (cover cs q / M)) := by
  obtain ⟨⟨c0, hc0, e0⟩, hle⟩ := hM
  have hne : cs ≠ [] := List.ne_nil_of_mem hc0
  have hMp : 0 < M := e0 ▸ cover_pos cs hne hw _
  have hl : 0 < (cs.length : ℝ) := by exact_mod_cast List.length_pos_iff.mpr hne
  have hk : 0 < (1 / (2 * π)) / (cs.length : ℝ) := by have := pi_pos; positivity
  have hp : (withClusters h cs).peak = M * ((1 / (2 * π)) / cs.length) := by
    unfold Heatmap.peak
    have : (withClusters h cs).mu.map (withClusters h cs).density = cs.map fun c => cover cs c.1 * ((1 / (2 * π)) / cs.length) := by
      show (cs.map (·.1)).map _ = _
      rw [List.map_map]
      exact List.map_congr_left fun c _ => density_eq h cs hw c.1
    rw [this]
    refine foldr_max_eq _ _ (by positivity) ?_ ?_
    · exact List.mem_map.mpr ⟨c0, hc0, by rw [e0]⟩
    · intro x hx
      obtain ⟨c, hc, rfl⟩ := List.mem_map.mp hx
      exact mul_le_mul_of_nonneg_right (hle ⟨c, hc, rfl⟩) hk.le
  have hq := cover_pos cs hne hw q
  have hnorm : (withClusters h cs).norm = h.norm := rfl
  unfold Heatmap.gmm
  rw [hp, density_eq h cs hw, exp_sub, exp_log (by positivity), exp_log (by positivity), hnorm]
  congr 2
  field_simp

/-- **C123: the answer.** In training a heat map answers with its nominal resolution times the square root, and with its nominal efficiency times, at most, the value itself, of its scale times the sum of its
Gaussians relative to the largest value of this sum at a centre. -/
theorem answer (h : Heatmap) (cs : List ((ℝ × ℝ) × ℝ × ℝ)) (hw : Wide cs) (hn : 0 ≤ h.norm) (hm : h.training = true ∨ h.realistic = false) (M : ℝ) (hM : Highest cs M) (q : ℝ × ℝ) (inside : Bool) :
    (withClusters h cs).resAt q inside = (h.res * sqrt (h.norm * (cover cs q / M)), h.res * sqrt (h.norm * (cover cs q / M))) ∧
    (withClusters h cs).effAt q inside = h.eff * min 1 (h.norm * (cover cs q / M)) := by
  obtain ⟨⟨c0, hc0, e0⟩, -⟩ := id hM
  have hne : cs ≠ [] := List.ne_nil_of_mem hc0
  have hMp : 0 < M := e0 ▸ cover_pos cs hne hw _
  have hq := cover_pos cs hne hw q
  have hc : (withClusters h cs).continuous = true := by
    show (h.training || !h.realistic) = true
    rcases hm with h | h <;> simp [h]
  have hv : 0 ≤ h.norm * (cover cs q / M) := by positivity
  refine ⟨?_, ?_⟩
  · unfold Heatmap.resAt
    rw [if_pos hc, gmm_eq h cs hw M hM]
    rfl
  · unfold Heatmap.effAt
    rw [if_pos hc, gmm_eq h cs hw M hM]
    have : min 1 (sqrt (h.norm * (cover cs q / M))) * min 1 (sqrt (h.norm * (cover cs q / M))) = min 1 (h.norm * (cover cs q / M)) := by
      rcases le_total 1 (h.norm * (cover cs q / M)) with h1 | h1
      · rw [min_eq_left (one_le_sqrt.mpr h1), min_eq_left h1, one_mul]
      · rw [min_eq_right (sqrt_le_one.mpr h1), min_eq_right h1, mul_self_sqrt hv]
    rw [this]
    rfl

/-! ### Derivatives -/

/-- Clusters that move and change their widths with a number. -/
abbrev Moving := (ℝ → ℝ × ℝ) × (ℝ → ℝ × ℝ)

def atTime (cs : List Moving) (t : ℝ) : List ((ℝ × ℝ) × ℝ × ℝ) := cs.map fun c => (c.1 t, c.2 t)

/-- The heat map at `t`. -/
def shaped (h : Heatmap) (cs : List Moving) (norm : ℝ → ℝ) (t : ℝ) : Heatmap := withClusters { h with norm := norm t } (atTime cs t)

theorem gauss_diff (m s q : ℝ → ℝ × ℝ) (t0 : ℝ) (dm : DifferentiableAt ℝ m t0) (ds : DifferentiableAt ℝ s t0) (dq : DifferentiableAt ℝ q t0) (h : 0 < (s t0).1 ∧ 0 < (s t0).2) :
    DifferentiableAt ℝ (fun t => gauss (m t) (s t) (q t)) t0 := by
  have h1 := h.1.ne'
  have h2 := h.2.ne'
  unfold gauss
  have a : DifferentiableAt ℝ (fun t => ((q t).1 - (m t).1) ^ 2 / (2 * (s t).1 ^ 2)) t0 := ((dq.fst.sub dm.fst).pow 2).fun_div ((ds.fst.pow 2).const_mul 2) (by positivity)
  have b : DifferentiableAt ℝ (fun t => ((q t).2 - (m t).2) ^ 2 / (2 * (s t).2 ^ 2)) t0 := ((dq.snd.sub dm.snd).pow 2).fun_div ((ds.snd.pow 2).const_mul 2) (by positivity)
  exact (a.fun_add b).fun_neg.exp.fun_div (ds.fst.fun_mul ds.snd) (mul_ne_zero h1 h2)

theorem cover_diff (q : ℝ → ℝ × ℝ) (t0 : ℝ) (dq : DifferentiableAt ℝ q t0) : ∀ cs : List Moving, (∀ c ∈ cs, DifferentiableAt ℝ c.1 t0 ∧ DifferentiableAt ℝ c.2 t0) → Wide (atTime cs t0) →
    DifferentiableAt ℝ (fun t => cover (atTime cs t) (q t)) t0
  | [], _, _ => by simp [cover, atTime]
  | c :: cs, hd, hw => by
    have h1 := cover_diff q t0 dq cs (fun x hx => hd x (by simp [hx])) (fun x hx => hw x (by simp only [atTime, List.map_cons, List.mem_cons] at hx ⊢; exact Or.inr hx))
    have h2 := gauss_diff c.1 c.2 q t0 (hd c (by simp)).1 (hd c (by simp)).2 dq (hw (c.1 t0, c.2 t0) (by simp [atTime]))
    simp only [cover, atTime, List.map_cons, List.sum_cons] at *
    exact h2.fun_add h1

theorem wide_near (t0 : ℝ) : ∀ cs : List Moving, (∀ c ∈ cs, DifferentiableAt ℝ c.1 t0 ∧ DifferentiableAt ℝ c.2 t0) → Wide (atTime cs t0) → ∀ᶠ t in 𝓝 t0, Wide (atTime cs t)
  | [], _, _ => Eventually.of_forall fun t c hc => by simp [atTime] at hc
  | c :: cs, hd, hw => by
    have h1 := wide_near t0 cs (fun x hx => hd x (by simp [hx])) (fun x hx => hw x (by simp only [atTime, List.map_cons, List.mem_cons] at hx ⊢; exact Or.inr hx))
    have h2 := hw (c.1 t0, c.2 t0) (by simp [atTime])
    have d := (hd c (by simp)).2
    filter_upwards [h1, d.fst.continuousAt.eventually (lt_mem_nhds h2.1), d.snd.continuousAt.eventually (lt_mem_nhds h2.2)] with t e1 e2 e3
    intro x hx
    simp only [atTime, List.map_cons, List.mem_cons] at hx
    rcases hx with rfl | hx
    · exact ⟨e2, e3⟩
    · exact e1 x hx

/-- The centre of one cluster is where the sum of the Gaussians is largest, and larger than at all other centres. -/
def Peaked (l r : List Moving) (c : Moving) (t0 : ℝ) : Prop :=
  ∀ d ∈ l ++ r, cover (atTime (l ++ c :: r) t0) (d.1 t0) < cover (atTime (l ++ c :: r) t0) (c.1 t0)

theorem highest_near (l r : List Moving) (c : Moving) (t0 : ℝ) (hd : ∀ x ∈ l ++ c :: r, DifferentiableAt ℝ x.1 t0 ∧ DifferentiableAt ℝ x.2 t0) (hw : Wide (atTime (l ++ c :: r) t0))
    (hp : Peaked l r c t0) : ∀ᶠ t in 𝓝 t0, Highest (atTime (l ++ c :: r) t) (cover (atTime (l ++ c :: r) t) (c.1 t)) := by
  have dc := cover_diff c.1 t0 (hd c (by simp)).1 _ hd hw
  have key : ∀ m : List Moving, (∀ x ∈ m, x ∈ l ++ r) → ∀ᶠ t in 𝓝 t0, ∀ x ∈ m, cover (atTime (l ++ c :: r) t) (x.1 t) < cover (atTime (l ++ c :: r) t) (c.1 t) := by
    intro m
    induction m with
    | nil => intro _; simp
    | cons a m ih =>
      intro hm
      have ha := hm a (by simp)
      have ha' : a ∈ l ++ c :: r := by
        simp only [List.mem_append, List.mem_cons] at ha ⊢
        tauto
      have da := cover_diff a.1 t0 (hd a ha').1 _ hd hw
      filter_upwards [ih fun x hx => hm x (by simp [hx]), da.continuousAt.eventually_lt dc.continuousAt (hp a ha)] with t h1 h2
      intro x hx
      rcases List.mem_cons.mp hx with rfl | hx
      · exact h2
      · exact h1 x hx
  filter_upwards [key (l ++ r) fun x hx => hx] with t ht
  refine ⟨⟨(c.1 t, c.2 t), List.mem_map.mpr ⟨c, by simp, rfl⟩, rfl⟩, ?_⟩
  rintro x ⟨d, hdm, rfl⟩
  obtain ⟨e, he, rfl⟩ := List.mem_map.mp hdm
  simp only [List.mem_append, List.mem_cons] at he
  rcases he with h1 | rfl | h1
  · exact (ht e (by simp [h1])).le
  · exact le_rfl
  · exact (ht e (by simp [h1])).le

/-- **C123: heat maps can be learnt from.** A heat map in training whose centres, widths and scale are differentiable functions of a number, with positive widths and scale, and with one centre where the sum of its
Gaussians is larger than at the others. For every point its resolution is positive and differentiable, and so is its efficiency, unless it is exactly where it saturates. -/
theorem smooth (h : Heatmap) (hR : 0 < h.res) (hm : h.training = true ∨ h.realistic = false) (l r : List Moving) (c : Moving) (norm : ℝ → ℝ) (t0 : ℝ)
    (hd : ∀ x ∈ l ++ c :: r, DifferentiableAt ℝ x.1 t0 ∧ DifferentiableAt ℝ x.2 t0) (hw : Wide (atTime (l ++ c :: r) t0)) (hp : Peaked l r c t0) (dn : DifferentiableAt ℝ norm t0) (hn : 0 < norm t0)
    (q : ℝ × ℝ) : ∃ R E : ℝ → ℝ, (∀ᶠ t in 𝓝 t0, 0 < R t ∧ ∀ inside, (shaped h (l ++ c :: r) norm t).resAt q inside = (R t, R t) ∧ (shaped h (l ++ c :: r) norm t).effAt q inside = E t) ∧
      DifferentiableAt ℝ R t0 ∧ ((∀ M, Highest (atTime (l ++ c :: r) t0) M → norm t0 * cover (atTime (l ++ c :: r) t0) q ≠ M) → DifferentiableAt ℝ E t0) := by
  have dq := cover_diff (fun _ => q) t0 (differentiableAt_const _) _ hd hw
  have dc := cover_diff c.1 t0 (hd c (by simp)).1 _ hd hw
  have hne : ∀ t, atTime (l ++ c :: r) t ≠ [] := fun t => by simp [atTime]
  have pq := cover_pos _ (hne t0) hw q
  have pc := cover_pos _ (hne t0) hw (c.1 t0)
  have near := highest_near l r c t0 hd hw hp
  have dv : DifferentiableAt ℝ (fun t => norm t * (cover (atTime (l ++ c :: r) t) q / cover (atTime (l ++ c :: r) t) (c.1 t))) t0 := dn.fun_mul (dq.fun_div dc pc.ne')
  have pv : 0 < norm t0 * (cover (atTime (l ++ c :: r) t0) q / cover (atTime (l ++ c :: r) t0) (c.1 t0)) := by positivity
  refine ⟨fun t => h.res * sqrt (norm t * (cover (atTime (l ++ c :: r) t) q / cover (atTime (l ++ c :: r) t) (c.1 t))),
    fun t => h.eff * min 1 (norm t * (cover (atTime (l ++ c :: r) t) q / cover (atTime (l ++ c :: r) t) (c.1 t))), ?_, (dv.sqrt pv.ne').const_mul _, ?_⟩
  · filter_upwards [near, wide_near t0 _ hd hw, dn.continuousAt.eventually (lt_mem_nhds hn)] with t h1 h2 h3
    have := cover_pos _ (hne t) h2 q
    have := cover_pos _ (hne t) h2 (c.1 t)
    exact ⟨by positivity, fun inside => answer { h with norm := norm t } _ h2 h3.le hm _ h1 q inside⟩
  · intro hsat
    have h1 := hsat _ near.self_of_nhds
    have h2 : norm t0 * (cover (atTime (l ++ c :: r) t0) q / cover (atTime (l ++ c :: r) t0) (c.1 t0)) ≠ 1 := by
      rw [← mul_div_assoc, Ne, div_eq_one_iff_eq pc.ne']
      exact h1
    refine DifferentiableAt.const_mul ?_ _
    rcases lt_or_gt_of_ne h2 with h3 | h3
    · refine dv.congr_of_eventuallyEq ?_
      filter_upwards [dv.continuousAt.eventually (gt_mem_nhds h3)] with t ht
      exact min_eq_right ht.le
    · refine (differentiableAt_const (1 : ℝ)).congr_of_eventuallyEq ?_
      filter_upwards [dv.continuousAt.eventually (lt_mem_nhds h3)] with t ht
      exact min_eq_left ht.le

/-- **C123: hits.** So the hits of a muon, their uncertainties and efficiencies are differentiable too, for every noise. -/
theorem hits (h : Heatmap) (hR : 0 < h.res) (hm : h.training = true ∨ h.realistic = false) (l r : List Moving) (c : Moving) (norm : ℝ → ℝ) (t0 : ℝ)
    (hd : ∀ x ∈ l ++ c :: r, DifferentiableAt ℝ x.1 t0 ∧ DifferentiableAt ℝ x.2 t0) (hw : Wide (atTime (l ++ c :: r) t0)) (hp : Peaked l r c t0) (dn : DifferentiableAt ℝ norm t0) (hn : 0 < norm t0)
    (noise : Nat → ℝ × ℝ) (b : Batch Row) (i : Nat) (m : Muon) (hi : b.muons[i]? = some m)
    (hs : ∀ M, Highest (atTime (l ++ c :: r) t0) M → norm t0 * cover (atTime (l ++ c :: r) t0) (m.x, m.y) ≠ M) :
    ∃ x y u e : ℝ → ℝ, DifferentiableAt ℝ x t0 ∧ DifferentiableAt ℝ y t0 ∧ DifferentiableAt ℝ u t0 ∧ DifferentiableAt ℝ e t0 ∧
      ∀ᶠ t in 𝓝 t0, ∃ reco gen unc eff, (shaped h (l ++ c :: r) norm t).getHits noise b = [("reco_xyz", reco), ("gen_xyz", gen), ("unc_xyz", unc), ("eff", eff)] ∧
        reco[i]? = some [.num (x t), .num (y t), .num h.z] ∧ unc[i]? = some [.num (u t), .num (u t), .num 0] ∧ eff[i]? = some [.num (e t)] := by
  obtain ⟨R, E, near, dR, dE⟩ := smooth h hR hm l r c norm t0 hd hw hp dn hn (m.x, m.y)
  have pR : 0 < R t0 := near.self_of_nhds.1
  refine ⟨fun t => m.x + (noise m.id).1 / R t, fun t => m.y + (noise m.id).2 / R t, fun t => 1 / R t, E, ((differentiableAt_const _).fun_div dR pR.ne').const_add _,
    ((differentiableAt_const _).fun_div dR pR.ne').const_add _, (differentiableAt_const _).fun_div dR pR.ne', dE hs, ?_⟩
  filter_upwards [near, dn.continuousAt.eventually (lt_mem_nhds hn)] with t ht hnt
  have hprop : C96.Proper (shaped h (l ++ c :: r) norm t) := ⟨hR, hnt, by simp [shaped, withClusters, atTime], by simp [shaped, withClusters]⟩
  obtain ⟨reco, gen, unc, eff, e1, e2⟩ := C96.hits_training (shaped h (l ++ c :: r) norm t) hprop hm noise b
  obtain ⟨ρ, hρ, er, -, g1, g2, g3⟩ := e2 i m hi
  have eρ : ρ = R t := by
    have h1 := er true
    rw [(ht.2 true).1] at h1
    exact (Prod.mk.inj h1).1.symm
  subst eρ
  refine ⟨reco, gen, unc, eff, e1, g1, g2, ?_⟩
  rw [g3, ← (ht.2 true).2]
  have hc : (shaped h (l ++ c :: r) norm t).continuous = true := by
    show (h.training || !h.realistic) = true
    rcases hm with h | h <;> simp [h]
  have h1 := (ht.2 true).1
  unfold Heatmap.resAt at h1
  unfold Heatmap.effAt
  rw [if_pos hc] at h1 ⊢
  have hR' : (shaped h (l ++ c :: r) norm t).res ≠ 0 := hR.ne'
  have h2 : R t / (shaped h (l ++ c :: r) norm t).res = (shaped h (l ++ c :: r) norm t).gmm (m.x, m.y) := by
    rw [← (Prod.mk.inj h1).1, mul_div_cancel_left₀ _ hR']
  rw [h2, sq]

/-- **C123: the scale.** A larger scale improves the resolution everywhere, and the efficiency where it is not saturated; where it is saturated, it does not change. -/
theorem scale (h : Heatmap) (hR : 0 < h.res) (hE : 0 < h.eff) (hm : h.training = true ∨ h.realistic = false) (cs : List ((ℝ × ℝ) × ℝ × ℝ)) (hw : Wide cs) (M : ℝ) (hM : Highest cs M) (n : ℝ) (hn : 0 < n) (q : ℝ × ℝ) (inside : Bool) :
    (∃ d > 0, HasDerivAt (fun t => ((withClusters { h with norm := t } cs).resAt q inside).1) d n) ∧
    (n * cover cs q < M → ∃ d > 0, HasDerivAt (fun t => (withClusters { h with norm := t } cs).effAt q inside) d n) ∧
    (M < n * cover cs q → ∀ᶠ t in 𝓝 n, (withClusters { h with norm := t } cs).effAt q inside = h.eff) := by
  obtain ⟨⟨c0, hc0, e0⟩, -⟩ := id hM
  have hne : cs ≠ [] := List.ne_nil_of_mem hc0
  have hMp : 0 < M := e0 ▸ cover_pos cs hne hw _
  have hq := cover_pos cs hne hw q
  have ans : ∀ t : ℝ, 0 < t → _ := fun t ht => answer { h with norm := t } cs hw (le_of_lt ht) hm M hM q inside
  have pos := lt_mem_nhds hn
  have dv : HasDerivAt (fun t : ℝ => t * (cover cs q / M)) (cover cs q / M) n := by simpa using (hasDerivAt_id n).mul_const (cover cs q / M)
  refine ⟨⟨h.res * (cover cs q / M / (2 * sqrt (n * (cover cs q / M)))), by positivity, ?_⟩, fun hs => ⟨h.eff * (cover cs q / M), by positivity, ?_⟩, fun hs => ?_⟩
  · refine ((dv.sqrt (by positivity)).const_mul h.res).congr_of_eventuallyEq ?_
    filter_upwards [pos] with t ht
    rw [(ans t ht).1]
  · refine (dv.const_mul h.eff).congr_of_eventuallyEq ?_
    have hs' : n * (cover cs q / M) < 1 := by rw [← mul_div_assoc, div_lt_one hMp]; exact hs
    filter_upwards [pos, dv.continuousAt.eventually (gt_mem_nhds hs')] with t ht h1
    rw [(ans t ht).2]
    simp only
    rw [min_eq_right h1.le]
  · have hs' : 1 < n * (cover cs q / M) := by rw [← mul_div_assoc, one_lt_div hMp]; exact hs
    filter_upwards [pos, dv.continuousAt.eventually (lt_mem_nhds hs')] with t ht h1
    rw [(ans t ht).2]
    simp only
    rw [min_eq_left h1.le, mul_one]

/-- how far a point is from a centre, in widths -/
def off (m s q : ℝ × ℝ) : ℝ := (q.1 - m.1) ^ 2 / (2 * s.1 ^ 2) + (q.2 - m.2) ^ 2 / (2 * s.2 ^ 2)

theorem one_cluster (h : Heatmap) (hn : 0 ≤ h.norm) (hm : h.training = true ∨ h.realistic = false) (m s : ℝ × ℝ) (hs : 0 < s.1 ∧ 0 < s.2) (q : ℝ × ℝ) (inside : Bool) :
    ((withClusters h [(m, s)]).resAt q inside).1 = h.res * sqrt (h.norm * exp (-off m s q)) ∧ (withClusters h [(m, s)]).effAt q inside = h.eff * min 1 (h.norm * exp (-off m s q)) := by
  have hw : Wide [(m, s)] := by
    intro c hc
    rw [List.mem_singleton.mp hc]
    exact hs
  have hM : Highest [(m, s)] (cover [(m, s)] m) := ⟨⟨(m, s), by simp, rfl⟩, by rintro x ⟨c, hc, rfl⟩; rw [List.mem_singleton.mp hc]⟩
  have e : cover [(m, s)] q / cover [(m, s)] m = exp (-off m s q) := by
    have h1 := hs.1.ne'
    have h2 := hs.2.ne'
    simp only [cover, gauss, List.map_cons, List.map_nil, List.sum_cons, List.sum_nil, add_zero, sub_self, off]
    simp
    field_simp
  obtain ⟨a, b⟩ := answer h _ hw hn hm _ hM q inside
  rw [e] at a b
  exact ⟨by rw [a], b⟩

theorem off_deriv (h : Heatmap) (hR : 0 < h.res) (hE : 0 < h.eff) (hn : 0 < h.norm) (hm : h.training = true ∨ h.realistic = false) (m s : ℝ → ℝ × ℝ) (t0 : ℝ)
    (hs : ∀ᶠ t in 𝓝 t0, 0 < (s t).1 ∧ 0 < (s t).2) (q : ℝ × ℝ) (inside : Bool) (w : ℝ) (dw : HasDerivAt (fun t => off (m t) (s t) q) (-w) t0) :
    (∃ k > 0, HasDerivAt (fun t => ((withClusters h [(m t, s t)]).resAt q inside).1) (k * w) t0) ∧
    (h.norm * exp (-off (m t0) (s t0) q) < 1 → ∃ k > 0, HasDerivAt (fun t => (withClusters h [(m t, s t)]).effAt q inside) (k * w) t0) := by
  have dv : HasDerivAt (fun t => h.norm * exp (-off (m t) (s t) q)) (h.norm * (exp (-off (m t0) (s t0) q) * - -w)) t0 := dw.neg.exp.const_mul h.norm
  rw [neg_neg] at dv
  have pv : 0 < h.norm * exp (-off (m t0) (s t0) q) := mul_pos hn (exp_pos _)
  refine ⟨⟨h.res * (h.norm * exp (-off (m t0) (s t0) q) / (2 * sqrt (h.norm * exp (-off (m t0) (s t0) q)))), by positivity, ?_⟩, fun h1 => ⟨h.eff * (h.norm * exp (-off (m t0) (s t0) q)), by positivity, ?_⟩⟩
  · refine (((dv.sqrt pv.ne').const_mul h.res).congr_deriv (by ring)).congr_of_eventuallyEq ?_
    filter_upwards [hs] with t ht
    exact (one_cluster h hn.le hm _ _ ht q inside).1
  · refine ((dv.const_mul h.eff).congr_deriv (by ring)).congr_of_eventuallyEq ?_
    filter_upwards [hs, dv.continuousAt.eventually (gt_mem_nhds h1)] with t ht h2
    rw [(one_cluster h hn.le hm _ _ ht q inside).2, min_eq_right h2.le]

/-- **C123: a single cluster.** If there is only one cluster, moving its centre in x towards a muon improves resolution and, where it is not saturated, efficiency for this muon, and so does widening it. -/
theorem alone (h : Heatmap) (hR : 0 < h.res) (hE : 0 < h.eff) (hn : 0 < h.norm) (hm : h.training = true ∨ h.realistic = false) (m s : ℝ × ℝ) (hs : 0 < s.1 ∧ 0 < s.2) (q : ℝ × ℝ) (hq : q.1 ≠ m.1) (inside : Bool) :
    (∃ d, 0 < d * (q.1 - m.1) ∧ HasDerivAt (fun a => ((withClusters h [((a, m.2), s)]).resAt q inside).1) d m.1) ∧
    (∃ d > 0, HasDerivAt (fun a => ((withClusters h [(m, (a, s.2))]).resAt q inside).1) d s.1) ∧
    (h.norm * exp (-((q.1 - m.1) ^ 2 / (2 * s.1 ^ 2) + (q.2 - m.2) ^ 2 / (2 * s.2 ^ 2))) < 1 →
      (∃ d, 0 < d * (q.1 - m.1) ∧ HasDerivAt (fun a => (withClusters h [((a, m.2), s)]).effAt q inside) d m.1) ∧
      ∃ d > 0, HasDerivAt (fun a => (withClusters h [(m, (a, s.2))]).effAt q inside) d s.1) := by
  have h1 := hs.1
  have hne := sub_ne_zero.mpr hq
  have sq : 0 < (q.1 - m.1) ^ 2 := by positivity
  have d1 : HasDerivAt (fun a => off (a, m.2) s q) (-((q.1 - m.1) / s.1 ^ 2)) m.1 := by
    have := ((((hasDerivAt_id m.1).const_sub q.1).fun_pow 2).div_const (2 * s.1 ^ 2)).add_const ((q.2 - m.2) ^ 2 / (2 * s.2 ^ 2))
    refine this.congr_deriv ?_
    simp
    field_simp
  have d2 : HasDerivAt (fun a => off m (a, s.2) q) (-((q.1 - m.1) ^ 2 / s.1 ^ 3)) s.1 := by
    have := ((hasDerivAt_const s.1 ((q.1 - m.1) ^ 2)).fun_div (((hasDerivAt_id s.1).fun_pow 2).const_mul 2) (by simp; exact h1.ne')).add_const ((q.2 - m.2) ^ 2 / (2 * s.2 ^ 2))
    refine this.congr_deriv ?_
    simp
    field_simp
  obtain ⟨⟨k1, p1, r1⟩, e1⟩ := off_deriv h hR hE hn hm (fun a => (a, m.2)) (fun _ => s) m.1 (Eventually.of_forall fun _ => hs) q inside _ d1
  obtain ⟨⟨k2, p2, r2⟩, e2⟩ := off_deriv h hR hE hn hm (fun _ => m) (fun a => (a, s.2)) s.1 (by filter_upwards [lt_mem_nhds h1] with t ht; exact ⟨ht, hs.2⟩) q inside _ d2
  have p : ∀ k : ℝ, 0 < k → 0 < k * ((q.1 - m.1) / s.1 ^ 2) * (q.1 - m.1) := fun k hk => by
    rw [show k * ((q.1 - m.1) / s.1 ^ 2) * (q.1 - m.1) = k * ((q.1 - m.1) ^ 2 / s.1 ^ 2) by ring]
    positivity
  refine ⟨⟨_, p k1 p1, r1⟩, ⟨_, by positivity, r2⟩, fun hl => ?_⟩
  obtain ⟨k3, p3, r3⟩ := e1 hl
  obtain ⟨k4, p4, r4⟩ := e2 hl
  exact ⟨⟨_, p k3 p3, r3⟩, ⟨_, by positivity, r4⟩⟩

/-! ### Where the derivatives point the wrong way, or do not exist -/

/-- Two round clusters of width 1, at the origin and at `a` on the x axis. -/
def pair (a : ℝ) : List ((ℝ × ℝ) × ℝ × ℝ) := [((0, 0), (1, 1)), ((a, 0), (1, 1))]

theorem pair_highest (a : ℝ) : Highest (pair a) (1 + exp (-(a ^ 2 / 2))) := by
  have e0 : cover (pair a) (0, 0) = 1 + exp (-(a ^ 2 / 2)) := by simp [cover, pair, gauss]
  have e1 : cover (pair a) (a, 0) = 1 + exp (-(a ^ 2 / 2)) := by simp [cover, pair, gauss, add_comm]
  refine ⟨⟨((0, 0), (1, 1)), by simp [pair], e0.symm⟩, ?_⟩
  rintro x ⟨c, hc, rfl⟩
  simp only [pair, List.mem_cons, List.not_mem_nil, or_false] at hc
  rcases hc with rfl | rfl
  · exact e0.le
  · exact e1.le

theorem pair_wide (a : ℝ) : Wide (pair a) := by
  intro c hc
  simp only [pair, List.mem_cons, List.not_mem_nil, or_false] at hc
  rcases hc with rfl | rfl <;> norm_num

/-- **C123 (violated): closer is worse.** With two clusters of equal widths, at the origin and at x = 2, and a muon at x = -1: the derivative of the resolution by the position of the second cluster is positive, so moving
this cluster towards the muon makes the resolution there worse. -/
theorem closer_violated (h : Heatmap) (hR : 0 < h.res) (hn : 0 < h.norm) (hm : h.training = true ∨ h.realistic = false) (inside : Bool) :
    ∃ d > 0, HasDerivAt (fun a => ((withClusters h (pair a)).resAt (-1, 0) inside).1) d 2 := by
  have ans : ∀ a, ((withClusters h (pair a)).resAt (-1, 0) inside).1 = h.res * sqrt (h.norm * ((exp (-(1 / 2)) + exp (-((1 + a) ^ 2 / 2))) / (1 + exp (-(a ^ 2 / 2))))) := by
    intro a
    rw [(answer h (pair a) (pair_wide a) hn.le hm _ (pair_highest a) (-1, 0) inside).1]
    have : cover (pair a) (-1, 0) = exp (-(1 / 2)) + exp (-((1 + a) ^ 2 / 2)) := by
      simp only [cover, pair, gauss, List.map_cons, List.map_nil, List.sum_cons, List.sum_nil, add_zero, sub_zero]
      norm_num
      ring_nf
    rw [this]
  simp only [ans]
  have du : HasDerivAt (fun a : ℝ => exp (-((1 + a) ^ 2 / 2))) (exp (-((1 + 2) ^ 2 / 2)) * -3) 2 := by
    refine (((((hasDerivAt_id (2 : ℝ)).const_add 1).fun_pow 2).div_const 2).neg.exp).congr_deriv ?_
    norm_num
  have dw : HasDerivAt (fun a : ℝ => exp (-(a ^ 2 / 2))) (exp (-(2 ^ 2 / 2)) * -2) 2 := by
    refine ((((hasDerivAt_id (2 : ℝ)).fun_pow 2).div_const 2).neg.exp).congr_deriv ?_
    norm_num
  have p1 : 0 < 1 + exp (-((2 : ℝ) ^ 2 / 2)) := by positivity
  have dv := (((du.const_add (exp (-(1 / 2)))).fun_div (dw.const_add 1) p1.ne').const_mul h.norm).sqrt (by positivity)
  refine ⟨_, ?_, dv.const_mul h.res⟩
  have u : ∀ k : ℕ, exp (-(1 / 2 : ℝ)) ^ k = exp (-(k / 2)) := fun k => by rw [← exp_nat_mul]; congr 1; ring
  have e2 : exp (-((2 : ℝ) ^ 2 / 2)) = exp (-(1 / 2 : ℝ)) ^ 4 := by rw [u]; norm_num
  have e9 : exp (-((1 + 2 : ℝ) ^ 2 / 2)) = exp (-(1 / 2 : ℝ)) ^ 9 := by rw [u]; norm_num
  have p4 : exp (-(1 / 2 : ℝ)) ^ 4 < 1 / 2 := by
    rw [u]
    have h2 : exp (-((4 : ℕ) / 2 : ℝ)) = (exp 2)⁻¹ := by rw [← exp_neg]; norm_num
    rw [h2, one_div, inv_lt_inv₀ (exp_pos _) (by norm_num)]
    have := add_one_le_exp (2 : ℝ)
    linarith
  have key : 0 < exp (-((1 + 2 : ℝ) ^ 2 / 2)) * -3 * (1 + exp (-((2 : ℝ) ^ 2 / 2))) - (exp (-(1 / 2)) + exp (-((1 + 2) ^ 2 / 2))) * (exp (-(2 ^ 2 / 2)) * -2) := by
    rw [e2, e9]
    have hu := exp_pos (-(1 / 2 : ℝ))
    generalize exp (-(1 / 2 : ℝ)) = v at *
    have h5 : 0 < v ^ 5 := by positivity
    have h4 : 0 < v ^ 4 := by positivity
    rw [show v ^ 9 * -3 * (1 + v ^ 4) - (v + v ^ 9) * (v ^ 4 * -2) = v ^ 5 * (2 - 3 * v ^ 4 - (v ^ 4) ^ 2) by ring]
    refine mul_pos h5 ?_
    nlinarith
  positivity

theorem abs_corner (g : ℝ → ℝ) (d : ℝ) (hg : HasDerivAt g d 0) (h0 : g 0 = 0) (hd : d ≠ 0) : ¬ DifferentiableAt ℝ (fun t => |g t|) 0 := by
  intro h
  have hmin : IsLocalMin (fun t => |g t|) 0 := Eventually.of_forall fun t => by simp [h0]
  have hz := hmin.hasDerivAt_eq_zero h.hasDerivAt
  have s1 := (hasDerivAt_iff_tendsto_slope.mp h.hasDerivAt).abs
  have s2 := (hasDerivAt_iff_tendsto_slope.mp hg).abs
  have e : (fun t => |slope (fun t => |g t|) 0 t|) = fun t => |slope g 0 t| := by
    funext t
    simp [slope_def_field, h0, abs_div]
  rw [e, hz, abs_zero] at s1
  exact hd (abs_eq_zero.mp (tendsto_nhds_unique s2 s1))

/-- The same two clusters a width apart, the second with width `1 + t` in x. -/
def uneven (t : ℝ) : List ((ℝ × ℝ) × ℝ × ℝ) := [((0, 0), (1, 1)), ((1, 0), (1 + t, 1))]

/-- **C123 (violated): corners.** Where two centres are equally high the answer has a corner: two clusters of width 1, a width apart. No resolution is a differentiable function of the width of the second in x. -/
theorem corner_violated (h : Heatmap) (hR : 0 < h.res) (hn : 0 < h.norm) (hm : h.training = true ∨ h.realistic = false) (q : ℝ × ℝ) (inside : Bool) :
    ¬ DifferentiableAt ℝ (fun t => ((withClusters h (uneven t)).resAt q inside).1) 0 := by
  intro hdiff
  have near : ∀ᶠ t in 𝓝 (0 : ℝ), 0 < 1 + t := by
    filter_upwards [lt_mem_nhds (show (-1 : ℝ) < 0 by norm_num)] with t ht
    linarith
  have wide : ∀ t : ℝ, 0 < 1 + t → Wide (uneven t) := by
    intro t ht c hc
    simp only [uneven, List.mem_cons, List.not_mem_nil, or_false] at hc
    rcases hc with rfl | rfl
    · norm_num
    · exact ⟨ht, one_pos⟩
  have e0 : ∀ t, cover (uneven t) (0, 0) = 1 + exp (-(1 / (2 * (1 + t) ^ 2))) / (1 + t) := by intro t; simp [cover, uneven, gauss]
  have e1 : ∀ t, cover (uneven t) (1, 0) = exp (-(1 / 2)) + 1 / (1 + t) := by intro t; simp [cover, uneven, gauss]
  have high : ∀ t, Highest (uneven t) (max (cover (uneven t) (0, 0)) (cover (uneven t) (1, 0))) := by
    intro t
    refine ⟨?_, ?_⟩
    · rcases max_choice (cover (uneven t) (0, 0)) (cover (uneven t) (1, 0)) with h | h
      · exact ⟨((0, 0), (1, 1)), by simp [uneven], h⟩
      · exact ⟨((1, 0), (1 + t, 1)), by simp [uneven], h⟩
    · rintro x ⟨c, hc, rfl⟩
      simp only [uneven, List.mem_cons, List.not_mem_nil, or_false] at hc
      rcases hc with rfl | rfl
      · exact le_max_left _ _
      · exact le_max_right _ _
  have a : HasDerivAt (fun t : ℝ => 1 + t) 1 0 := by simpa using (hasDerivAt_id (0 : ℝ)).const_add 1
  have d0 : HasDerivAt (fun t => cover (uneven t) (0, 0)) 0 0 := by
    simp only [e0]
    have b : HasDerivAt (fun t : ℝ => -(1 / (2 * (1 + t) ^ 2))) 1 0 := by
      refine (((hasDerivAt_const (0 : ℝ) (1 : ℝ)).fun_div ((a.fun_pow 2).const_mul 2) (by norm_num)).neg).congr_deriv ?_
      norm_num
    refine ((b.exp.fun_div a (by norm_num)).const_add 1).congr_deriv ?_
    norm_num
  have d1 : HasDerivAt (fun t => cover (uneven t) (1, 0)) (-1) 0 := by
    simp only [e1]
    refine (((hasDerivAt_const (0 : ℝ) (1 : ℝ)).fun_div a (by norm_num)).const_add (exp (-(1 / 2)))).congr_deriv ?_
    norm_num
  have dq : DifferentiableAt ℝ (fun t => cover (uneven t) q) 0 := by
    have := cover_diff (fun _ => q) 0 (differentiableAt_const _) [(fun _ => (0, 0), fun _ => (1, 1)), (fun _ => (1, 0), fun t => (1 + t, 1))]
      (by
        intro c hc
        simp only [List.mem_cons, List.not_mem_nil, or_false] at hc
        rcases hc with rfl | rfl
        · exact ⟨differentiableAt_const _, differentiableAt_const _⟩
        · exact ⟨differentiableAt_const _, a.differentiableAt.prodMk (differentiableAt_const _)⟩)
      (wide 0 (by norm_num))
    exact this
  have pq : ∀ t : ℝ, 0 < 1 + t → ∀ x, 0 < cover (uneven t) x := fun t ht x => cover_pos _ (by simp [uneven]) (wide t ht) x
  have dM : DifferentiableAt ℝ (fun t => max (cover (uneven t) (0, 0)) (cover (uneven t) (1, 0))) 0 := by
    have hp : 0 < ((withClusters h (uneven 0)).resAt q inside).1 := by
      rw [(answer h _ (wide 0 (by norm_num)) hn.le hm _ (high 0) q inside).1]
      have := pq 0 (by norm_num) q
      have := lt_max_of_lt_left (c := cover (uneven 0) (1, 0)) (pq 0 (by norm_num) (0, 0))
      positivity
    have := (dq.const_mul (h.res ^ 2 * h.norm)).fun_div (hdiff.fun_pow 2) (by positivity)
    refine this.congr_of_eventuallyEq ?_
    filter_upwards [near] with t ht
    rw [(answer h _ (wide t ht) hn.le hm _ (high t) q inside).1]
    have p1 := pq t ht q
    have p2 := lt_max_of_lt_left (c := cover (uneven t) (1, 0)) (pq t ht (0, 0))
    simp only
    rw [mul_pow, sq_sqrt (by positivity)]
    field_simp
  have dabs : DifferentiableAt ℝ (fun t => |cover (uneven t) (0, 0) - cover (uneven t) (1, 0)|) 0 := by
    have := ((dM.const_mul 2).fun_sub d0.differentiableAt).fun_sub d1.differentiableAt
    refine this.congr_of_eventuallyEq (Eventually.of_forall fun t => ?_)
    simp only
    rcases le_total (cover (uneven t) (0, 0)) (cover (uneven t) (1, 0)) with h | h
    · rw [max_eq_right h, abs_of_nonpos (by linarith)]
      ring
    · rw [max_eq_left h, abs_of_nonneg (by linarith)]
      ring
  refine abs_corner _ _ (d0.fun_sub d1) ?_ (by norm_num) dabs
  rw [e0, e1]
  norm_num
  ring

/-- A heat map in training with a narrow cluster that moves along x and a wide one beside it: the conditions of `smooth` are met, and the efficiency for a muon in the middle between them is not saturated. -/
example : let l : List Moving := []
    let c : Moving := (fun t => (t, 0), fun _ => (1, 1))
    let r : List Moving := [(fun _ => (3, 0), fun _ => (2, 2))]
    (∀ x ∈ l ++ c :: r, DifferentiableAt ℝ x.1 0 ∧ DifferentiableAt ℝ x.2 0) ∧ Wide (atTime (l ++ c :: r) 0) ∧ Peaked l r c 0 ∧ (C69.hm (0, 0) 1 [] [] 1).training = true ∧
      ∀ M, Highest (atTime (l ++ c :: r) 0) M → 1 * cover (atTime (l ++ c :: r) 0) (1.5, 0) ≠ M := by
  intro l c r
  have wide : Wide (atTime (l ++ c :: r) 0) := by
    intro x hx
    simp only [atTime, l, c, r, List.nil_append, List.map_cons, List.map_nil, List.mem_cons, List.not_mem_nil, or_false] at hx
    rcases hx with rfl | rfl <;> norm_num
  have cov : ∀ q, cover (atTime (l ++ c :: r) 0) q = gauss (0, 0) (1, 1) q + gauss (3, 0) (2, 2) q := by intro q; simp [cover, atTime, l, c, r]
  have ex : ∀ x : ℝ, 0 < x → exp (-x) < 1 / (1 + x) := by
    intro x hx
    rw [exp_neg, one_div, inv_lt_inv₀ (exp_pos _) (by linarith)]
    have := add_one_lt_exp hx.ne'
    linarith
  refine ⟨?_, wide, ?_, rfl, ?_⟩
  · intro x hx
    simp only [l, c, r, List.nil_append, List.mem_cons, List.not_mem_nil, or_false] at hx
    rcases hx with rfl | rfl
    · exact ⟨differentiableAt_id.prodMk (differentiableAt_const _), differentiableAt_const _⟩
    · exact ⟨differentiableAt_const _, differentiableAt_const _⟩
  · intro d hd
    simp only [l, r, List.nil_append, List.mem_cons, List.not_mem_nil, or_false] at hd
    subst hd
    simp only [cov, gauss, c]
    have h1 := ex (9 / 2) (by norm_num)
    have h2 := exp_pos (-(9 / 8) : ℝ)
    norm_num at *
    linarith
  · intro M hM
    have h3 : cover (atTime (l ++ c :: r) 0) (c.1 0) ≤ M := hM.2 ⟨(c.1 0, c.2 0), by simp [atTime], rfl⟩
    have h1 : cover (atTime (l ++ c :: r) 0) (1.5, 0) < 1 := by
      simp only [cov, gauss]
      have h1 := ex (9 / 8) (by norm_num)
      have h2 := ex (9 / 32) (by norm_num)
      norm_num at *
      linarith
    have h4 : 1 < cover (atTime (l ++ c :: r) 0) (c.1 0) := by
      simp only [cov, gauss, c]
      have := exp_pos (-(9 / 8) : ℝ)
      norm_num
      exact this
    rw [one_mul]
    exact (h1.trans (h4.trans_le h3)).ne

/-- A cluster at the origin and a muon beside it. -/
example : let h := C69.hm (0, 0) 1 [] [] 1
    0 < h.res ∧ 0 < h.eff ∧ 0 < h.norm ∧ h.training = true ∧ ((1 : ℝ), (0 : ℝ)).1 ≠ ((0 : ℝ), (0 : ℝ)).1 ∧ Wide (pair 2) ∧ Highest (pair 2) (1 + exp (-(2 ^ 2 / 2))) := by
  refine ⟨by norm_num [C69.hm], by norm_num [C69.hm], by norm_num [C69.hm], rfl, by norm_num, pair_wide 2, pair_highest 2⟩

end C123

end

end Tomopt
