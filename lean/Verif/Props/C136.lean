import Verif.Lemmas.Within
import Verif.Lemmas.Floats
import Verif.Props.C98
import Mathlib.Data.Nat.Log

/- C136: the X0 predicted for a voxel in floating point. -/
namespace Tomopt

noncomputable section

open Real Infer C98

namespace C136

/-- the X0 the code computes for a voxel in floating point -/
def predictedFl (fl cosFl : ℝ → ℝ) (sum : List ℝ → ℝ) (big size : ℝ) (ms : List Seen) : XF := voxelX0Fl fl cosFl sum big size (ms.map (·.row)) (ms.map (·.eff)) (ms.map (·.prob))

variable {ε : ℝ} {fl cosFl : ℝ → ℝ} {D : Nat → Nat} {sm : List ℝ → ℝ}

/-- weight of a muon, rounded -/
def weightFl (fl : ℝ → ℝ) (x u : MuRow → ℝ) (m : Seen) : ℝ := fl (fl (m.eff * m.prob) / sqVarFl fl (x m.row) (u m.row))

theorem sqVar_within (hr : Rounds ε fl) {x u : ℝ} (hx : 0 < x) (hu : 0 < u) : 0 < sqVarFl fl x u ∧ Within ε 5 (sqVarFl fl x u) (squareVar x u) := by
  have a : Within ε 1 (fl (2 * x)) (2 * x) := .round_one hr (by positivity)
  have a0 : 0 < fl (2 * x) := Within.fl_pos hr (by positivity)
  have b : Within ε 2 (fl (fl (2 * x) * u)) (2 * x * u) := .round hr (by positivity) (.mul (k := 0) hr a0.le (by positivity) hu.le hu.le a (.refl hr 0 hu.le))
  have b0 : 0 < fl (fl (2 * x) * u) := Within.fl_pos hr (by positivity)
  rw [squareVar_eq, sqVarFl, sq, sq]
  refine ⟨Within.fl_pos hr (by positivity), ?_⟩
  exact .round hr (by positivity) (.mul (j := 2) (k := 2) hr b0.le (by positivity) b0.le (by positivity) b b)

theorem weight_within (hr : Rounds ε fl) {x u : MuRow → ℝ} {m : Seen} (he : 0 < m.eff) (hp : 0 < m.prob) (hx : 0 < x m.row) (hu : 0 < u m.row) :
    0 < weightFl fl x u m ∧ Within ε 7 (weightFl fl x u m) (weight x u m) := by
  obtain ⟨v0, v⟩ := sqVar_within hr hx hu
  have w0 : 0 < m.eff * m.prob := mul_pos he hp
  have f0 : 0 < fl (m.eff * m.prob) := Within.fl_pos hr w0
  have s0 : 0 < squareVar (x m.row) (u m.row) := by rw [squareVar_eq]; positivity
  exact ⟨Within.fl_pos hr (by positivity), Within.round hr (by positivity) (Within.div (j := 1) (k := 5) hr f0.le w0.le v0 s0 (.round_one hr w0.le) v)⟩

theorem wgtFl_eq (hr : Rounds ε fl) (big : ℝ) (x u : MuRow → ℝ) (ms : List Seen) (h : ∀ m ∈ ms, 0 < x m.row ∧ 0 < u m.row) :
    List.zipWith (fun w v => nanToNum big (xround fl (XF.quot w v))) (List.zipWith (fun e p => fl (e * p)) (ms.map (·.eff)) (ms.map (·.prob)))
      ((ms.map (·.row)).map fun r => sqVarFl fl (x r) (u r)) = ms.map (weightFl fl x u) := by
  rw [zip_map (·.eff) (·.prob) (fun m => fl (m.eff * m.prob)) _ ms (fun _ _ => rfl), List.map_map]
  refine zip_map (fun m : Seen => fl (m.eff * m.prob)) (fun m => sqVarFl fl (x m.row) (u m.row)) _ _ ms fun m hm => ?_
  obtain ⟨hx, hu⟩ := h m hm
  rw [XF.quot, if_pos (sqVar_within hr hx hu).1.ne', xround, nanToNum, weightFl]

/-- the root mean square with weights that are rounded, against the exact one -/
theorem rms_within (hr : Rounds ε fl) (hs : Summation fl D sm) (x w w' : Seen → ℝ) (ms : List Seen) (hne : ms ≠ []) (hx : ∀ m ∈ ms, 0 < x m) (hw : ∀ m ∈ ms, 0 < w m)
    (h : ∀ m ∈ ms, 0 < w' m ∧ Within ε 7 (w' m) (w m)) :
    ∃ r, weightedRmsFl fl sm (ms.map x) (ms.map w') = some r ∧ 0 < r ∧ Within ε (10 + D ms.length) r (√(wmean w (fun m => x m ^ 2) ms)) := by
  have W := Within.summed' hr hs w' w ms (fun m hm => (h m hm).1.le) fun m hm => (h m hm).2
  have W0 := sum_pos_of w ms hne hw
  have W1 : 0 < sm (ms.map w') := W.pos hr W0
  have T : ∀ m ∈ ms, 0 < fl (fl (x m ^ 2) * w' m) ∧ Within ε 9 (fl (fl (x m ^ 2) * w' m)) (w m * x m ^ 2) := fun m hm => by
    have x2 : 0 < x m ^ 2 := pow_pos (hx m hm) 2
    have f0 : 0 < fl (x m ^ 2) := Within.fl_pos hr x2
    obtain ⟨w0, ww⟩ := h m hm
    refine ⟨Within.fl_pos hr (by positivity), ?_⟩
    rw [mul_comm (w m)]
    exact .round hr (by positivity) (.mul (j := 1) (k := 7) hr f0.le x2.le w0.le (hw m hm).le (.round_one hr x2.le) ww)
  have N := Within.summed' hr hs (fun m => fl (fl (x m ^ 2) * w' m)) (fun m => w m * x m ^ 2) ms (fun m hm => (T m hm).1.le) fun m hm => (T m hm).2
  have N0 : 0 < (ms.map fun m => w m * x m ^ 2).sum := sum_pos_of _ ms hne fun m hm => mul_pos (hw m hm) (pow_pos (hx m hm) 2)
  have N1 := N.pos hr N0
  have Q := Within.round hr (by positivity) (Within.div hr N1.le N0.le W1 W0 N W)
  have Q0 : 0 < fl (sm (ms.map fun m => fl (fl (x m ^ 2) * w' m)) / sm (ms.map w')) := Within.fl_pos hr (by positivity)
  have Q' := Within.mono (k := 2 * (9 + D ms.length)) hr (by omega) Q0.le (by positivity) Q
  have R := Within.round hr (sqrt_nonneg _) (Within.sqrt hr Q')
  refine ⟨fl √(fl (sm (ms.map fun m => fl (fl (x m ^ 2) * w' m)) / sm (ms.map w'))), ?_, Within.fl_pos hr (sqrt_pos.mpr Q0), ?_⟩
  · rw [weightedRmsFl, if_neg W1.ne', zip_map x w' (fun m => fl (fl (x m ^ 2) * w' m)) _ ms fun _ _ => rfl]
  · rw [show 10 + D ms.length = 9 + D ms.length + 1 by omega]
    exact R

/-- a root mean square of angles at most seventy degrees from the vertical -/
theorem cos_rms (w x : Seen → ℝ) (ms : List Seen) (hne : ms ≠ []) (hw : ∀ m ∈ ms, 0 < w m) (hx : ∀ m ∈ ms, 0 < x m ∧ x m < π / 2 ∧ 1 / 3 ≤ cos (x m)) :
    √(wmean w (fun m => x m ^ 2) ms) < π / 2 ∧ 1 / 3 ≤ cos (√(wmean w (fun m => x m ^ 2) ms)) := by
  have h0 := sqrt_nonneg (wmean w (fun m => x m ^ 2) ms)
  have ac : ∀ m ∈ ms, x m ≤ arccos (1 / 3) := fun m hm => by
    rw [← arccos_cos (hx m hm).1.le (by linarith [(hx m hm).2.1, pi_pos])]
    exact arccos_le_arccos (hx m hm).2.2
  have a0 := arccos_nonneg (1 / 3)
  have le : √(wmean w (fun m => x m ^ 2) ms) ≤ arccos (1 / 3) := by
    rw [sqrt_le_left a0, wmean, div_le_iff₀ (sum_pos_of w ms hne hw), ← C71.sum_mul_left]
    refine List.sum_le_sum fun m hm => ?_
    rw [mul_comm (w m)]
    exact mul_le_mul_of_nonneg_right (pow_le_pow_left₀ (hx m hm).1.le (ac m hm) 2) (hw m hm).le
  refine ⟨lt_of_le_of_lt le (arccos_lt_pi_div_two.mpr (by norm_num)), ?_⟩
  calc (1 / 3 : ℝ) = cos (arccos (1 / 3)) := (cos_arccos (by norm_num) (by norm_num)).symm
    _ ≤ _ := cos_le_cos_of_nonneg_of_le_pi h0 (arccos_le_pi _) le

/-- the rounded formula for X0, with arguments that are rounded, against the exact one -/
theorem formula_within (hr : Rounds ε fl) {size S I O M s i o m : ℝ} {c d : Nat} (hsz : 0 < size) (hcos : ∀ x, 0 < cos x → Within ε c (cosFl x) (cos x))
    (hS : 0 < S) (hM : 0 < M) (hI : I < π / 2 ∧ 1 / 3 ≤ cos I) (hO : O < π / 2 ∧ 1 / 3 ≤ cos O) (hq : 19 / 20 ≤ (1 - ε) ^ (10 + d))
    (s0 : 0 < s) (m0 : 0 < m) (ws : Within ε (10 + d) s √S) (wi : Within ε (10 + d) i I) (wo : Within ε (10 + d) o O) (wm : Within ε (10 + d) m √M) :
    ∃ r, x0FromScattersFl fl cosFl size (fl (s / fl √2)) i o m = .num r ∧ Within ε (115 + 10 * d + c) r (fromSquares size S I O M) := by
  have A0 : 0 < scatterCoefA := by unfold scatterCoefA; norm_num
  have fA : 0 < fl scatterCoefA := Within.fl_pos hr A0
  have r2 : (0 : ℝ) < √2 := by positivity
  have f2 : 0 < fl √2 := Within.fl_pos hr r2
  have sS : 0 < √S := sqrt_pos.mpr hS
  have sM : 0 < √M := sqrt_pos.mpr hM
  -- the scattering angle
  have t : Within ε (12 + d) (fl (s / fl √2)) (√S / √2) := by
    rw [show 12 + d = 10 + d + 1 + 1 by omega]
    exact .round hr (by positivity) (.div hr s0.le sS.le f2 r2 ws (.round_one hr r2.le))
  have t0 : 0 < fl (s / fl √2) := Within.fl_pos hr (by positivity)
  have t2 : Within ε (25 + 2 * d) (fl (fl (s / fl √2) ^ 2)) ((√S / √2) ^ 2) := by
    rw [show 25 + 2 * d = (12 + d) + (12 + d) + 1 by omega, sq, sq]
    exact .round hr (by positivity) (.mul hr t0.le (by positivity) t0.le (by positivity) t t)
  have t20 : 0 < fl (fl (s / fl √2) ^ 2) := Within.fl_pos hr (by positivity)
  -- the cosines
  have ci := Within.cosine hr hq hI.2 hI.1.le wi
  have co := Within.cosine hr hq hO.2 hO.1.le wo
  have ci0 : 0 < cos i := ci.pos hr (by linarith [hI.2])
  have co0 : 0 < cos o := co.pos hr (by linarith [hO.2])
  have ki := Within.trans hr (hcos i ci0) ci
  have ko := Within.trans hr (hcos o co0) co
  have ki0 := (hcos i ci0).pos hr ci0
  have ko0 := (hcos o co0).pos hr co0
  have kk := Within.round hr (by positivity) (ki.add ko)
  have kk0 : 0 < fl (cosFl i + cosFl o) := Within.fl_pos hr (by positivity)
  have cI : 0 < cos I + cos O := by linarith [hI.2, hO.2]
  have k2 : Within ε (c + 62 + 6 * d) (fl (fl (cosFl i + cosFl o) / 2)) ((cos I + cos O) / 2) := by
    rw [show c + 62 + 6 * d = c + 6 * (10 + d) + 1 + 0 + 1 by omega]
    exact .round hr (by positivity) (.div (j := c + 6 * (10 + d) + 1) (k := 0) hr kk0.le cI.le two_pos two_pos kk (.refl hr 0 two_pos.le))
  have k20 : 0 < fl (fl (cosFl i + cosFl o) / 2) := Within.fl_pos hr (by positivity)
  have den := Within.round hr (by positivity) (Within.mul hr t20.le (by positivity) k20.le (by positivity) t2 k2)
  have den0 : 0 < fl (fl (fl (s / fl √2) ^ 2) * fl (fl (cosFl i + cosFl o) / 2)) := Within.fl_pos hr (by positivity)
  -- the momentum
  have q : Within ε (12 + d) (fl (fl scatterCoefA / m)) (scatterCoefA / √M) := by
    rw [show 12 + d = 1 + (10 + d) + 1 by omega]
    exact .round hr (by positivity) (.div hr fA.le A0.le m0 sM (.round_one hr A0.le) wm)
  have q0 : 0 < fl (fl scatterCoefA / m) := Within.fl_pos hr (by positivity)
  have q2 : Within ε (25 + 2 * d) (fl (fl (fl scatterCoefA / m) ^ 2)) ((scatterCoefA / √M) ^ 2) := by
    rw [show 25 + 2 * d = (12 + d) + (12 + d) + 1 by omega, sq, sq]
    exact .round hr (by positivity) (.mul hr q0.le (by positivity) q0.le (by positivity) q q)
  have q20 : 0 < fl (fl (fl scatterCoefA / m) ^ 2) := Within.fl_pos hr (by positivity)
  have num := Within.round hr (by positivity) (Within.mul (k := 0) hr q20.le (by positivity) hsz.le hsz.le q2 (.refl hr 0 hsz.le))
  have num0 : 0 < fl (fl (fl (fl scatterCoefA / m) ^ 2) * size) := Within.fl_pos hr (by positivity)
  have all := Within.round hr (by positivity) (Within.div hr num0.le (by positivity) den0 (by positivity) num den)
  refine ⟨fl (fl (fl (fl (fl scatterCoefA / m) ^ 2) * size) / fl (fl (fl (s / fl √2) ^ 2) * fl (fl (cosFl i + cosFl o) / 2))), ?_, ?_⟩
  · simp only [x0FromScattersFl, XF.quot, ne_eq, m0.ne', not_false_eq_true, if_true, xround, xsq, xmulR, XF.div, den0.ne']
  · have e : (scatterCoefA / √M) ^ 2 * size / ((√S / √2) ^ 2 * ((cos I + cos O) / 2)) = fromSquares size S I O M := by
      rw [div_pow, div_pow, sq_sqrt hS.le, sq_sqrt hM.le, sq_sqrt (by norm_num), fromSquares]
      field_simp
    rw [e] at all
    have f0 : 0 < fromSquares size S I O M := by rw [← e]; positivity
    exact all.mono hr (by omega) (Within.fl_pos hr (by positivity)).le f0.le

/-- **C136.** The X0 of a voxel in floating point is the exact one up to a bounded number of relative errors of the rounding: 115, ten for each addition that follows another
when summing over the muons, and those of the cosine; in whatever order sums are taken. -/
theorem accuracy (hr : Rounds ε fl) (hs : Summation fl D sm) (c : Nat) (hcos : ∀ x, 0 < cos x → Within ε c (cosFl x) (cos x)) (big size : ℝ) (hsz : 0 < size) (ms : List Seen) (hne : ms ≠ [])
    (hg : ∀ m ∈ ms, Good m) (h70 : ∀ m ∈ ms, 1 / 3 ≤ cos m.row.thIn ∧ 1 / 3 ≤ cos m.row.thOut) (hq : 19 / 20 ≤ (1 - ε) ^ (10 + D ms.length)) :
    ∃ r x0, predictedFl fl cosFl sm big size ms = .num r ∧ predicted big size ms = .num x0 ∧ 0 < x0 ∧ Within ε (115 + 10 * D ms.length + c) r x0 := by
  have w1 : ∀ m ∈ ms, 0 < weight (·.scat) (·.scatUnc) m := fun m hm => C98.weight_pos (hg m hm).eff (hg m hm).prob (hg m hm).scat (hg m hm).scatUnc
  have w2 : ∀ m ∈ ms, 0 < weight (·.thIn) (·.thInUnc) m := fun m hm => C98.weight_pos (hg m hm).eff (hg m hm).prob (hg m hm).thIn.1 (hg m hm).thInUnc
  have w3 : ∀ m ∈ ms, 0 < weight (·.thOut) (·.thOutUnc) m := fun m hm => C98.weight_pos (hg m hm).eff (hg m hm).prob (hg m hm).thOut.1 (hg m hm).thOutUnc
  have w4 : ∀ m ∈ ms, 0 < m.eff * m.prob := fun m hm => mul_pos (hg m hm).eff (hg m hm).prob
  have v1 : ∀ m ∈ ms, _ := fun m hm => weight_within (x := (·.scat)) (u := (·.scatUnc)) hr (hg m hm).eff (hg m hm).prob (hg m hm).scat (hg m hm).scatUnc
  have v2 : ∀ m ∈ ms, _ := fun m hm => weight_within (x := (·.thIn)) (u := (·.thInUnc)) hr (hg m hm).eff (hg m hm).prob (hg m hm).thIn.1 (hg m hm).thInUnc
  have v3 : ∀ m ∈ ms, _ := fun m hm => weight_within (x := (·.thOut)) (u := (·.thOutUnc)) hr (hg m hm).eff (hg m hm).prob (hg m hm).thOut.1 (hg m hm).thOutUnc
  have v4 : ∀ m ∈ ms, 0 < fl (fl (m.eff * m.prob) / 1) ∧ Within ε 7 (fl (fl (m.eff * m.prob) / 1)) (m.eff * m.prob) := fun m hm => by
    have f0 : 0 < fl (m.eff * m.prob) := Within.fl_pos hr (w4 m hm)
    have f1 : 0 < fl (fl (m.eff * m.prob) / 1) := Within.fl_pos hr (by positivity)
    refine ⟨f1, Within.mono hr (j := 2) (by norm_num) f1.le (w4 m hm).le ?_⟩
    rw [div_one]
    exact .round hr f0.le (.round_one hr (w4 m hm).le)
  obtain ⟨s, es, s0, hs1⟩ := rms_within hr hs (·.row.scat) _ _ ms hne (fun m hm => (hg m hm).scat) w1 v1
  obtain ⟨i, ei, i0, hi1⟩ := rms_within hr hs (·.row.thIn) _ _ ms hne (fun m hm => (hg m hm).thIn.1) w2 v2
  obtain ⟨o, eo, o0, ho1⟩ := rms_within hr hs (·.row.thOut) _ _ ms hne (fun m hm => (hg m hm).thOut.1) w3 v3
  obtain ⟨m', em, m0, hm1⟩ := rms_within hr hs (·.row.mom) _ _ ms hne (fun m hm => (hg m hm).mom) w4 v4
  have g1 := wmean_pos _ (fun m => m.row.scat ^ 2) ms hne w1 fun m hm => pow_pos (hg m hm).scat 2
  have g4 := wmean_pos _ (fun m => m.row.mom ^ 2) ms hne w4 fun m hm => pow_pos (hg m hm).mom 2
  have cI := cos_rms _ (·.row.thIn) ms hne w2 fun m hm => ⟨(hg m hm).thIn.1, (hg m hm).thIn.2, (h70 m hm).1⟩
  have cO := cos_rms _ (·.row.thOut) ms hne w3 fun m hm => ⟨(hg m hm).thOut.1, (hg m hm).thOut.2, (h70 m hm).2⟩
  obtain ⟨r, er, hr'⟩ := formula_within hr hsz hcos g1 g4 cI cO hq s0 m0 hs1 hi1 ho1 hm1
  refine ⟨r, _, ?_, estimate big size ms hne hg, ?_, hr'⟩
  · have hmom : ((ms.map (·.row)).map fun r => sqVarFl fl r.mom r.momUnc).all (fun v => decide (v = 0)) = true := by
      have z : fl 0 = 0 := by have := hr.rel 0; simpa using this
      simp only [List.all_eq_true, List.mem_map, decide_eq_true_eq]
      rintro v ⟨r, ⟨m, hm, rfl⟩, rfl⟩
      simp [sqVarFl, (hg m hm).momUnc, z]
    have hone : List.zipWith (fun w v => nanToNum big (xround fl (XF.quot w v))) (List.zipWith (fun e p => fl (e * p)) (ms.map (·.eff)) (ms.map (·.prob))) ((ms.map (·.row)).map fun _ => (1:ℝ)) =
        ms.map fun m => fl (fl (m.eff * m.prob) / 1) := by
      rw [zip_map (·.eff) (·.prob) (fun m => fl (m.eff * m.prob)) _ ms (fun _ _ => rfl), List.map_map]
      refine zip_map (fun m : Seen => fl (m.eff * m.prob)) (fun _ => (1:ℝ)) _ _ ms fun m _ => ?_
      rw [XF.quot, if_pos one_ne_zero, xround, nanToNum]
    have key : ∀ x : MuRow → ℝ, (ms.map (·.row)).map x = ms.map fun m => x m.row := fun x => by rw [List.map_map]; rfl
    unfold predictedFl voxelX0Fl
    simp only [hmom, if_true, hone]
    rw [wgtFl_eq hr big (·.scat) (·.scatUnc) ms fun m hm => ⟨(hg m hm).scat, (hg m hm).scatUnc⟩,
      wgtFl_eq hr big (·.thIn) (·.thInUnc) ms fun m hm => ⟨(hg m hm).thIn.1, (hg m hm).thInUnc⟩,
      wgtFl_eq hr big (·.thOut) (·.thOutUnc) ms fun m hm => ⟨(hg m hm).thOut.1, (hg m hm).thOutUnc⟩,
      key (·.scat), key (·.thIn), key (·.thOut), key (·.mom), es, ei, eo, em]
    exact er
  · have c1 : 0 < cos √(wmean (weight (·.thIn) (·.thInUnc)) (fun m => m.row.thIn ^ 2) ms) := by linarith [cI.2]
    have c2 : 0 < cos √(wmean (weight (·.thOut) (·.thOutUnc)) (fun m => m.row.thOut ^ 2) ms) := by linarith [cO.2]
    have A0 : 0 < scatterCoefA := by unfold scatterCoefA; norm_num
    unfold fromSquares
    positivity

/-- a usable muon whose momentum has an error as well -/
structure Measured (m : Seen) : Prop where
  eff : 0 < m.eff
  prob : 0 < m.prob
  scat : 0 < m.row.scat
  scatUnc : 0 < m.row.scatUnc
  thIn : 0 < m.row.thIn ∧ m.row.thIn < π / 2
  thInUnc : 0 < m.row.thInUnc
  thOut : 0 < m.row.thOut ∧ m.row.thOut < π / 2
  thOutUnc : 0 < m.row.thOutUnc
  mom : 0 < m.row.mom
  momUnc : 0 < m.row.momUnc

/-- **C136.** When momenta have errors, they are weighted like the angles: over the first-order variance of their squares. -/
theorem measured (big size : ℝ) (ms : List Seen) (hne : ms ≠ []) (hg : ∀ m ∈ ms, Measured m) :
    predicted big size ms = .num (fromSquares size
      (wmean (weight (·.scat) (·.scatUnc)) (fun m => m.row.scat ^ 2) ms)
      (sqrt (wmean (weight (·.thIn) (·.thInUnc)) (fun m => m.row.thIn ^ 2) ms))
      (sqrt (wmean (weight (·.thOut) (·.thOutUnc)) (fun m => m.row.thOut ^ 2) ms))
      (wmean (weight (·.mom) (·.momUnc)) (fun m => m.row.mom ^ 2) ms)) := by
  have w1 : ∀ m ∈ ms, 0 < weight (·.scat) (·.scatUnc) m := fun m hm => C98.weight_pos (hg m hm).eff (hg m hm).prob (hg m hm).scat (hg m hm).scatUnc
  have w2 : ∀ m ∈ ms, 0 < weight (·.thIn) (·.thInUnc) m := fun m hm => C98.weight_pos (hg m hm).eff (hg m hm).prob (hg m hm).thIn.1 (hg m hm).thInUnc
  have w3 : ∀ m ∈ ms, 0 < weight (·.thOut) (·.thOutUnc) m := fun m hm => C98.weight_pos (hg m hm).eff (hg m hm).prob (hg m hm).thOut.1 (hg m hm).thOutUnc
  have w4 : ∀ m ∈ ms, 0 < weight (·.mom) (·.momUnc) m := fun m hm => C98.weight_pos (hg m hm).eff (hg m hm).prob (hg m hm).mom (hg m hm).momUnc
  have hmom : ((ms.map (·.row)).map fun r => sqVar r.mom r.momUnc).all (fun v => decide (v = 0)) = false := by
    obtain ⟨m, hm⟩ := List.exists_mem_of_ne_nil ms hne
    rw [List.all_eq_false]
    refine ⟨sqVar m.row.mom m.row.momUnc, List.mem_map_of_mem (List.mem_map_of_mem hm), ?_⟩
    have h1 := (hg m hm).mom
    have h2 := (hg m hm).momUnc
    have : sqVar m.row.mom m.row.momUnc ≠ 0 := by unfold sqVar; positivity
    simpa using this
  have key : ∀ x : MuRow → ℝ, (ms.map (·.row)).map x = ms.map fun m => x m.row := fun x => by rw [List.map_map]; rfl
  have g1 := wmean_pos _ (fun m => m.row.scat ^ 2) ms hne w1 fun m hm => pow_pos (hg m hm).scat 2
  have g4 := wmean_pos _ (fun m => m.row.mom ^ 2) ms hne w4 fun m hm => pow_pos (hg m hm).mom 2
  have hpi := pi_pos
  have c2 : 0 < cos (sqrt (wmean (weight (·.thIn) (·.thInUnc)) (fun m => m.row.thIn ^ 2) ms)) := by
    apply cos_pos_of_mem_Ioo
    refine ⟨by have := sqrt_nonneg (wmean (weight (·.thIn) (·.thInUnc)) (fun m => m.row.thIn ^ 2) ms); linarith, ?_⟩
    rw [sqrt_lt' (by positivity)]
    exact wmean_lt _ _ _ ms hne w2 fun m hm => pow_lt_pow_left₀ (hg m hm).thIn.2 (hg m hm).thIn.1.le two_ne_zero
  have c3 : 0 < cos (sqrt (wmean (weight (·.thOut) (·.thOutUnc)) (fun m => m.row.thOut ^ 2) ms)) := by
    apply cos_pos_of_mem_Ioo
    refine ⟨by have := sqrt_nonneg (wmean (weight (·.thOut) (·.thOutUnc)) (fun m => m.row.thOut ^ 2) ms); linarith, ?_⟩
    rw [sqrt_lt' (by positivity)]
    exact wmean_lt _ _ _ ms hne w3 fun m hm => pow_lt_pow_left₀ (hg m hm).thOut.2 (hg m hm).thOut.1.le two_ne_zero
  unfold predicted voxelX0
  simp only [hmom, Bool.false_eq_true, if_false]
  rw [wgt_eq big (·.scat) (·.scatUnc) ms fun m hm => ⟨(hg m hm).scat.ne', (hg m hm).scatUnc.ne'⟩,
    wgt_eq big (·.thIn) (·.thInUnc) ms fun m hm => ⟨(hg m hm).thIn.1.ne', (hg m hm).thInUnc.ne'⟩,
    wgt_eq big (·.thOut) (·.thOutUnc) ms fun m hm => ⟨(hg m hm).thOut.1.ne', (hg m hm).thOutUnc.ne'⟩,
    wgt_eq big (·.mom) (·.momUnc) ms fun m hm => ⟨(hg m hm).mom.ne', (hg m hm).momUnc.ne'⟩,
    key (·.scat), key (·.thIn), key (·.thOut), key (·.mom),
    rms_eq _ _ ms (sum_pos_of _ ms hne w1).ne', rms_eq _ _ ms (sum_pos_of _ ms hne w2).ne', rms_eq _ _ ms (sum_pos_of _ ms hne w3).ne',
    rms_eq _ _ ms (sum_pos_of _ ms hne w4).ne']
  generalize wmean (weight (·.scat) (·.scatUnc)) (fun m => m.row.scat ^ 2) ms = S at *
  generalize sqrt (wmean (weight (·.thIn) (·.thInUnc)) (fun m => m.row.thIn ^ 2) ms) = I at *
  generalize sqrt (wmean (weight (·.thOut) (·.thOutUnc)) (fun m => m.row.thOut ^ 2) ms) = O at *
  generalize wmean (weight (·.mom) (·.momUnc)) (fun m => m.row.mom ^ 2) ms = M at *
  have hS : (sqrt S / sqrt 2) ^ 2 = S / 2 := by rw [div_pow, sq_sqrt g1.le, sq_sqrt (by norm_num)]
  have hM : sqrt M ≠ 0 := (sqrt_pos.mpr g4).ne'
  have hden : (sqrt S / sqrt 2) ^ 2 * ((cos I + cos O) / 2) ≠ 0 := by rw [hS]; positivity
  simp only [x0FromScatters, XF.quot, hM, ne_eq, not_false_eq_true, if_true, xsq, xmulR, XF.div, hden, XF.num.injEq]
  rw [hS, div_pow, sq_sqrt g4.le, fromSquares]
  field_simp

/-- **C136.** The bound holds for muons whose momenta have errors. -/
theorem accuracy_measured (hr : Rounds ε fl) (hs : Summation fl D sm) (c : Nat) (hcos : ∀ x, 0 < cos x → Within ε c (cosFl x) (cos x)) (big size : ℝ) (hsz : 0 < size) (ms : List Seen) (hne : ms ≠ [])
    (hg : ∀ m ∈ ms, Measured m) (h70 : ∀ m ∈ ms, 1 / 3 ≤ cos m.row.thIn ∧ 1 / 3 ≤ cos m.row.thOut) (hq : 19 / 20 ≤ (1 - ε) ^ (10 + D ms.length)) :
    ∃ r x0, predictedFl fl cosFl sm big size ms = .num r ∧ predicted big size ms = .num x0 ∧ 0 < x0 ∧ Within ε (115 + 10 * D ms.length + c) r x0 := by
  have w1 : ∀ m ∈ ms, 0 < weight (·.scat) (·.scatUnc) m := fun m hm => C98.weight_pos (hg m hm).eff (hg m hm).prob (hg m hm).scat (hg m hm).scatUnc
  have w2 : ∀ m ∈ ms, 0 < weight (·.thIn) (·.thInUnc) m := fun m hm => C98.weight_pos (hg m hm).eff (hg m hm).prob (hg m hm).thIn.1 (hg m hm).thInUnc
  have w3 : ∀ m ∈ ms, 0 < weight (·.thOut) (·.thOutUnc) m := fun m hm => C98.weight_pos (hg m hm).eff (hg m hm).prob (hg m hm).thOut.1 (hg m hm).thOutUnc
  have w4 : ∀ m ∈ ms, 0 < weight (·.mom) (·.momUnc) m := fun m hm => C98.weight_pos (hg m hm).eff (hg m hm).prob (hg m hm).mom (hg m hm).momUnc
  have v1 : ∀ m ∈ ms, _ := fun m hm => weight_within (x := (·.scat)) (u := (·.scatUnc)) hr (hg m hm).eff (hg m hm).prob (hg m hm).scat (hg m hm).scatUnc
  have v2 : ∀ m ∈ ms, _ := fun m hm => weight_within (x := (·.thIn)) (u := (·.thInUnc)) hr (hg m hm).eff (hg m hm).prob (hg m hm).thIn.1 (hg m hm).thInUnc
  have v3 : ∀ m ∈ ms, _ := fun m hm => weight_within (x := (·.thOut)) (u := (·.thOutUnc)) hr (hg m hm).eff (hg m hm).prob (hg m hm).thOut.1 (hg m hm).thOutUnc
  have v4 : ∀ m ∈ ms, _ := fun m hm => weight_within (x := (·.mom)) (u := (·.momUnc)) hr (hg m hm).eff (hg m hm).prob (hg m hm).mom (hg m hm).momUnc
  obtain ⟨s, es, s0, hs1⟩ := rms_within hr hs (·.row.scat) _ _ ms hne (fun m hm => (hg m hm).scat) w1 v1
  obtain ⟨i, ei, i0, hi1⟩ := rms_within hr hs (·.row.thIn) _ _ ms hne (fun m hm => (hg m hm).thIn.1) w2 v2
  obtain ⟨o, eo, o0, ho1⟩ := rms_within hr hs (·.row.thOut) _ _ ms hne (fun m hm => (hg m hm).thOut.1) w3 v3
  obtain ⟨m', em, m0, hm1⟩ := rms_within hr hs (·.row.mom) _ _ ms hne (fun m hm => (hg m hm).mom) w4 v4
  have g1 := wmean_pos _ (fun m => m.row.scat ^ 2) ms hne w1 fun m hm => pow_pos (hg m hm).scat 2
  have g4 := wmean_pos _ (fun m => m.row.mom ^ 2) ms hne w4 fun m hm => pow_pos (hg m hm).mom 2
  have cI := cos_rms _ (·.row.thIn) ms hne w2 fun m hm => ⟨(hg m hm).thIn.1, (hg m hm).thIn.2, (h70 m hm).1⟩
  have cO := cos_rms _ (·.row.thOut) ms hne w3 fun m hm => ⟨(hg m hm).thOut.1, (hg m hm).thOut.2, (h70 m hm).2⟩
  obtain ⟨r, er, hr'⟩ := formula_within hr hsz hcos g1 g4 cI cO hq s0 m0 hs1 hi1 ho1 hm1
  refine ⟨r, _, ?_, measured big size ms hne hg, ?_, hr'⟩
  · have hmom : ((ms.map (·.row)).map fun r => sqVarFl fl r.mom r.momUnc).all (fun v => decide (v = 0)) = false := by
      obtain ⟨m, hm⟩ := List.exists_mem_of_ne_nil ms hne
      rw [List.all_eq_false]
      refine ⟨sqVarFl fl m.row.mom m.row.momUnc, List.mem_map_of_mem (List.mem_map_of_mem hm), ?_⟩
      have := (sqVar_within hr (hg m hm).mom (hg m hm).momUnc).1.ne'
      simpa using this
    have key : ∀ x : MuRow → ℝ, (ms.map (·.row)).map x = ms.map fun m => x m.row := fun x => by rw [List.map_map]; rfl
    unfold predictedFl voxelX0Fl
    simp only [hmom, Bool.false_eq_true, if_false]
    rw [wgtFl_eq hr big (·.scat) (·.scatUnc) ms fun m hm => ⟨(hg m hm).scat, (hg m hm).scatUnc⟩,
      wgtFl_eq hr big (·.thIn) (·.thInUnc) ms fun m hm => ⟨(hg m hm).thIn.1, (hg m hm).thInUnc⟩,
      wgtFl_eq hr big (·.thOut) (·.thOutUnc) ms fun m hm => ⟨(hg m hm).thOut.1, (hg m hm).thOutUnc⟩,
      wgtFl_eq hr big (·.mom) (·.momUnc) ms fun m hm => ⟨(hg m hm).mom, (hg m hm).momUnc⟩,
      key (·.scat), key (·.thIn), key (·.thOut), key (·.mom), es, ei, eo, em]
    exact er
  · have c1 : 0 < cos √(wmean (weight (·.thIn) (·.thInUnc)) (fun m => m.row.thIn ^ 2) ms) := by linarith [cI.2]
    have c2 : 0 < cos √(wmean (weight (·.thOut) (·.thOutUnc)) (fun m => m.row.thOut ^ 2) ms) := by linarith [cO.2]
    have A0 : 0 < scatterCoefA := by unfold scatterCoefA; norm_num
    unfold fromSquares
    positivity

/-- rounding to nearest -/
theorem rounds_nearest {p : Nat} (hp : 1 ≤ p) (hf : Nearest p fl) : Rounds (1 / 2 ^ p) fl :=
  ⟨by positivity, by
    rw [div_lt_one (by positivity)]
    exact one_lt_pow₀ (by norm_num) (by omega), Floats.nearest_rel p p hp le_rfl fl hf⟩

/-- **C136.** In numbers: in single precision, with sums of at most 32 additions one after the other, the X0 of a voxel is right up to three parts in 100000. -/
theorem single (hf : Nearest 24 fl) (hs : Summation fl D sm) (hcos : ∀ x, 0 < cos x → Within (1 / 2 ^ 24) 4 (cosFl x) (cos x)) (big size : ℝ) (hsz : 0 < size) (ms : List Seen) (hne : ms ≠ [])
    (hg : ∀ m ∈ ms, Good m) (h70 : ∀ m ∈ ms, 1 / 3 ≤ cos m.row.thIn ∧ 1 / 3 ≤ cos m.row.thOut) (hD : D ms.length ≤ 32) :
    ∃ r x0, predictedFl fl cosFl sm big size ms = .num r ∧ predicted big size ms = .num x0 ∧ |r - x0| ≤ 3 / 10 ^ 5 * x0 := by
  have hr := rounds_nearest (by norm_num) hf
  have hq : (19 / 20 : ℝ) ≤ (1 - 1 / 2 ^ 24) ^ (10 + D ms.length) := by
    refine le_trans ?_ (pow_le_pow_of_le_one (by norm_num) (by norm_num) (show 10 + D ms.length ≤ 42 by omega))
    norm_num
  obtain ⟨r, x0, e, e', p, w⟩ := accuracy hr hs 4 hcos big size hsz ms hne hg h70 hq
  refine ⟨r, x0, e, e', ?_⟩
  have hk : ((115 + 10 * D ms.length + 4 : ℕ) : ℝ) ≤ 439 := by exact_mod_cast (by omega : 115 + 10 * D ms.length + 4 ≤ 439)
  refine (Within.error hr (by norm_num at hk ⊢; linarith) p.le w).trans (mul_le_mul_of_nonneg_right ?_ p.le)
  norm_num at hk ⊢
  linarith

/-- **C136.** The order of the muons changes the X0 by rounding only. -/
theorem order (hr : Rounds ε fl) (hs : Summation fl D sm) (c : Nat) (hcos : ∀ x, 0 < cos x → Within ε c (cosFl x) (cos x)) (big size : ℝ) (hsz : 0 < size) (ms ms' : List Seen) (hp : ms.Perm ms') (hne : ms ≠ [])
    (hg : ∀ m ∈ ms, Good m) (h70 : ∀ m ∈ ms, 1 / 3 ≤ cos m.row.thIn ∧ 1 / 3 ≤ cos m.row.thOut) (hq : 19 / 20 ≤ (1 - ε) ^ (10 + D ms.length)) :
    ∃ r r', predictedFl fl cosFl sm big size ms = .num r ∧ predictedFl fl cosFl sm big size ms' = .num r' ∧ Within ε (2 * (115 + 10 * D ms.length + c)) r r' := by
  obtain ⟨r, x, a, b, _, w⟩ := accuracy hr hs c hcos big size hsz ms hne hg h70 hq
  obtain ⟨r', x', a', b', _, w'⟩ := accuracy hr hs c hcos big size hsz ms' (fun e => hne (by rw [e] at hp; exact hp.eq_nil)) (fun m hm => hg m (hp.mem_iff.mpr hm)) (fun m hm => h70 m (hp.mem_iff.mpr hm)) (by rwa [← hp.length_eq])
  rw [C98.order big size ms ms' hp, b'] at b
  obtain rfl := XF.num.inj b
  refine ⟨r, r', a, a', ?_⟩
  rw [two_mul]
  rw [← hp.length_eq] at w'
  exact w.trans hr w'.symm

/-- a balanced order of additions -/
theorem balanced : ∀ (n : Nat) (xs : List ℝ), xs.length ≤ 2 ^ n → ∃ t : Tree, t.leaves = xs ∧ t.depth ≤ n
  | 0, xs, h => by
    match xs, h with
    | [], _ => exact ⟨.nil, rfl, le_rfl⟩
    | [x], _ => exact ⟨.leaf x, rfl, le_rfl⟩
    | _ :: _ :: _, h => simp at h
  | n + 1, xs, h => by
    obtain ⟨l, el, dl⟩ := balanced n (xs.take (2 ^ n)) (by simp)
    obtain ⟨r, er, dr⟩ := balanced n (xs.drop (2 ^ n)) (by rw [List.length_drop]; rw [pow_succ] at h; omega)
    exact ⟨.node l r, by rw [Tree.leaves, el, er, List.take_append_drop], by simp only [Tree.depth]; omega⟩

/-- adding in pairs, pairs of pairs and so on: for 2³² muons, 32 additions one after the other -/
theorem pairwise_exists (fl : ℝ → ℝ) : ∃ sm, Summation fl (Nat.clog 2) sm := by
  choose t h1 h2 using fun xs : List ℝ => balanced (Nat.clog 2 xs.length) xs (Nat.le_pow_clog (by norm_num) _)
  exact ⟨fun xs => (t xs).eval fl, fun xs => ⟨t xs, by rw [h1], h2 xs, rfl⟩⟩

/-- adding one after the other -/
theorem sequential (fl : ℝ → ℝ) : ∃ sm, Summation fl (fun n => n) sm := by
  have : ∀ xs : List ℝ, ∃ t : Tree, t.leaves = xs ∧ t.depth ≤ xs.length := fun xs => by
    induction xs with
    | nil => exact ⟨.nil, rfl, le_rfl⟩
    | cons x xs ih =>
      obtain ⟨t, e, d⟩ := ih
      exact ⟨.node (.leaf x) t, by rw [Tree.leaves, e]; rfl, by simp only [Tree.depth, List.length_cons]; omega⟩
  choose t h1 h2 using this
  exact ⟨fun xs => (t xs).eval fl, fun xs => ⟨t xs, by rw [h1], h2 xs, rfl⟩⟩

/-- two muons meeting all of this, with the cosine rounded once -/
example : ∃ (fl cosFl : ℝ → ℝ) (sm : List ℝ → ℝ), Nearest 24 fl ∧ Summation fl (Nat.clog 2) sm ∧ (∀ x, 0 < cos x → Within (1 / 2 ^ 24) 4 (cosFl x) (cos x)) ∧
    (∀ m ∈ pair (1 / 100) (1 / 50), Good m) ∧ (∀ m ∈ pair (1 / 100) (1 / 50), 1 / 3 ≤ cos m.row.thIn ∧ 1 / 3 ≤ cos m.row.thOut) ∧ Nat.clog 2 (pair (1 / 100) (1 / 50)).length ≤ 32 := by
  obtain ⟨fl, hf⟩ := Floats.rounding_exists 24 (by norm_num)
  obtain ⟨sm, hs⟩ := pairwise_exists fl
  have hr := rounds_nearest (by norm_num) hf
  refine ⟨fl, fun x => fl (cos x), sm, hf, hs, fun x hx => Within.mono hr (by norm_num) (Within.fl_pos hr hx).le hx.le (Within.round_one hr hx.le), pair_good _ _ (by norm_num) (by norm_num), ?_, ?_⟩
  · have c : 1 / 3 ≤ cos 1 := by linarith [cos_one_pos.le, cos_one_le, one_sub_sq_div_two_le_cos (x := 1)]
    intro m hm
    simp only [pair, List.mem_cons, List.not_mem_nil, or_false] at hm
    rcases hm with rfl | rfl <;> exact ⟨c, c⟩
  · decide

/-- two muons whose momenta are known to a tenth and a fifth -/
example : ∀ m ∈ [⟨⟨(0, 0, 0), (1, 1, 1), 1, 1, 1, 1, 1, 1, 1, 1 / 10⟩, 1, 1 / 2⟩, ⟨⟨(0, 0, 0), (1, 1, 1), 1, 1, 1, 1, 1, 1, 2, 1 / 5⟩, 1, 1 / 3⟩], Measured m := by
  have h : (1 : ℝ) < π / 2 := by linarith [pi_gt_three]
  intro m hm
  simp only [List.mem_cons, List.not_mem_nil, or_false] at hm
  rcases hm with rfl | rfl <;> exact ⟨by norm_num, by norm_num, by norm_num, by norm_num, ⟨by norm_num, h⟩, by norm_num, ⟨by norm_num, h⟩, by norm_num, by norm_num, by norm_num⟩

end C136

end

end Tomopt
