import Verif.Lemmas.RescaleScatter
import Verif.Props.C158

/- C159: reconstruction has no preferred unit of length.  Property theorems; what a change of unit is is in Spec/Rescale.lean and Spec/RescaleScatter.lean, the lemmas are in Lemmas/RescaleScatter.lean. -/
namespace Tomopt

noncomputable section
open Real Scatter

namespace C159

open Rescale

/-- **C159: reconstruction.** Build the scatterings of a batch from the measured or from the true hits, in two units of length. If, in case of measured hits, no recorded uncertainty is below 1e10 in only one of them, the same muons are kept with the same tracks and
scatterings, all lengths given in the new unit; and if one raises an error so does the other. -/
theorem reconstruction {k : ℝ} (hk : 0 < k) (gen : Bool) (V : Volume) (b : Batch Row) (hb : gen = false → Clear k b) :
    build gen (volume k V) (batch k b) = (build gen V b).map fun r => (scatter k r.1, r.2.map (coefs k)) := build_sc hk gen V b hb

/-- **C159: quantities.** Of a scattering in another unit every angle is the same, and every place is the same place: where it scattered, where it entered and left, how far apart the tracks pass, and whether this is in the volume. -/
theorem quantities {k : ℝ} (hk : 0 < k) (lw zr : ℝ × ℝ) (c : Track × Track × (ℝ × ℝ × ℝ)) :
    (thetaMsc (coefs k c).1.1 (coefs k c).2.1.1 = thetaMsc c.1.1 c.2.1.1 ∧ thetaOf (coefs k c).1.1 = thetaOf c.1.1 ∧ thetaOf (coefs k c).2.1.1 = thetaOf c.2.1.1 ∧
      phiOf (coefs k c).1.1.1 (coefs k c).1.1.2.1 = phiOf c.1.1.1 c.1.1.2.1 ∧ phiOf (coefs k c).2.1.1.1 (coefs k c).2.1.1.2.1 = phiOf c.2.1.1.1 c.2.1.1.2.1) ∧
    poca (coefs k c).1 (coefs k c).2.1 (coefs k c).2.2 = place k (poca c.1 c.2.1 c.2.2) ∧ dxy (coefs k c).1 (coefs k c).2.1 (coefs k c).2.2 = pair k (dxy c.1 c.2.1 c.2.2) ∧
    xyzIn (pair k zr) (coefs k c).1 = (xyzIn zr c.1).map (place k) ∧ xyzOut (pair k zr) (coefs k c).2.1 = (xyzOut zr c.2.1).map (place k) ∧
    inVolume (pair k lw) (pair k zr) (poca (coefs k c).1 (coefs k c).2.1 (coefs k c).2.2) = inVolume lw zr (poca c.1 c.2.1 c.2.2) := by
  refine ⟨⟨thetaMsc_sc hk _ _, thetaOf_sc hk _, thetaOf_sc hk _, phiOf_sc hk _ _, phiOf_sc hk _ _⟩, poca_sc hk c, dxy_sc hk c, xyzIn_sc hk zr _, xyzOut_sc hk zr _, ?_⟩
  rw [poca_sc hk, inVolume_sc hk]

/-- **C159: from the muons to the scatterings.** Muons are sent through a volume in two units of length with the same random numbers, and the scatterings are built from what comes out: they are the same. -/
theorem telescope {k : ℝ} (hk : 0 < k) (argsort : List ℝ → List Nat) (ha : ∀ zs : List ℝ, argsort (zs.map (k * ·)) = argsort zs) (rng : Nat → Nat → Nat → Draw) (noise : Nat → Nat → Nat → ℝ × ℝ) (fuel : Nat) (V V' : Volume)
    (hp : ∀ l ∈ V.layers, PlainLayer l) (b b' : Batch Row) (hf : V.forward argsort rng noise fuel b = .ok (V', some b')) (gen : Bool) (hb : gen = false → Clear k b') :
    ∃ W c, (volume k V).forward argsort rng noise fuel (batch k b) = .ok (W, some c) ∧ build gen W c = (build gen V' b').map fun r => (scatter k r.1, r.2.map (coefs k)) := by
  refine ⟨volume k V', batch k b', ?_, build_sc hk gen V' b' hb⟩
  rw [C158.flight hk argsort ha _ _ _ V hp, hf]
  rfl

/-- **C159, violated at the cut.** Muons with a hit whose uncertainty is not below 1e10 are dropped. This is a number without a unit: a muon kept in one unit of length is dropped in a smaller one. -/
theorem cut_violated {k : ℝ} (hk : 0 < k) (lw zr : ℝ × ℝ) (t : Option Track × Option Track) (unc : List X3) (u : X3) (hu : u ∈ unc) (x : ℝ) (hx : u.1 = .num x) (h : 1e10 ≤ k * x) :
    keepMuon (pair k lw) (pair k zr) (t.1.map (track k), t.2.map (track k)) (unc.map (point k)) = false ∧
      keepMuon (pair k lw) (pair k zr) (t.1.map (track k), t.2.map (track k)) unc = keepMuon lw zr t unc := by
  refine ⟨?_, keepMuon_sc hk lw zr t unc unc rfl⟩
  have e : ((unc.map (point k)).all fun u => u.1.lt 1e10 && u.2.1.lt 1e10) = false := by
    rw [Bool.eq_false_iff]
    intro hall
    have h1 := List.all_eq_true.mp hall (point k u) (List.mem_map_of_mem hu)
    simp only [point, hx, len, XF.lt, Bool.and_eq_true, decide_eq_true_eq] at h1
    exact absurd h1.1 (not_lt.mpr h)
  obtain ⟨t1, t2⟩ := t
  cases t1 with
  | none => rfl
  | some t1 =>
    cases t2 with
    | none => rfl
    | some t2 => simp only [Option.map_some, keepMuon, e, Bool.and_false]

/-- a muon flying straight down to the middle of a cube of one metre, and on at 45 degrees -/
def bent : Option Track × Option Track := (some ((0, 0, -1), (0.5, 0.5, 2)), some ((1, 0, -1), (1, 0.5, 0)))

theorem bent_kept (unc : List X3) (hu : (unc.all fun u => u.1.lt 1e10 && u.2.1.lt 1e10) = true) : keepMuon (1, 1) (0, 1) bent unc = true := by
  have s2 : 0 < sqrt 2 := by positivity
  have h1 : vnorm (0, 0, -1) = 1 := by simp [vnorm, vdot]
  have h2 : vnorm (1, 0, -1) = sqrt 2 := by simp only [vnorm, vdot]; norm_num
  have hpi := pi_gt_three
  have ea : arccos (1 / sqrt 2) = π / 4 := by
    have : (1 : ℝ) / sqrt 2 = cos (π / 4) := by
      rw [cos_pi_div_four]
      rw [div_eq_div_iff s2.ne' two_ne_zero, one_mul, mul_self_sqrt (by norm_num)]
    rw [this, arccos_cos (by positivity) (by linarith)]
  have a1 : thetaMsc (0, 0, -1) (1, 0, -1) = some (π / 4) := by
    simp only [thetaMsc, h1, h2, one_mul, if_neg s2.ne']
    rw [← ea]
    simp [vdot]
  have a2 : thetaOf (0, 0, -1) = some 0 := by simp [thetaOf, h1]
  have a3 : thetaOf (1, 0, -1) = some (π / 4) := by
    simp only [thetaOf, h2, if_neg s2.ne', neg_neg]
    rw [if_pos, ea]
    intro h
    rw [div_eq_one_iff_eq s2.ne'] at h
    have : sqrt 2 * sqrt 2 = 2 := mul_self_sqrt (by norm_num)
    rw [← h] at this
    norm_num at this
  have b1 : xyzIn (0, 1) ((0, 0, -1), (0.5, 0.5, 2)) = some (0.5, 0.5, 1) := by
    simp only [xyzIn]; norm_num
  have b2 : xyzOut (0, 1) ((1, 0, -1), (1, 0.5, 0)) = some (1, 0.5, 0) := by
    simp only [xyzOut]; norm_num
  simp only [keepMuon, bent, a1, a2, a3, b1, b2, hu, Bool.and_true, Bool.and_eq_true, decide_eq_true_eq]
  refine ⟨⟨⟨⟨by positivity, ?_⟩, ?_⟩, ?_⟩, ?_⟩
  · norm_num; linarith
  · norm_num; linarith
  · norm_num
  · norm_num

/-- Non-vacuity: with uncertainties of 1e9 metres the muon is kept in metres and dropped in centimetres. -/
example : keepMuon (1, 1) (0, 1) bent [(.num 1e9, .num 1, .num 0)] = true ∧
    keepMuon (pair 100 (1, 1)) (pair 100 (0, 1)) (bent.1.map (track 100), bent.2.map (track 100)) ([(.num 1e9, .num 1, .num 0)].map (point 100)) = false :=
  ⟨bent_kept _ (by simp [XF.lt]; norm_num), (cut_violated (by norm_num) _ _ _ _ _ List.mem_cons_self 1e9 rfl (by norm_num)).1⟩

/-- Non-vacuity of the reconstruction: a vertical muon turned by 45 degrees in the slab of C99, in metres and in centimetres. -/
example : ∃ V b s c, build true V b = .ok (s, [c]) ∧ build true (volume 100 V) (batch 100 b) = .ok (scatter 100 s, [coefs 100 c]) ∧
    thetaMsc (coefs 100 c).1.1 (coefs 100 c).2.1.1 = some (π / 4) ∧ poca (coefs 100 c).1 (coefs 100 c).2.1 (coefs 100 c).2.2 = (50, 50, 100) := by
  obtain ⟨_, b', s, c, _, _, hb, h1, h2⟩ := C99.scope_turns
  refine ⟨C99.scope, b', s, c, hb, ?_, ?_, ?_⟩
  · rw [reconstruction (by norm_num) true _ _ (by simp), hb]
    rfl
  · rw [(quantities (by norm_num) (0, 0) (0, 0) c).1.1, h1]
  · rw [(quantities (by norm_num) (0, 0) (0, 0) c).2.1, h2]
    simp only [place]
    norm_num

/-- Non-vacuity of the condition on measured hits: with uncertainties of a millimetre, or infinite ones, centimetres are clear. -/
example : Clear 100 ⟨[], [], [("above", [("unc_xyz", [[[.num 0.001, .num 0.001, .num 0], [.pinf, .pinf, .num 0]]])])], []⟩ := by
  simp [Clear, len, XF.lt]
  norm_num

/-- **C159: voxel predictions.** From the same muons with the same probabilities to have scattered in a voxel, the radiation length predicted for the voxel is the same length. -/
theorem x0 {k : ℝ} (hk : 0 < k) (big size : ℝ) (rows : List Infer.MuRow) (effs ps : List ℝ) :
    Infer.voxelX0 big (k * size) (rows.map (muRow k)) effs ps = len k (Infer.voxelX0 big size rows effs ps) := by
  have e1 : ∀ s i o m : ℝ, Infer.x0FromScatters (k * size) s i o m = len k (Infer.x0FromScatters size s i o m) := by
    intro s i o m
    unfold Infer.x0FromScatters
    simp only
    rw [← div_sc hk]
    congr 1
    have p1 : 0 < k * size ↔ 0 < size := mul_pos_iff_of_pos_left hk
    have p2 : k * size < 0 ↔ size < 0 := by
      constructor
      · intro h; by_contra hn; exact absurd (mul_nonneg hk.le (not_lt.mp hn)) (not_le.mpr h)
      · exact mul_neg_of_pos_of_neg hk
    cases Infer.xsq (XF.quot scatterCoefA m) with
    | num x => simp only [Infer.xmulR, len, XF.num.injEq]; ring
    | nan => rfl
    | pinf =>
      simp only [Infer.xmulR, p1, p2]
      split
      · rfl
      · split <;> rfl
    | ninf =>
      simp only [Infer.xmulR, p1, p2]
      split
      · rfl
      · split <;> rfl
  unfold Infer.voxelX0
  simp only [List.map_map]
  have r1 : ((fun r : Infer.MuRow => r.scat) ∘ muRow k) = fun r => r.scat := rfl
  have r2 : ((fun r : Infer.MuRow => r.thIn) ∘ muRow k) = fun r => r.thIn := rfl
  have r3 : ((fun r : Infer.MuRow => r.thOut) ∘ muRow k) = fun r => r.thOut := rfl
  have r4 : ((fun r : Infer.MuRow => r.mom) ∘ muRow k) = fun r => r.mom := rfl
  have r5 : ((fun r : Infer.MuRow => Infer.sqVar r.scat r.scatUnc) ∘ muRow k) = fun r => Infer.sqVar r.scat r.scatUnc := rfl
  have r6 : ((fun r : Infer.MuRow => Infer.sqVar r.thIn r.thInUnc) ∘ muRow k) = fun r => Infer.sqVar r.thIn r.thInUnc := rfl
  have r7 : ((fun r : Infer.MuRow => Infer.sqVar r.thOut r.thOutUnc) ∘ muRow k) = fun r => Infer.sqVar r.thOut r.thOutUnc := rfl
  have r8 : ((fun r : Infer.MuRow => Infer.sqVar r.mom r.momUnc) ∘ muRow k) = fun r => Infer.sqVar r.mom r.momUnc := rfl
  have r9 : ((fun _ : Infer.MuRow => (1 : ℝ)) ∘ muRow k) = fun _ => 1 := rfl
  simp only [r1, r2, r3, r4, r5, r6, r7, r8, r9]
  split
  · exact e1 _ _ _ _
  · rfl

/-- **C159: probabilities.** The probability to have scattered in a voxel, in another unit, is the one in the old unit with the uncertainties of the place larger by 1e-7 (1/k - 1): what is added to every uncertainty is a number without a unit. -/
theorem probability {k : ℝ} (hk : 0 < k) (cdf : ℝ → ℝ → ℝ → ℝ) (hc : Scales cdf) (size : ℝ) (r : Infer.MuRow) (hu : 0 ≤ r.pocaUnc.1 ∧ 0 ≤ r.pocaUnc.2.1 ∧ 0 ≤ r.pocaUnc.2.2) (low : ℝ × ℝ × ℝ) :
    Infer.voxelProb cdf (k * size) (muRow k r) (place k low) =
      Infer.voxelProb cdf size { r with pocaUnc := (r.pocaUnc.1 + 1e-7 * (1 / k - 1), r.pocaUnc.2.1 + 1e-7 * (1 / k - 1), r.pocaUnc.2.2 + 1e-7 * (1 / k - 1)) } low := by
  have key : ∀ m u x : ℝ, 0 ≤ u → cdf (k * m) (k * u + 1e-7) (k * x) = cdf m (u + 1e-7 * (1 / k - 1) + 1e-7) x := by
    intro m u x h
    have e : k * u + 1e-7 = k * (u + 1e-7 * (1 / k - 1) + 1e-7) := by field_simp; ring
    have p : 0 < u + 1e-7 * (1 / k - 1) + 1e-7 := by
      have : u + 1e-7 * (1 / k - 1) + 1e-7 = u + 1e-7 * (1 / k) := by ring
      rw [this]
      positivity
    rw [e, hc.1 k m _ x hk p]
  simp only [Infer.voxelProb, muRow, place, ← mul_add, key _ _ _ hu.1, key _ _ _ hu.2.1, key _ _ _ hu.2.2]

/-- **C159, violated for probabilities.** A muon known to have scattered at the corner of a voxel of 1e-7 is more probable to be in it if lengths are given in a smaller unit. -/
theorem probability_violated {k : ℝ} (hk : 1 < k) (cdf : ℝ → ℝ → ℝ → ℝ) (hc : Scales cdf) : ∃ (size : ℝ) (r : Infer.MuRow) (low : ℝ × ℝ × ℝ), 0 < size ∧
    Infer.voxelProb cdf size r low < Infer.voxelProb cdf (k * size) (muRow k r) (place k low) := by
  refine ⟨1e-7, ⟨(0, 0, 0), (0, 0, 0), 1, 1, 1, 1, 1, 1, 1, 1⟩, (0, 0, 0), by norm_num, ?_⟩
  simp only [Infer.voxelProb, muRow, place, mul_zero, zero_add]
  have h1 : cdf 0 1e-7 0 < cdf 0 1e-7 1e-7 := hc.2 _ _ _ _ (by norm_num) (by norm_num)
  have h2 : cdf 0 1e-7 1e-7 < cdf 0 1e-7 (k * 1e-7) := hc.2 _ _ _ _ (by norm_num) (by linarith)
  have a : 0 ≤ cdf 0 1e-7 1e-7 - cdf 0 1e-7 0 := by linarith
  have b : cdf 0 1e-7 1e-7 - cdf 0 1e-7 0 < cdf 0 1e-7 (k * 1e-7) - cdf 0 1e-7 0 := by linarith
  exact mul_lt_mul'' (mul_lt_mul'' b b a a) b (mul_nonneg a a) a

/-- Non-vacuity: there are increasing distributions without a unit. -/
example : Scales fun m s x => arctan ((x - m) / s) / π + 1 / 2 := by
  refine ⟨fun k m s x hk hs => ?_, fun m s x y hs h => ?_⟩
  · simp only [← mul_sub, mul_div_mul_left _ _ hk.ne']
  · have h1 : arctan ((x - m) / s) < arctan ((y - m) / s) := arctan_strictMono (by rw [div_lt_div_iff_of_pos_right hs]; linarith)
    have := div_lt_div_of_pos_right h1 pi_pos
    simp only
    linarith

end C159

end

end Tomopt
