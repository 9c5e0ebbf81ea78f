import Verif.Lemmas.Rescale
import Verif.Lemmas.LiftScatter
import Verif.Spec.RescaleScatter

/- Helper lemmas: reconstructed tracks and scatterings in another unit of length. -/
namespace Tomopt

noncomputable section
open Real Scatter

namespace Rescale

open Lift (mapE_comm stack1_lift mapValsM_lift get?_map catDim1_lift shape1_lift mapE_mem mapValsM_mem stack1_mem get?_mem)

variable {k : ℝ}

/-! ### Recorded hits -/

theorem recorded_sc (b : Batch Row) : (batch k b).getHits none none = (b.getHits none none).map fun d => d.map fun kv => (kv.1, vars k kv.2) := by
  unfold Batch.getHits
  simp only [batch, List.length_map, Option.isNone_none, Bool.and_self, if_true]
  split
  · rfl
  · refine mapValsM_lift (fun _ => vars k) (fun _ => vars k) _ _ b.hits (fun kv _ => ?_)
    exact mapValsM_lift (fun v (ts : List (List Row)) => ts.map fun t => t.map (row k v)) (fun v (ts : List (List Row)) => ts.map fun t => t.map (row k v)) _ _ kv.2 (fun kw _ => stack1_lift _ _)

theorem hitVar_sc (d : Dict String (Dict String (List (List Row)))) (pos var : String) :
    hitVar (d.map fun kv => (kv.1, vars k kv.2)) pos var = (hitVar d pos var).map fun t => t.map fun r => r.map (row k var) := by
  unfold hitVar
  rw [get?_map (fun _ => vars k) pos d]
  cases Dict.get? d pos with
  | none => rfl
  | some vs =>
    simp only [Option.map, vars]
    rw [get?_map (fun v ts => ts.map fun t => t.map (row k v)) var vs]
    cases Dict.get? vs var <;> rfl

theorem bothSides_sc (d : Dict String (Dict String (List (List Row)))) (var : String) :
    bothSides (d.map fun kv => (kv.1, vars k kv.2)) var = (bothSides d var).map fun t => t.map fun r => r.map (row k var) := by
  unfold bothSides
  simp only [bind, Except.bind, hitVar_sc]
  cases hitVar d "above" var with
  | error _ => rfl
  | ok a =>
    cases hitVar d "below" var with
    | error _ => rfl
    | ok b => exact catDim1_lift _ a b

theorem parse3_sc (var : String) (hv : var = "reco_xyz" ∨ var = "gen_xyz" ∨ var = "unc_xyz") (r : Row) : parse3 (row k var r) = (parse3 r).map (point k) := by
  unfold row
  rw [if_pos hv]
  match r with
  | [] => rfl
  | [_] => rfl
  | [_, _] => rfl
  | [_, _, _] => rfl
  | _ :: _ :: _ :: _ :: _ => rfl

theorem row_eff : row k "eff" = id := by
  funext r
  unfold row
  rw [if_neg (by decide)]
  rfl

theorem parses_sc (var : String) (hv : var = "reco_xyz" ∨ var = "gen_xyz" ∨ var = "unc_xyz") (t : List (List Row)) :
    mapE (mapE parse3) (t.map fun r => r.map (row k var)) = (mapE (mapE parse3) t).map fun s => s.map fun r => r.map (point k) :=
  mapE_comm (fun r : List Row => r.map (row k var)) (fun r : List X3 => r.map (point k)) t fun r _ => mapE_comm (row k var) (point k) r fun x _ => parse3_sc var hv x

theorem extract_sc (d : Dict String (Dict String (List (List Row)))) : extract (d.map fun kv => (kv.1, vars k kv.2)) = (extract d).map (hits k) := by
  unfold extract
  simp only [bind, Except.bind, hitVar_sc, bothSides_sc]
  cases hitVar d "above" "reco_xyz" with
  | error _ => rfl
  | ok a =>
    cases hitVar d "below" "reco_xyz" with
    | error _ => rfl
    | ok b =>
      cases bothSides d "reco_xyz" with
      | error _ => rfl
      | ok r =>
        cases bothSides d "gen_xyz" with
        | error _ => rfl
        | ok g =>
          cases bothSides d "unc_xyz" with
          | error _ => rfl
          | ok u =>
            cases bothSides d "eff" with
            | error _ => rfl
            | ok e =>
              simp only [Except.map]
              rw [parses_sc "reco_xyz" (.inl rfl), parses_sc "gen_xyz" (.inr (.inl rfl)), parses_sc "unc_xyz" (.inr (.inr rfl)), row_eff]
              simp only [List.map_id_fun, List.map_id_fun', id, shape1_lift]
              cases mapE (mapE parse3) r with
              | error _ => rfl
              | ok r =>
                cases mapE (mapE parse3) g with
                | error _ => rfl
                | ok g =>
                  cases mapE (mapE parse3) u with
                  | error _ => rfl
                  | ok u =>
                    simp only [Except.map]
                    cases mapE (mapE parse1) e <;> rfl

theorem filterMuons_sc (b : Batch Row) (keep : List Bool) : (batch k b).filterMuons keep = (b.filterMuons keep).map (batch k) := by
  unfold Batch.filterMuons
  rw [length_sc]
  split
  · split
    · rfl
    · simp only [batch, Except.map, pick_map, filterHits_sc, List.map_append, List.map_map]
      rfl
  · rfl

variable (hk : 0 < k)
include hk

/-! ### Tracks -/

/-- a point of a fit in another unit, its weight multiplied by any number -/
def pt (k c : ℝ) (p : FitPt) : FitPt := ⟨k * p.x, k * p.z, c * p.w⟩

theorem fitAxis_sc (c : ℝ) (hc : c ≠ 0) (l : List FitPt) : fitAxis (l.map (pt k c)) = (fitAxis l).map fun f => (k * f.1, f.2) := by
  have e0 : ((l.map (pt k c)).map fun h => h.w).sum = c * (l.map fun h => h.w).sum := by
    rw [List.map_map, ← List.sum_map_mul_left]; rfl
  have e1 : ((l.map (pt k c)).map fun h => h.x * h.w).sum = c * k * (l.map fun h => h.x * h.w).sum := by
    rw [List.map_map, ← List.sum_map_mul_left]
    congr 1; refine List.map_congr_left fun p _ => ?_; simp only [Function.comp, pt]; ring
  have e2 : ((l.map (pt k c)).map fun h => h.z * h.w).sum = c * k * (l.map fun h => h.z * h.w).sum := by
    rw [List.map_map, ← List.sum_map_mul_left]
    congr 1; refine List.map_congr_left fun p _ => ?_; simp only [Function.comp, pt]; ring
  have e3 : ((l.map (pt k c)).map fun h => h.x * h.z * h.w).sum = c * (k * k) * (l.map fun h => h.x * h.z * h.w).sum := by
    rw [List.map_map, ← List.sum_map_mul_left]
    congr 1; refine List.map_congr_left fun p _ => ?_; simp only [Function.comp, pt]; ring
  have e4 : ((l.map (pt k c)).map fun h => h.z * h.z * h.w).sum = c * (k * k) * (l.map fun h => h.z * h.z * h.w).sum := by
    rw [List.map_map, ← List.sum_map_mul_left]
    congr 1; refine List.map_congr_left fun p _ => ?_; simp only [Function.comp, pt]; ring
  unfold fitAxis
  simp only [e0, e1, e2, e3, e4]
  generalize (l.map fun h => h.w).sum = s
  generalize (l.map fun h => h.x * h.w).sum = sx
  generalize (l.map fun h => h.z * h.w).sum = sz
  generalize (l.map fun h => h.x * h.z * h.w).sum = sxz
  generalize (l.map fun h => h.z * h.z * h.w).sum = szz
  have hk' := hk.ne'
  by_cases hs : s = 0
  · simp [hs]
  rw [if_neg (mul_ne_zero hc hs), if_neg hs]
  have a1 : c * k * sx / (c * s) = k * (sx / s) := by field_simp
  have a2 : c * k * sz / (c * s) = k * (sz / s) := by field_simp
  have a3 : c * (k * k) * sxz / (c * s) = k * k * (sxz / s) := by field_simp
  have a4 : c * (k * k) * szz / (c * s) = k * k * (szz / s) := by field_simp
  simp only [a1, a2, a3, a4]
  generalize sx / s = mx
  generalize sz / s = mz
  generalize sxz / s = mxz
  generalize szz / s = mz2
  by_cases hz : mz2 = 0
  · simp [hz]
  rw [if_neg (mul_ne_zero (mul_ne_zero hk' hk') hz), if_neg hz]
  have b1 : (k * mz) ^ 2 / (k * k * mz2) = mz ^ 2 / mz2 := by field_simp
  rw [b1]
  by_cases hd : 1 - mz ^ 2 / mz2 = 0
  · simp [hd]
  rw [if_neg hd, if_neg hd]
  simp only [Option.map_some]
  have b2 : (k * mx - k * mz * (k * k * mxz) / (k * k * mz2)) / (1 - mz ^ 2 / mz2) = k * ((mx - mz * mxz / mz2) / (1 - mz ^ 2 / mz2)) := by
    rw [← mul_div_assoc]
    congr 1
    field_simp
  rw [b2]
  generalize (mx - mz * mxz / mz2) / (1 - mz ^ 2 / mz2) = st
  refine congrArg some (Prod.ext rfl ?_)
  simp only
  have b3 : k * k * mxz - k * st * (k * mz) = k * k * (mxz - st * mz) := by ring
  rw [b3, mul_div_mul_left _ _ (mul_ne_zero hk' hk')]

omit hk in
theorem hitCoord_sc (lw : ℝ × ℝ) (x : XF) : hitCoord (pair k lw) (len k x) = (hitCoord lw x).map (k * ·) := by
  cases x <;> simp only [hitCoord, len, pair, Option.map_some, Option.map_none, Option.some.injEq] <;> ring

theorem invUnc2_sc (u : XF) : invUnc2 (len k u) = (invUnc2 u).map (1 / (k * k) * ·) := by
  cases u with
  | num u =>
    simp only [len, invUnc2]
    by_cases h : u = 0
    · simp [h]
    · rw [if_neg h, if_neg (mul_ne_zero hk.ne' h)]
      simp only [Option.map_some, Option.some.injEq]
      field_simp
  | nan => rfl
  | pinf => simp [len, invUnc2]
  | ninf => simp [len, invUnc2]

omit hk in
/-- points whose uncertainties become `f` of what they were, the weights `c` times as large -/
theorem axisPts_sc (lw : ℝ × ℝ) (f : X3 → X3) (c : ℝ) (g : X3 → XF) (hg : ∀ q, g (point k q) = len k (g q)) : ∀ l : List (X3 × X3), (∀ q ∈ l, invUnc2 (g (f q.2)) = (invUnc2 (g q.2)).map (c * ·)) →
    axisPts (pair k lw) g (l.map fun q => (point k q.1, f q.2)) = (axisPts lw g l).map (List.map (pt k c))
  | [], _ => rfl
  | (q, u) :: l, hf => by
    have ez : (point k q).2.2 = len k q.2.2 := rfl
    simp only [List.map_cons, axisPts, axisPts_sc lw f c g hg l (fun q hq => hf q (List.mem_cons_of_mem _ hq)), hg, ez, hitCoord_sc, hf (q, u) List.mem_cons_self, Option.bind_eq_bind]
    cases hitCoord lw (g q) with
    | none => rfl
    | some a =>
      cases hitCoord lw q.2.2 with
      | none => rfl
      | some z =>
        cases invUnc2 (g u) with
        | none => rfl
        | some w => cases axisPts lw g l <;> rfl

theorem trajectory_sc (lw : ℝ × ℝ) (f : X3 → X3) (c : ℝ) (hc : c ≠ 0) (l : List (X3 × X3)) (h1 : ∀ q ∈ l, invUnc2 (f q.2).1 = (invUnc2 q.2.1).map (c * ·)) (h2 : ∀ q ∈ l, invUnc2 (f q.2).2.1 = (invUnc2 q.2.2.1).map (c * ·)) :
    trajectory (pair k lw) (l.map fun q => (point k q.1, f q.2)) = (trajectory lw l).map (Option.map (track k)) := by
  unfold trajectory
  simp only [List.getElem?_map]
  cases l[0]? with
  | none => rfl
  | some a =>
    cases l[1]? with
    | none => rfl
    | some b =>
      simp only [Option.map_some, Except.map]
      refine congrArg Except.ok ?_
      rw [axisPts_sc lw f c (·.1) (fun _ => rfl) l h1, axisPts_sc lw f c (·.2.1) (fun _ => rfl) l h2]
      have ea : (point k a.1).2.2 = len k a.1.2.2 := rfl
      have eb : (point k b.1).2.2 = len k b.1.2.2 := rfl
      rw [ea, eb]
      cases axisPts lw (·.1) l with
      | none => rfl
      | some px =>
        cases axisPts lw (·.2.1) l with
        | none => rfl
        | some py =>
          simp only [Option.map_some, Option.bind_eq_bind, Option.bind_some, fitAxis_sc hk c hc, hitCoord_sc]
          cases fitAxis px with
          | none => rfl
          | some fx =>
            cases fitAxis py with
            | none => rfl
            | some fy =>
              cases hitCoord lw a.1.2.2 with
              | none => rfl
              | some z0 =>
                cases hitCoord lw b.1.2.2 with
                | none => rfl
                | some z1 =>
                  simp only [Option.map_some, Option.bind_some, calcXYZ, track, place]
                  refine congrArg some (Prod.ext (Prod.ext ?_ (Prod.ext ?_ ?_)) (Prod.ext ?_ (Prod.ext ?_ ?_))) <;> simp only <;> ring

/-! ### Scatterings -/

abbrev rowL (k : ℝ) (r : List X3 × List X3 × List X3 × List XF) : List X3 × List X3 × List X3 × List XF := (r.1.map (point k), r.2.1.map (point k), r.2.2.1.map (point k), r.2.2.2)

abbrev trackL (k : ℝ) (t : Option Track × Option Track) : Option Track × Option Track := (t.1.map (track k), t.2.map (track k))

omit hk in
theorem rows_sc (H : Hits) : (hits k H).rows = H.rows.map (rowL k) := by
  simp only [Hits.rows, hits]
  have e : H.eff = H.eff.map id := by simp
  conv_lhs => rw [e, List.zip_map, List.zip_map, List.zip_map]
  rfl

theorem quotL_sc (a b : ℝ) : XF.quot (k * a) b = len k (XF.quot a b) := by
  unfold XF.quot
  by_cases hb : b = 0
  · simp only [hb, ne_eq, not_true_eq_false, if_false]
    have p1 : k * a > 0 ↔ a > 0 := mul_pos_iff_of_pos_left hk
    have p2 : k * a < 0 ↔ a < 0 := by
      constructor
      · intro h; by_contra hn; exact absurd (mul_nonneg hk.le (not_lt.mp hn)) (not_le.mpr h)
      · intro h; exact mul_neg_of_pos_of_neg hk h
    simp only [p1, p2]
    split
    · rfl
    · split <;> rfl
  · rw [if_pos hb, if_pos hb]
    simp only [len]
    congr 1
    ring

theorem div_sc (u e : XF) : (len k u).div e = len k (u.div e) := by
  cases u <;> cases e <;> simp only [len, XF.div, mul_zero]
  · exact quotL_sc hk _ _
  all_goals
    split <;> rfl

theorem scaleUnc_sc (u : X3) (e : XF) : scaleUnc (point k u) e = point k (scaleUnc u e) := by
  simp only [scaleUnc, point, div_sc hk]

theorem zips_sc (r u : List X3) (e : List XF) : (r.map (point k)).zip (List.zipWith scaleUnc (u.map (point k)) e) = (r.zip (List.zipWith scaleUnc u e)).map fun q => (point k q.1, point k q.2) := by
  have h : List.zipWith scaleUnc (u.map (point k)) e = (List.zipWith scaleUnc u e).map (point k) := by
    rw [List.zipWith_map_left, List.map_zipWith]
    simp only [scaleUnc_sc hk]
  rw [h, List.zip_map]
  rfl

theorem rowTracks_sc (gen : Bool) (lw : ℝ × ℝ) (n : Nat) (r : List X3 × List X3 × List X3 × List XF) :
    rowTracks gen (pair k lw) n (rowL k r) = (rowTracks gen lw n r).map (trackL k) := by
  cases gen
  · simp only [rowTracks, Bool.false_eq_true, if_false, muonTracks, ← List.map_take, ← List.map_drop, zips_sc hk, bind, Except.bind]
    have hc : 1 / (k * k) ≠ 0 := by positivity
    rw [trajectory_sc hk lw (point k) _ hc _ (fun q _ => invUnc2_sc hk _) (fun q _ => invUnc2_sc hk _), trajectory_sc hk lw (point k) _ hc _ (fun q _ => invUnc2_sc hk _) (fun q _ => invUnc2_sc hk _)]
    cases trajectory lw ((r.1.take n).zip (List.zipWith scaleUnc (r.2.2.1.take n) (r.2.2.2.take n))) with
    | error _ => rfl
    | ok a => cases trajectory lw ((r.1.drop n).zip (List.zipWith scaleUnc (r.2.2.1.drop n) (r.2.2.2.drop n))) <;> rfl
  · have e : ∀ l : List X3, (l.map (point k)).map (fun q => (q, ones3 q)) = (l.map fun q => (q, ones3 q)).map fun q => (point k q.1, id q.2) := by
      intro l
      simp only [List.map_map]
      rfl
    simp only [rowTracks, if_true, muonTracksGen, ← List.map_take, ← List.map_drop, e, bind, Except.bind]
    have hc : ∀ u : XF, invUnc2 u = (invUnc2 u).map ((1 : ℝ) * ·) := by intro u; simp
    rw [trajectory_sc hk lw id 1 one_ne_zero _ (fun q _ => hc _) (fun q _ => hc _), trajectory_sc hk lw id 1 one_ne_zero _ (fun q _ => hc _) (fun q _ => hc _)]
    cases trajectory lw ((r.2.1.take n).map fun q => (q, ones3 q)) with
    | error _ => rfl
    | ok a => cases trajectory lw ((r.2.1.drop n).map fun q => (q, ones3 q)) <;> rfl

theorem computeTracks_sc (gen : Bool) (lw : ℝ × ℝ) (H : Hits) : computeTracks gen (pair k lw) (hits k H) = (computeTracks gen lw H).map (List.map (trackL k)) := by
  unfold computeTracks
  rw [rows_sc]
  exact mapE_comm (rowL k) (trackL k) H.rows fun r _ => rowTracks_sc hk gen lw _ r

omit hk in
theorem vdot_sc (p q : V3) : vdot (place k p) (place k q) = k * k * vdot p q := by
  simp only [vdot, place]; ring

theorem vnorm_sc (p : V3) : vnorm (place k p) = k * vnorm p := by
  unfold vnorm
  rw [vdot_sc, sqrt_mul (by positivity), sqrt_mul_self hk.le]

theorem thetaMsc_sc (p q : V3) : thetaMsc (place k p) (place k q) = thetaMsc p q := by
  have e : k * vnorm p * (k * vnorm q) = k * k * (vnorm p * vnorm q) := by ring
  have hkk : k * k ≠ 0 := by positivity
  unfold thetaMsc
  rw [vnorm_sc hk, vnorm_sc hk, vdot_sc, e, mul_div_mul_left _ _ hkk]
  by_cases h : vnorm p * vnorm q = 0
  · rw [if_pos h, if_pos (by rw [h, mul_zero])]
  · rw [if_neg h, if_neg (mul_ne_zero hkk h)]

theorem thetaOf_sc (v : V3) : thetaOf (place k v) = thetaOf v := by
  have e : -(place k v).2.2 / (k * vnorm v) = -v.2.2 / vnorm v := by
    simp only [place]
    rw [← mul_neg, mul_div_mul_left _ _ hk.ne']
  unfold thetaOf
  rw [vnorm_sc hk, e]
  by_cases h : vnorm v = 0
  · rw [if_pos h, if_pos (by rw [h, mul_zero])]
  · rw [if_neg h, if_neg (mul_ne_zero hk.ne' h)]

theorem phiOf_sc (x y : ℝ) : phiOf (k * x) (k * y) = phiOf x y := by
  have p1 : ∀ a : ℝ, (k * a > 0) = (a > 0) := fun a => propext (mul_pos_iff_of_pos_left hk)
  have p2 : ∀ a : ℝ, (k * a < 0) = (a < 0) := fun a => propext ⟨fun h => by by_contra hn; exact absurd (mul_nonneg hk.le (not_lt.mp hn)) (not_le.mpr h), mul_neg_of_pos_of_neg hk⟩
  have p3 : ∀ a : ℝ, (k * a = 0) = (a = 0) := fun a => propext (by simp [hk.ne'])
  simp only [phiOf, p1, p2, ne_eq, p3, mul_div_mul_left _ _ hk.ne']

theorem xyzIn_sc (zr : ℝ × ℝ) (t : Track) : xyzIn (pair k zr) (track k t) = (xyzIn zr t).map (place k) := by
  by_cases h0 : t.1.2.2 = 0
  · rw [xyzIn, xyzIn, if_pos h0, if_pos (show (track k t).1.2.2 = 0 by change k * t.1.2.2 = 0; rw [h0, mul_zero])]
    rfl
  · rw [xyzIn, xyzIn, if_neg h0, if_neg (show ¬ (track k t).1.2.2 = 0 from mul_ne_zero hk.ne' h0)]
    simp only [track, place, pair, Option.map_some, ← mul_sub, mul_div_mul_left _ _ hk.ne']
    refine congrArg some (Prod.ext ?_ (Prod.ext ?_ ?_)) <;> simp only <;> ring

theorem xyzOut_sc (zr : ℝ × ℝ) (t : Track) : xyzOut (pair k zr) (track k t) = (xyzOut zr t).map (place k) := by
  by_cases h0 : t.1.2.2 = 0
  · rw [xyzOut, xyzOut, if_pos h0, if_pos (show (track k t).1.2.2 = 0 by change k * t.1.2.2 = 0; rw [h0, mul_zero])]
    rfl
  · rw [xyzOut, xyzOut, if_neg h0, if_neg (show ¬ (track k t).1.2.2 = 0 from mul_ne_zero hk.ne' h0)]
    simp only [track, place, pair, Option.map_some, ← mul_sub, mul_div_mul_left _ _ hk.ne']
    refine congrArg some (Prod.ext ?_ (Prod.ext ?_ ?_)) <;> simp only <;> ring

theorem near_sc (lw : ℝ × ℝ) (q : V3) :
    (decide ((place k q).1 > -10 * (pair k lw).1) && decide ((place k q).2.1 > -10 * (pair k lw).2) && decide ((place k q).1 < 10 * (pair k lw).1) && decide ((place k q).2.1 < 10 * (pair k lw).2)) =
      (decide (q.1 > -10 * lw.1) && decide (q.2.1 > -10 * lw.2) && decide (q.1 < 10 * lw.1) && decide (q.2.1 < 10 * lw.2)) := by
  simp only [place, pair, gt_iff_lt, mul_left_comm _ k, lt_sc hk]

theorem keepMuon_sc (lw zr : ℝ × ℝ) (t : Option Track × Option Track) (unc unc' : List X3) (hu : (unc'.all fun u => u.1.lt 1e10 && u.2.1.lt 1e10) = unc.all fun u => u.1.lt 1e10 && u.2.1.lt 1e10) :
    keepMuon (pair k lw) (pair k zr) (trackL k t) unc' = keepMuon lw zr t unc := by
  obtain ⟨t1, t2⟩ := t
  cases t1 with
  | none => rfl
  | some t1 =>
    cases t2 with
    | none => rfl
    | some t2 =>
      simp only [trackL, Option.map_some, keepMuon]
      have e1 : (track k t1).1 = place k t1.1 := rfl
      have e2 : (track k t2).1 = place k t2.1 := rfl
      rw [xyzIn_sc hk, xyzOut_sc hk, e1, e2, thetaMsc_sc hk, thetaOf_sc hk, thetaOf_sc hk, hu]
      cases xyzIn zr t1 with
      | none => cases xyzOut zr t2 <;> simp
      | some q1 =>
        cases xyzOut zr t2 with
        | none => simp
        | some q2 => simp only [Option.map_some, near_sc hk]

omit hk in
/-- the uncertainties of a scatter batch are on one side of the cut -/
def Sure (k : ℝ) (H : Hits) : Prop := ∀ l ∈ H.unc, ∀ u ∈ l, (len k u.1).lt 1e10 = u.1.lt 1e10 ∧ (len k u.2.1).lt 1e10 = u.2.1.lt 1e10

omit hk in
theorem uncs_sc (l : List X3) (hl : ∀ u ∈ l, (len k u.1).lt 1e10 = u.1.lt 1e10 ∧ (len k u.2.1).lt 1e10 = u.2.1.lt 1e10) :
    ((l.map (point k)).all fun u => u.1.lt 1e10 && u.2.1.lt 1e10) = l.all fun u => u.1.lt 1e10 && u.2.1.lt 1e10 := by
  induction l with
  | nil => rfl
  | cons u l ih =>
    simp only [List.map_cons, List.all_cons, point] at ih ⊢
    rw [ih fun u h => hl u (List.mem_cons_of_mem _ h), (hl u List.mem_cons_self).1, (hl u List.mem_cons_self).2]

theorem keepMask_sc (gen : Bool) (lw zr : ℝ × ℝ) (s : SB) (hs : gen = false → Sure k s.hits) : keepMask gen (pair k lw) (pair k zr) (scatter k s) = keepMask gen lw zr s := by
  have e : (scatter k s).tracks = s.tracks.map (trackL k) := rfl
  have e' : (scatter k s).hits = hits k s.hits := rfl
  simp only [keepMask, e, e', rows_sc]
  rw [List.zipWith_map, ← List.map_uncurry_zip_eq_zipWith, ← List.map_uncurry_zip_eq_zipWith]
  refine List.map_congr_left fun p hp => ?_
  obtain ⟨t, r⟩ := p
  have hr := (List.of_mem_zip hp).2
  simp only [Function.uncurry]
  refine keepMuon_sc hk lw zr t _ _ ?_
  cases gen
  · exact uncs_sc _ (hs rfl _ (List.of_mem_zip (List.of_mem_zip (List.of_mem_zip hr).2).2).1)
  · simp only [rowUnc, if_true, List.map_map, List.all_map]
    rfl

omit hk in
theorem hitVar_clear {b : Batch Row} (hb : Clear k b) {d : Dict String (Dict String (List (List Row)))} (hd : b.getHits none none = .ok d) {pos : String}
    {t : List (List Row)} (ht : hitVar d pos "unc_xyz" = .ok t) : ∀ l ∈ t, ∀ r ∈ l, ∀ x ∈ r, (len k x).lt 1e10 = x.lt 1e10 := by
  unfold hitVar at ht
  cases h1 : Dict.get? d pos with
  | none => rw [h1] at ht; simp at ht
  | some vs =>
    rw [h1] at ht
    simp only at ht
    cases h2 : Dict.get? vs "unc_xyz" with
    | none => rw [h2] at ht; simp at ht
    | some t' =>
      rw [h2] at ht
      simp only [Except.ok.injEq] at ht
      subst ht
      unfold Batch.getHits at hd
      simp only [Option.isNone_none, Bool.and_self, if_true] at hd
      split at hd
      · simp at hd
      · obtain ⟨vs0, m1, e1⟩ := mapValsM_mem _ _ hd _ (get?_mem _ _ _ h1)
        obtain ⟨ts0, m2, e2⟩ := mapValsM_mem _ _ e1 _ (get?_mem _ _ _ h2)
        intro l hl r hr
        obtain ⟨t0, m3, m4⟩ := stack1_mem e2 l hl r hr
        exact hb _ m1 _ m2 rfl t0 m3 r m4

omit hk in
theorem extract_sure {b : Batch Row} (hb : Clear k b) {d : Dict String (Dict String (List (List Row)))} (hd : b.getHits none none = .ok d) {H : Hits} (hH : extract d = .ok H) : Sure k H := by
  unfold extract at hH
  obtain ⟨_, _, hH⟩ := bind_ok hH
  obtain ⟨_, _, hH⟩ := bind_ok hH
  obtain ⟨_, _, hH⟩ := bind_ok hH
  obtain ⟨_, _, hH⟩ := bind_ok hH
  obtain ⟨u, hu, hH⟩ := bind_ok hH
  obtain ⟨_, _, hH⟩ := bind_ok hH
  obtain ⟨_, _, hH⟩ := bind_ok hH
  obtain ⟨_, _, hH⟩ := bind_ok hH
  obtain ⟨u', hu', hH⟩ := bind_ok hH
  obtain ⟨_, _, hH⟩ := bind_ok hH
  simp only [Except.ok.injEq] at hH
  subst hH
  intro l hl q hq
  obtain ⟨l0, m1, e1⟩ := mapE_mem _ _ hu' l hl
  obtain ⟨q0, m2, e2⟩ := mapE_mem _ _ e1 q hq
  have hall : ∀ x ∈ q0, (len k x).lt 1e10 = x.lt 1e10 := by
    unfold bothSides at hu
    obtain ⟨a, ha, ht⟩ := bind_ok hu
    obtain ⟨c, hc, ht⟩ := bind_ok ht
    unfold catDim1 at ht
    split at ht
    · simp only [Except.ok.injEq] at ht
      subst ht
      rw [← List.map_uncurry_zip_eq_zipWith] at m1
      obtain ⟨⟨p, p'⟩, hpq, rfl⟩ := List.mem_map.mp m1
      rcases List.mem_append.mp m2 with m2 | m2
      · exact hitVar_clear hb hd ha p (List.of_mem_zip hpq).1 q0 m2
      · exact hitVar_clear hb hd hc p' (List.of_mem_zip hpq).2 q0 m2
    · simp at ht
  match q0, e2, hall with
  | [x, y, z], e2, hall =>
    simp only [parse3, Except.ok.injEq] at e2
    subst e2
    exact ⟨hall x (by simp), hall y (by simp)⟩

theorem filterScatters_sc (gen : Bool) (lw zr : ℝ × ℝ) (s : SB) (hs : gen = false → Sure k s.hits) : filterScatters gen (pair k lw) (pair k zr) (scatter k s) = (filterScatters gen lw zr s).map (scatter k) := by
  unfold filterScatters
  simp only [keepMask_sc hk gen lw zr s hs]
  have e0 : (scatter k s).mu = batch k s.mu := rfl
  have e1 : (batch k s.mu).removed.isEmpty = s.mu.removed.isEmpty := by simp [batch]
  split
  · rfl
  · rw [e0, e1]
    split
    · rfl
    · simp only [bind, Except.bind, filterMuons_sc]
      cases hm : s.mu.filterMuons (keepMask gen lw zr s) with
      | error _ => rfl
      | ok mu =>
        simp only [Except.map, recorded_sc]
        cases hd : mu.getHits none none with
        | error _ => rfl
        | ok d =>
          simp only [Except.map, extract_sc]
          cases hH : extract d with
          | error _ => rfl
          | ok H =>
            simp only [Except.map, computeTracks_sc hk gen lw H]
            cases computeTracks gen lw H <;> rfl

omit hk in
theorem vcross_sc (p q : V3) : vcross (place k p) (place k q) = place (k * k) (vcross p q) := by
  simp only [vcross, place]
  refine Prod.ext ?_ (Prod.ext ?_ ?_) <;> simp only <;> ring

omit hk in
theorem det3_sc (a b c : ℝ) (p q r : V3) : det3 (place a p) (place b q) (place c r) = a * b * c * det3 p q r := by
  simp only [det3, vdot, vcross, place]; ring

theorem trackCoefs_sc (a b : Track) : trackCoefs (track k a) (track k b) = (trackCoefs a b).map fun c => (c.1, c.2.1, c.2.2 / k) := by
  have hk' := hk.ne'
  have e1 : ((-(track k b).1.1, -(track k b).1.2.1, -(track k b).1.2.2) : V3) = place k (-b.1.1, -b.1.2.1, -b.1.2.2) := by
    simp only [track, place, mul_neg]
  have e2 : (((track k b).2.1 - (track k a).2.1, (track k b).2.2.1 - (track k a).2.2.1, (track k b).2.2.2 - (track k a).2.2.2) : V3) = place k (b.2.1 - a.2.1, b.2.2.1 - a.2.2.1, b.2.2.2 - a.2.2.2) := by
    simp only [track, place, mul_sub]
  have e3 : (track k a).1 = place k a.1 := rfl
  have e4 : (track k b).1 = place k b.1 := rfl
  unfold trackCoefs
  simp only [e1, e2]
  simp only [e3, e4, vcross_sc, det3_sc]
  generalize det3 a.1 (-b.1.1, -b.1.2.1, -b.1.2.2) (vcross a.1 b.1) = d
  by_cases hd : d = 0
  · simp [hd]
  · rw [if_neg hd, if_neg (by positivity)]
    simp only [Option.map_some]
    refine congrArg some (Prod.ext ?_ (Prod.ext ?_ ?_)) <;> simp only <;> field_simp

theorem coefsOf_sc (t : Option Track × Option Track) : coefsOf (trackL k t) = (coefsOf t).map (coefs k) := by
  obtain ⟨t1, t2⟩ := t
  cases t1 with
  | none => rfl
  | some t1 =>
    cases t2 with
    | none => rfl
    | some t2 =>
      simp only [trackL, Option.map_some, coefsOf, trackCoefs_sc hk]
      cases trackCoefs t1 t2 <;> rfl

omit hk in
theorem passives_sc (V : Volume) : (volume k V).passives = V.passives.map (passive k) := by
  simp only [Volume.passives, volume, List.filterMap_map, List.map_filterMap]
  congr 1
  funext l
  cases l <;> rfl

omit hk in
theorem lw_sc (V : Volume) : (volume k V).lw = V.lw.map (pair k) := by
  unfold Volume.lw
  rw [passives_sc, List.getLast?_map]
  cases V.passives.getLast? <;> rfl

omit hk in
theorem zRange_sc (V : Volume) : (volume k V).zRange = V.zRange.map (pair k) := by
  unfold Volume.zRange
  rw [passives_sc, List.getLast?_map, List.head?_map]
  cases V.passives.head? with
  | none => rfl
  | some T =>
    cases V.passives.getLast? with
    | none => rfl
    | some B =>
      simp only [Option.map_some, Except.map, passive, pair]
      refine congrArg Except.ok (Prod.ext ?_ rfl)
      simp only
      ring

theorem build_sc (gen : Bool) (V : Volume) (b : Batch Row) (hb : gen = false → Clear k b) : build gen (volume k V) (batch k b) = (build gen V b).map fun r => (scatter k r.1, r.2.map (coefs k)) := by
  unfold build
  simp only [bind, Except.bind, recorded_sc]
  cases hd : b.getHits none none with
  | error _ => rfl
  | ok d =>
    simp only [Except.map, extract_sc, lw_sc, zRange_sc]
    cases hH : extract d with
    | error _ => rfl
    | ok H =>
      simp only [Except.map]
      cases V.lw with
      | error _ => rfl
      | ok lw =>
        simp only
        cases V.zRange with
        | error _ => rfl
        | ok zr =>
          simp only [computeTracks_sc hk gen lw H]
          cases computeTracks gen lw H with
          | error _ => rfl
          | ok ts =>
            simp only [Except.map]
            have e := filterScatters_sc hk gen lw zr ⟨b, H, ts⟩ (fun g => extract_sure (hb g) hd hH)
            have e' : (⟨batch k b, hits k H, ts.map (trackL k)⟩ : SB) = scatter k ⟨b, H, ts⟩ := rfl
            rw [e', e]
            cases filterScatters gen lw zr ⟨b, H, ts⟩ with
            | error _ => rfl
            | ok s =>
              simp only [Except.map]
              have e2 : mapE coefsOf (scatter k s).tracks = (mapE coefsOf s.tracks).map (List.map (coefs k)) := mapE_comm (trackL k) (coefs k) s.tracks fun t _ => coefsOf_sc hk t
              rw [e2]
              cases mapE coefsOf s.tracks <;> rfl

theorem poca_sc (c : Track × Track × (ℝ × ℝ × ℝ)) : poca (coefs k c).1 (coefs k c).2.1 (coefs k c).2.2 = place k (poca c.1 c.2.1 c.2.2) := by
  have hk' := hk.ne'
  have e3 : (track k c.1).1 = place k c.1.1 := rfl
  have e4 : (track k c.2.1).1 = place k c.2.1.1 := rfl
  simp only [poca, coefs, e3, e4, vcross_sc]
  simp only [track, place]
  refine Prod.ext ?_ (Prod.ext ?_ ?_) <;> simp only <;> field_simp

theorem dxy_sc (c : Track × Track × (ℝ × ℝ × ℝ)) : dxy (coefs k c).1 (coefs k c).2.1 (coefs k c).2.2 = pair k (dxy c.1 c.2.1 c.2.2) := by
  have hk' := hk.ne'
  have e3 : (track k c.1).1 = place k c.1.1 := rfl
  have e4 : (track k c.2.1).1 = place k c.2.1.1 := rfl
  simp only [dxy, coefs, e3, e4, vcross_sc]
  simp only [place, pair]
  refine Prod.ext ?_ ?_ <;> simp only <;> field_simp

theorem inVolume_sc (lw zr : ℝ × ℝ) (q : V3) : inVolume (pair k lw) (pair k zr) (place k q) = inVolume lw zr q := by
  have h0 : ∀ a : ℝ, (k * a ≥ 0) = (a ≥ 0) := fun a => propext (mul_nonneg_iff_of_pos_left hk)
  simp only [inVolume, pair, place, h0, lt_sc hk, ge_iff_le, le_sc hk]

end Rescale

end

end Tomopt
