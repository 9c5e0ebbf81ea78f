import Verif.Lemmas.Lift
import Verif.Lemmas.Fit
import Verif.Lemmas.ScatterBatch
import Verif.Lemmas.Passage
import Verif.Spec.LiftScatter

/- Helper lemmas: reconstructed tracks and scatterings when everything is moved up. -/
namespace Tomopt

noncomputable section
open Real Scatter

namespace Lift

variable (h : ℝ)

theorem mapE_comm {β γ β' γ' : Type} {f : β → Except Err γ} {f' : β' → Except Err γ'} (w : β → β') (v : γ → γ') : ∀ (xs : List β), (∀ x ∈ xs, f' (w x) = (f x).map v) → mapE f' (xs.map w) = (mapE f xs).map (List.map v)
  | [], _ => rfl
  | x :: xs, e => by
    simp only [List.map_cons, mapE, e x (by simp), mapE_comm w v xs (fun x hx => e x (by simp [hx]))]
    cases f x with
    | error _ => rfl
    | ok y => cases mapE f xs <;> rfl

/-! ### Recorded hits -/

theorem stack1_lift (f : Row → Row) (ts : List (List Row)) : Batch.stack1 (ts.map fun t => t.map f) = (Batch.stack1 ts).map fun s => s.map fun r => r.map f := by
  cases ts with
  | nil => rfl
  | cons t ts =>
    simp only [List.map_cons, Batch.stack1, List.all_map, List.length_map, Function.comp_def]
    split
    · simp only [Except.map, List.map_map]
      congr 2
      funext i
      have e : ∀ us : List (List Row), (us.map fun t => t.map f).filterMap (fun u => u[i]?) = (us.filterMap fun u => u[i]?).map f := by
        intro us
        rw [List.filterMap_map, List.map_filterMap]
        congr 1
        funext u
        simp
      simpa using e (t :: ts)
    · rfl

theorem mapValsM_lift {κ v v' w w' : Type} (g : κ → v → v') (g' : κ → w → w') (F : v → Except Err w) (F' : v' → Except Err w') : ∀ d : Dict κ v, (∀ kv ∈ d, F' (g kv.1 kv.2) = (F kv.2).map (g' kv.1)) →
    Batch.mapValsM (d.map fun kv => (kv.1, g kv.1 kv.2)) F' = (Batch.mapValsM d F).map fun r => r.map fun kw => (kw.1, g' kw.1 kw.2)
  | [], _ => rfl
  | (k, x) :: d, e => by
    simp only [List.map_cons, Batch.mapValsM, bind, Except.bind, e (k, x) (by simp), mapValsM_lift g g' F F' d (fun kv hk => e kv (by simp [hk]))]
    cases F x with
    | error _ => rfl
    | ok y => cases Batch.mapValsM d F <;> rfl

theorem recorded_lift (b : Batch Row) : (batch h b).getHits none none = (b.getHits none none).map fun d => d.map fun kv => (kv.1, vars h kv.2) := by
  unfold Batch.getHits
  simp only [batch, List.length_map, Option.isNone_none, Bool.and_self, if_true]
  split
  · rfl
  · refine mapValsM_lift (fun _ => vars h) (fun _ => vars h) _ _ b.hits (fun kv _ => ?_)
    exact mapValsM_lift (fun k (ts : List (List Row)) => ts.map fun t => t.map (row h k)) (fun k (ts : List (List Row)) => ts.map fun t => t.map (row h k)) _ _ kv.2 (fun kw _ => stack1_lift _ _)

theorem get?_map {v v' : Type} (g : String → v → v') (k : String) : ∀ d : Dict String v, Dict.get? (d.map fun kv => (kv.1, g kv.1 kv.2)) k = (Dict.get? d k).map (g k)
  | [] => rfl
  | (k', x) :: d => by
    simp only [List.map_cons, Dict.get?]
    by_cases e : k' = k
    · subst e
      simp
    · simp only [e, if_false, get?_map g k d]

theorem hitVar_lift (d : Dict String (Dict String (List (List Row)))) (pos var : String) :
    hitVar (d.map fun kv => (kv.1, vars h kv.2)) pos var = (hitVar d pos var).map fun t => t.map fun r => r.map (row h var) := by
  unfold hitVar
  rw [get?_map (fun _ => vars h) pos d]
  cases Dict.get? d pos with
  | none => rfl
  | some vs =>
    simp only [Option.map, vars]
    rw [get?_map (fun k ts => ts.map fun t => t.map (row h k)) var vs]
    cases Dict.get? vs var <;> rfl

theorem catDim1_lift (f : Row → Row) (a b : List (List Row)) : catDim1 (a.map fun x => x.map f) (b.map fun x => x.map f) = (catDim1 a b).map fun r => r.map fun x => x.map f := by
  unfold catDim1
  simp only [List.length_map]
  split
  · simp only [Except.map, List.zipWith_map, List.map_zipWith, List.map_append]
  · rfl

theorem bothSides_lift (d : Dict String (Dict String (List (List Row)))) (var : String) :
    bothSides (d.map fun kv => (kv.1, vars h kv.2)) var = (bothSides d var).map fun t => t.map fun r => r.map (row h var) := by
  unfold bothSides
  simp only [bind, Except.bind, hitVar_lift]
  cases hitVar d "above" var with
  | error _ => rfl
  | ok a =>
    cases hitVar d "below" var with
    | error _ => rfl
    | ok b => exact catDim1_lift _ a b

theorem parse3_lift (var : String) (hv : var = "reco_xyz" ∨ var = "gen_xyz") (r : Row) : parse3 (row h var r) = (parse3 r).map (point h) := by
  unfold row
  rw [if_pos hv]
  match r with
  | [] => rfl
  | [_] => rfl
  | [_, _] => rfl
  | [_, _, .num _] => rfl
  | [_, _, .nan] => rfl
  | [_, _, .pinf] => rfl
  | [_, _, .ninf] => rfl
  | _ :: _ :: .num _ :: _ :: _ => rfl
  | _ :: _ :: .nan :: _ :: _ => rfl
  | _ :: _ :: .pinf :: _ :: _ => rfl
  | _ :: _ :: .ninf :: _ :: _ => rfl

theorem row_other (var : String) (hv : ¬ (var = "reco_xyz" ∨ var = "gen_xyz")) : row h var = id := by
  funext r
  unfold row
  rw [if_neg hv]
  rfl

theorem shape1_lift (a : List (List Row)) (f : Row → Row) : shape1 (a.map fun x => x.map f) = shape1 a := by
  cases a <;> simp [shape1]

theorem parses_lift (var : String) (hv : var = "reco_xyz" ∨ var = "gen_xyz") (t : List (List Row)) :
    mapE (mapE parse3) (t.map fun r => r.map (row h var)) = (mapE (mapE parse3) t).map fun s => s.map fun r => r.map (point h) :=
  mapE_comm (fun r : List Row => r.map (row h var)) (fun r : List X3 => r.map (point h)) t fun r _ => mapE_comm (row h var) (point h) r fun x _ => parse3_lift h var hv x

theorem extract_lift (d : Dict String (Dict String (List (List Row)))) : extract (d.map fun kv => (kv.1, vars h kv.2)) = (extract d).map (hits h) := by
  unfold extract
  simp only [bind, Except.bind, hitVar_lift, bothSides_lift]
  cases hitVar d "above" "reco_xyz" with
  | error _ => rfl
  | ok a =>
    cases hitVar d "below" "reco_xyz" with
    | error _ => rfl
    | ok b =>
      cases bothSides d "reco_xyz" with
      | error _ => rfl
      | ok r =>
        cases bothSides d "gen_xyz" with
        | error _ => rfl
        | ok g =>
          cases bothSides d "unc_xyz" with
          | error _ => rfl
          | ok u =>
            cases bothSides d "eff" with
            | error _ => rfl
            | ok e =>
              simp only [Except.map]
              rw [parses_lift h "reco_xyz" (.inl rfl), parses_lift h "gen_xyz" (.inr rfl), row_other h "unc_xyz" (by decide), row_other h "eff" (by decide)]
              simp only [List.map_id_fun, List.map_id_fun', id, shape1_lift]
              cases mapE (mapE parse3) r with
              | error _ => rfl
              | ok r =>
                cases mapE (mapE parse3) g with
                | error _ => rfl
                | ok g =>
                  cases mapE (mapE parse3) u with
                  | error _ => rfl
                  | ok u => 
                    simp only [Except.map]
                    cases mapE (mapE parse1) e <;> rfl

/-! ### Tracks -/

def pt (p : FitPt) : FitPt := { p with z := p.z + h }

theorem sums_lift (l : List FitPt) : s0 (l.map (pt h)) = s0 l ∧ sx (l.map (pt h)) = sx l ∧ sz (l.map (pt h)) = sz l + h * s0 l ∧ sxz (l.map (pt h)) = sxz l + h * sx l ∧
    szz (l.map (pt h)) = szz l + 2 * h * sz l + h ^ 2 * s0 l := by
  induction l with
  | nil => simp [s0, sx, sz, sxz, szz]
  | cons p l ih =>
    simp only [s0, sx, sz, sxz, szz, List.map_cons, List.sum_cons, pt] at ih ⊢
    obtain ⟨h1, h2, h3, h4, h5⟩ := ih
    rw [h1, h2, h3, h4, h5]
    refine ⟨rfl, rfl, ?_, ?_, ?_⟩ <;> ring

theorem fitAxis_none {l : List FitPt} (hd : s0 l = 0 ∨ s0 l * szz l - sz l ^ 2 = 0) : fitAxis l = none := by
  have hu : fitAxis l = if s0 l = 0 then none else if szz l / s0 l = 0 then none else
      if 1 - (sz l / s0 l) ^ 2 / (szz l / s0 l) = 0 then none else
      some ((sx l / s0 l - sz l / s0 l * (sxz l / s0 l) / (szz l / s0 l)) / (1 - (sz l / s0 l) ^ 2 / (szz l / s0 l)),
        (sxz l / s0 l - (sx l / s0 l - sz l / s0 l * (sxz l / s0 l) / (szz l / s0 l)) / (1 - (sz l / s0 l) ^ 2 / (szz l / s0 l)) * (sz l / s0 l)) /
          (szz l / s0 l)) := rfl
  rw [hu]
  by_cases h0 : s0 l = 0
  · rw [if_pos h0]
  · rw [if_neg h0]
    by_cases h1 : szz l = 0
    · rw [if_pos (by rw [h1, zero_div])]
    · rw [if_neg (div_ne_zero h1 h0), if_pos]
      rcases hd with hd | hd
      · exact absurd hd h0
      · have : sz l ^ 2 = s0 l * szz l := by linarith
        field_simp
        linarith

/-- the weighted squares vanish only together with the determinant -/
theorem szz_zero {l : List FitPt} (hw : ∀ p ∈ l, 0 ≤ p.w) (h1 : szz l = 0) : sz l = 0 := by
  induction l with
  | nil => simp [sz]
  | cons p l ih =>
    have hn : 0 ≤ szz l := by
      unfold szz
      refine List.sum_nonneg fun x hx => ?_
      obtain ⟨q, hq, rfl⟩ := List.mem_map.mp hx
      have := hw q (by simp [hq])
      have := mul_self_nonneg q.z
      positivity
    have e : szz (p :: l) = p.z * p.z * p.w + szz l := by simp [szz]
    have hp : 0 ≤ p.z * p.z * p.w := mul_nonneg (mul_self_nonneg _) (hw p (by simp))
    rw [e] at h1
    have k1 : p.z * p.z * p.w = 0 := by linarith
    have k2 := ih (fun q hq => hw q (by simp [hq])) (by linarith)
    have e' : sz (p :: l) = p.z * p.w + sz l := by simp [sz]
    rw [e', k2]
    rcases mul_eq_zero.mp k1 with k | k
    · rcases mul_eq_zero.mp k with k | k <;> rw [k] <;> ring
    · rw [k]; ring

theorem fitAxis_some {l : List FitPt} (hw : ∀ p ∈ l, 0 ≤ p.w) (h0 : s0 l ≠ 0) (h2 : s0 l * szz l - sz l ^ 2 ≠ 0) :
    fitAxis l = some ((sx l * szz l - sz l * sxz l) / (s0 l * szz l - sz l ^ 2), (s0 l * sxz l - sz l * sx l) / (s0 l * szz l - sz l ^ 2)) := by
  have h1 : szz l ≠ 0 := fun h1 => h2 (by rw [h1, szz_zero hw h1]; ring)
  obtain ⟨a, b, e, n1, n2⟩ := fitAxis_normal h0 h1 h2
  rw [e, n1, n2]
  refine congrArg some (Prod.ext ?_ ?_) <;> simp only <;> rw [eq_div_iff h2] <;> ring

theorem fitAxis_lift (l : List FitPt) (hw : ∀ p ∈ l, 0 ≤ p.w) : fitAxis (l.map (pt h)) = (fitAxis l).map fun f => (f.1 - f.2 * h, f.2) := by
  obtain ⟨e1, e2, e3, e4, e5⟩ := sums_lift h l
  have hw' : ∀ p ∈ l.map (pt h), 0 ≤ p.w := by
    intro p hp
    obtain ⟨q, hq, rfl⟩ := List.mem_map.mp hp
    exact hw q hq
  have ed : s0 (l.map (pt h)) * szz (l.map (pt h)) - sz (l.map (pt h)) ^ 2 = s0 l * szz l - sz l ^ 2 := by
    rw [e1, e3, e5]; ring
  by_cases hd : s0 l = 0 ∨ s0 l * szz l - sz l ^ 2 = 0
  · rw [fitAxis_none hd, fitAxis_none (by rw [ed, e1]; exact hd)]
    rfl
  · push Not at hd
    rw [fitAxis_some hw hd.1 hd.2, fitAxis_some hw' (by rw [e1]; exact hd.1) (by rw [ed]; exact hd.2), ed, e1, e2, e3, e4, e5]
    simp only [Option.map]
    refine congrArg some (Prod.ext ?_ ?_) <;> simp only
    · rw [div_mul_eq_mul_div, ← sub_div]
      congr 1
      ring
    · congr 1
      ring

theorem invUnc2_nonneg (u : XF) (w : ℝ) (hu : invUnc2 u = some w) : 0 ≤ w := by
  cases u <;> simp only [invUnc2] at hu
  · split at hu
    · simp at hu
    · simp only [Option.some.injEq] at hu
      rw [← hu]; positivity
  all_goals simp_all

theorem point_num (x y : XF) (z : ℝ) : point h (x, y, .num z) = (x, y, .num (z + h)) := rfl

theorem hitCoord_num (lw : ℝ × ℝ) (z : ℝ) : hitCoord lw (.num z) = some z := rfl

theorem axisPts_lift (lw : ℝ × ℝ) (c : X3 → XF) (hc : ∀ q, c (point h q) = c q) : ∀ l : List (X3 × X3), (∀ q ∈ l, ∃ z, q.1.2.2 = .num z) →
    axisPts lw c (l.map fun q => (point h q.1, q.2)) = (axisPts lw c l).map (List.map (pt h)) ∧ ∀ ps, axisPts lw c l = some ps → ∀ p ∈ ps, 0 ≤ p.w
  | [], _ => ⟨rfl, by simp [axisPts]⟩
  | (q, u) :: l, hz => by
    obtain ⟨z, hz0⟩ := hz (q, u) (by simp)
    obtain ⟨ih1, ih2⟩ := axisPts_lift lw c hc l fun q hq => hz q (by simp [hq])
    obtain ⟨x, y, z'⟩ := q
    simp only at hz0
    subst hz0
    have e1 : c (x, y, .num (z + h)) = c (x, y, .num z) := hc (x, y, .num z)
    constructor
    · simp only [List.map_cons, axisPts, point_num, ih1, hitCoord_num, Option.bind_eq_bind, Option.bind_some]
      rw [e1]
      cases hitCoord lw (c (x, y, .num z)) with
      | none => rfl
      | some a =>
        cases invUnc2 (c u) with
        | none => rfl
        | some w =>
          cases axisPts lw c l <;> rfl
    · intro ps hps
      simp only [axisPts, hitCoord_num, Option.bind_eq_bind, Option.bind_some] at hps
      cases hx : hitCoord lw (c (x, y, .num z)) with
      | none => rw [hx] at hps; simp at hps
      | some a =>
        cases hu : invUnc2 (c u) with
        | none => rw [hx, hu] at hps; simp at hps
        | some w =>
          cases hl : axisPts lw c l with
          | none => rw [hx, hu, hl] at hps; simp at hps
          | some r =>
            rw [hx, hu, hl] at hps
            simp only [Option.bind_some, Option.some.injEq] at hps
            subst hps
            intro p hp
            rcases List.mem_cons.mp hp with rfl | hp
            · exact invUnc2_nonneg _ _ hu
            · exact ih2 r hl p hp

theorem trajectory_lift (lw : ℝ × ℝ) (l : List (X3 × X3)) (hz : ∀ q ∈ l, ∃ z, q.1.2.2 = .num z) :
    trajectory lw (l.map fun q => (point h q.1, q.2)) = (trajectory lw l).map (Option.map (track h)) := by
  unfold trajectory
  simp only [List.getElem?_map]
  cases h0 : l[0]? with
  | none => rfl
  | some a =>
    cases h1 : l[1]? with
    | none => rfl
    | some b =>
      simp only [Option.map_some, Except.map]
      refine congrArg Except.ok ?_
      obtain ⟨ex, wx⟩ := axisPts_lift h lw (·.1) (fun q => by obtain ⟨x, y, z⟩ := q; cases z <;> rfl) l hz
      obtain ⟨ey, wy⟩ := axisPts_lift h lw (·.2.1) (fun q => by obtain ⟨x, y, z⟩ := q; cases z <;> rfl) l hz
      rw [ex, ey]
      obtain ⟨za, ha⟩ := hz a (List.mem_of_getElem? h0)
      obtain ⟨zb, hb⟩ := hz b (List.mem_of_getElem? h1)
      obtain ⟨⟨ax, ay, az⟩, au⟩ := a
      obtain ⟨⟨bx, bY, bz⟩, bu⟩ := b
      simp only at ha hb
      subst ha hb
      cases hpx : axisPts lw (·.1) l with
      | none => rfl
      | some px =>
        cases hpy : axisPts lw (·.2.1) l with
        | none => rfl
        | some py =>
          simp only [Option.map_some, Option.bind_eq_bind, Option.bind_some, fitAxis_lift h px (wx px hpx), fitAxis_lift h py (wy py hpy)]
          cases fitAxis px with
          | none => rfl
          | some fx =>
            cases fitAxis py with
            | none => rfl
            | some fy =>
              simp only [Option.map_some, Option.bind_some, point_num, hitCoord_num, calcXYZ, track, place]
              refine congrArg some (Prod.ext (Prod.ext ?_ (Prod.ext ?_ ?_)) (Prod.ext ?_ (Prod.ext ?_ ?_))) <;> simp only <;> ring

/-! ### Scatterings -/

/-- the row of a muon -/
abbrev rowL (r : List X3 × List X3 × List X3 × List XF) : List X3 × List X3 × List X3 × List XF := (r.1.map (point h), r.2.1.map (point h), r.2.2.1, r.2.2.2)

abbrev trackL (t : Option Track × Option Track) : Option Track × Option Track := (t.1.map (track h), t.2.map (track h))

theorem rows_lift (H : Hits) : (hits h H).rows = H.rows.map (rowL h) := by
  simp only [Hits.rows, hits]
  have e : H.unc.zip H.eff = (H.unc.zip H.eff).map id := by simp
  rw [e, List.zip_map, List.zip_map, List.map_id]
  rfl

theorem zip_lift (r : List X3) (u : List X3) : (r.map (point h)).zip u = (r.zip u).map fun q => (point h q.1, q.2) := by
  have e : u = u.map id := by simp
  conv_lhs => rw [e, List.zip_map]
  rfl

theorem rowTracks_lift (gen : Bool) (lw : ℝ × ℝ) (n : Nat) (r : List X3 × List X3 × List X3 × List XF) (h1 : ∀ q ∈ r.1, ∃ z, q.2.2 = .num z) (h2 : ∀ q ∈ r.2.1, ∃ z, q.2.2 = .num z) :
    rowTracks gen lw n (rowL h r) = (rowTracks gen lw n r).map (trackL h) := by
  cases gen
  · simp only [rowTracks, Bool.false_eq_true, if_false, muonTracks, ← List.map_take, ← List.map_drop, zip_lift, bind, Except.bind]
    rw [trajectory_lift h lw _ (fun q hq => h1 q.1 (List.mem_of_mem_take (List.of_mem_zip hq).1)), trajectory_lift h lw _ (fun q hq => h1 q.1 (List.mem_of_mem_drop (List.of_mem_zip hq).1))]
    cases trajectory lw ((r.1.take n).zip (List.zipWith scaleUnc (r.2.2.1.take n) (r.2.2.2.take n))) with
    | error _ => rfl
    | ok a => cases trajectory lw ((r.1.drop n).zip (List.zipWith scaleUnc (r.2.2.1.drop n) (r.2.2.2.drop n))) <;> rfl
  · have k : ∀ l : List X3, (l.map (point h)).map (fun q => (q, ones3 q)) = (l.map fun q => (q, ones3 q)).map fun q => (point h q.1, q.2) := by
      intro l
      simp only [List.map_map]
      rfl
    simp only [rowTracks, if_true, muonTracksGen, ← List.map_take, ← List.map_drop, k, bind, Except.bind]
    have hz : ∀ l : List X3, (∀ q ∈ l, q ∈ r.2.1) → ∀ q ∈ l.map fun q => (q, ones3 q), ∃ z, q.1.2.2 = .num z := by
      intro l hl q hq
      obtain ⟨p, hp, rfl⟩ := List.mem_map.mp hq
      exact h2 p (hl p hp)
    rw [trajectory_lift h lw _ (hz _ fun q hq => List.mem_of_mem_take hq), trajectory_lift h lw _ (hz _ fun q hq => List.mem_of_mem_drop hq)]
    cases trajectory lw ((r.2.1.take n).map fun q => (q, ones3 q)) with
    | error _ => rfl
    | ok a => cases trajectory lw ((r.2.1.drop n).map fun q => (q, ones3 q)) <;> rfl

/-- the heights of all hits are numbers -/
def Numbers (H : Hits) : Prop := (∀ r ∈ H.reco, ∀ q ∈ r, ∃ z, q.2.2 = .num z) ∧ ∀ r ∈ H.gen, ∀ q ∈ r, ∃ z, q.2.2 = .num z

theorem computeTracks_lift (gen : Bool) (lw : ℝ × ℝ) (H : Hits) (hn : Numbers H) : computeTracks gen lw (hits h H) = (computeTracks gen lw H).map (List.map (trackL h)) := by
  unfold computeTracks
  rw [rows_lift]
  refine mapE_comm (rowL h) (trackL h) H.rows fun r hr => rowTracks_lift h gen lw _ r (hn.1 _ (List.of_mem_zip hr).1) (hn.2 _ (List.of_mem_zip (List.of_mem_zip hr).2).1)

theorem xyzIn_lift (zr : ℝ × ℝ) (t : Track) : xyzIn (zr.1 + h, zr.2 + h) (track h t) = (xyzIn zr t).map (place h) := by
  by_cases h0 : t.1.2.2 = 0
  · rw [xyzIn, xyzIn, if_pos h0, if_pos (show (track h t).1.2.2 = 0 from h0)]
    rfl
  · rw [xyzIn, xyzIn, if_neg h0, if_neg (show ¬ (track h t).1.2.2 = 0 from h0)]
    simp only [track, place, Option.map_some, add_sub_add_right_eq_sub]
    refine congrArg some (Prod.ext rfl (Prod.ext rfl ?_))
    simp only
    ring

theorem xyzOut_lift (zr : ℝ × ℝ) (t : Track) : xyzOut (zr.1 + h, zr.2 + h) (track h t) = (xyzOut zr t).map (place h) := by
  by_cases h0 : t.1.2.2 = 0
  · rw [xyzOut, xyzOut, if_pos h0, if_pos (show (track h t).1.2.2 = 0 from h0)]
    rfl
  · rw [xyzOut, xyzOut, if_neg h0, if_neg (show ¬ (track h t).1.2.2 = 0 from h0)]
    simp only [track, place, Option.map_some, add_sub_add_right_eq_sub]
    refine congrArg some (Prod.ext rfl (Prod.ext rfl ?_))
    simp only
    ring

theorem keepMuon_lift (lw zr : ℝ × ℝ) (t : Option Track × Option Track) (unc : List X3) : keepMuon lw (zr.1 + h, zr.2 + h) (trackL h t) unc = keepMuon lw zr t unc := by
  obtain ⟨t1, t2⟩ := t
  cases t1 with
  | none => rfl
  | some t1 =>
    cases t2 with
    | none => rfl
    | some t2 =>
      simp only [trackL, Option.map_some, keepMuon]
      rw [xyzIn_lift, xyzOut_lift]
      cases xyzIn zr t1 <;> cases xyzOut zr t2 <;> rfl

theorem rowUnc_lift (gen : Bool) (r : List X3 × List X3 × List X3 × List XF) : rowUnc gen (rowL h r) = rowUnc gen r := by
  cases gen
  · rfl
  · simp only [rowUnc, if_true, rowL, List.map_map]
    rfl

theorem keepMask_lift (gen : Bool) (lw zr : ℝ × ℝ) (s : SB) : keepMask gen lw (zr.1 + h, zr.2 + h) (scatter h s) = keepMask gen lw zr s := by
  simp only [keepMask, scatter, rows_lift, List.zipWith_map]
  congr 1
  funext t r
  rw [rowUnc_lift]
  exact keepMuon_lift h lw zr t _

theorem filterMuons_lift (b : Batch Row) (keep : List Bool) : (batch h b).filterMuons keep = (b.filterMuons keep).map (batch h) := by
  unfold Batch.filterMuons
  rw [length_lift]
  split
  · split
    · rfl
    · simp only [batch, Except.map, pick_map, filterHits_lift, List.map_append, List.map_map]
      rfl
  · rfl

theorem heights_filter {b b' : Batch Row} {keep : List Bool} (hb : Heights b) (hf : b.filterMuons keep = .ok b') : Heights b' := by
  unfold Batch.filterMuons at hf
  split at hf
  · split at hf
    · simp at hf
    · simp only [Except.ok.injEq] at hf
      subst hf
      intro kv hkv kw hkw hv t ht r hr
      simp only [Batch.filterHits, Dict.mapVals, List.mem_map] at hkv
      obtain ⟨kv0, h0, rfl⟩ := hkv
      simp only [List.mem_map] at hkw
      obtain ⟨kw0, h1, rfl⟩ := hkw
      simp only [List.mem_map] at ht
      obtain ⟨t0, h2, rfl⟩ := ht
      exact hb kv0 h0 kw0 h1 hv t0 h2 r ((pick_sublist keep t0).subset hr)
  · simp only [Except.ok.injEq] at hf
    subst hf
    exact hb

theorem mapE_mem {β γ : Type} {f : β → Except Err γ} : ∀ (xs : List β) (ys : List γ), mapE f xs = .ok ys → ∀ y ∈ ys, ∃ x ∈ xs, f x = .ok y
  | [], ys, e, y, hy => by
    simp only [mapE, Except.ok.injEq] at e
    subst e
    simp at hy
  | x :: xs, ys, e, y, hy => by
    unfold mapE at e
    cases hx : f x with
    | error _ => rw [hx] at e; simp at e
    | ok z =>
      rw [hx] at e
      cases hr : mapE f xs with
      | error _ => rw [hr] at e; simp at e
      | ok r =>
        rw [hr] at e
        simp only [Except.ok.injEq] at e
        subst e
        rcases List.mem_cons.mp hy with rfl | hy
        · exact ⟨x, by simp, hx⟩
        · obtain ⟨x', h1, h2⟩ := mapE_mem xs r hr y hy
          exact ⟨x', by simp [h1], h2⟩

theorem mapValsM_mem {κ v w : Type} {F : v → Except Err w} : ∀ (d : Dict κ v) (r : Dict κ w), Batch.mapValsM d F = .ok r → ∀ kw ∈ r, ∃ x, (kw.1, x) ∈ d ∧ F x = .ok kw.2
  | [], r, e, kw, hk => by
    simp only [Batch.mapValsM, Except.ok.injEq] at e
    subst e
    simp at hk
  | (k, x) :: d, r, e, kw, hk => by
    simp only [Batch.mapValsM, bind, Except.bind] at e
    cases hx : F x with
    | error _ => rw [hx] at e; simp at e
    | ok y =>
      cases hr : Batch.mapValsM d F with
      | error _ => rw [hx, hr] at e; simp at e
      | ok r' =>
        rw [hx, hr] at e
        simp only [Except.ok.injEq] at e
        subst e
        rcases List.mem_cons.mp hk with rfl | hk
        · exact ⟨x, by simp, hx⟩
        · obtain ⟨x', h1, h2⟩ := mapValsM_mem d r' hr kw hk
          exact ⟨x', by simp [h1], h2⟩

theorem stack1_mem {ts s : List (List Row)} (e : Batch.stack1 ts = .ok s) : ∀ l ∈ s, ∀ r ∈ l, ∃ t ∈ ts, r ∈ t := by
  intro l hl r hr
  cases ts with
  | nil => simp [Batch.stack1] at e
  | cons t ts =>
    unfold Batch.stack1 at e
    split at e
    · simp at *
    · rename_i t' ts' heq
      split at e
      · simp only [Except.ok.injEq] at e
        subst e
        obtain ⟨i, _, rfl⟩ := List.mem_map.mp hl
        obtain ⟨u, hu, hi⟩ := List.mem_filterMap.mp hr
        rw [heq]
        exact ⟨u, hu, List.mem_of_getElem? hi⟩
      · simp at e

theorem get?_mem {v : Type} (k : String) (x : v) : ∀ d : Dict String v, Dict.get? d k = some x → (k, x) ∈ d
  | [], e => by simp [Dict.get?] at e
  | (k', y) :: d, e => by
    simp only [Dict.get?] at e
    by_cases hk : k' = k
    · simp only [hk, if_true, Option.some.injEq] at e
      subst hk e
      simp
    · simp only [hk, if_false] at e
      simp [get?_mem k x d e]

/-- rows of one side, of a variable -/
theorem hitVar_num {b : Batch Row} (hb : Heights b) {d : Dict String (Dict String (List (List Row)))} (hd : b.getHits none none = .ok d) {pos var : String} (hv : var = "reco_xyz" ∨ var = "gen_xyz")
    {t : List (List Row)} (ht : hitVar d pos var = .ok t) : ∀ l ∈ t, ∀ r ∈ l, ∃ x y z, r = [x, y, .num z] := by
  unfold hitVar at ht
  cases h1 : Dict.get? d pos with
  | none => rw [h1] at ht; simp at ht
  | some vs =>
    rw [h1] at ht
    simp only at ht
    cases h2 : Dict.get? vs var with
    | none => rw [h2] at ht; simp at ht
    | some t' =>
      rw [h2] at ht
      simp only [Except.ok.injEq] at ht
      subst ht
      unfold Batch.getHits at hd
      simp only [Option.isNone_none, Bool.and_self, if_true] at hd
      split at hd
      · simp at hd
      · obtain ⟨vs0, m1, e1⟩ := mapValsM_mem _ _ hd _ (get?_mem _ _ _ h1)
        obtain ⟨ts0, m2, e2⟩ := mapValsM_mem _ _ e1 _ (get?_mem _ _ _ h2)
        intro l hl r hr
        obtain ⟨t0, m3, m4⟩ := stack1_mem e2 l hl r hr
        exact hb _ m1 _ m2 hv t0 m3 r m4

theorem bothSides_num {b : Batch Row} (hb : Heights b) {d : Dict String (Dict String (List (List Row)))} (hd : b.getHits none none = .ok d) {var : String} (hv : var = "reco_xyz" ∨ var = "gen_xyz")
    {t : List (List Row)} (ht : bothSides d var = .ok t) : ∀ l ∈ t, ∀ r ∈ l, ∃ x y z, r = [x, y, .num z] := by
  unfold bothSides at ht
  obtain ⟨a, ha, ht⟩ := bind_ok ht
  obtain ⟨c, hc, ht⟩ := bind_ok ht
  unfold catDim1 at ht
  split at ht
  · simp only [Except.ok.injEq] at ht
    subst ht
    intro l hl r hr
    rw [← List.map_uncurry_zip_eq_zipWith] at hl
    obtain ⟨⟨p, q⟩, hpq, rfl⟩ := List.mem_map.mp hl
    rcases List.mem_append.mp hr with hr | hr
    · exact hitVar_num hb hd hv ha p (List.of_mem_zip hpq).1 r hr
    · exact hitVar_num hb hd hv hc q (List.of_mem_zip hpq).2 r hr
  · simp at ht

theorem extract_num {b : Batch Row} (hb : Heights b) {d : Dict String (Dict String (List (List Row)))} (hd : b.getHits none none = .ok d) {H : Hits} (hH : extract d = .ok H) : Numbers H := by
  unfold extract at hH
  obtain ⟨_, _, hH⟩ := bind_ok hH
  obtain ⟨_, _, hH⟩ := bind_ok hH
  obtain ⟨r, hr, hH⟩ := bind_ok hH
  obtain ⟨g, hg, hH⟩ := bind_ok hH
  obtain ⟨_, _, hH⟩ := bind_ok hH
  obtain ⟨_, _, hH⟩ := bind_ok hH
  obtain ⟨r', hr', hH⟩ := bind_ok hH
  obtain ⟨g', hg', hH⟩ := bind_ok hH
  obtain ⟨_, _, hH⟩ := bind_ok hH
  obtain ⟨_, _, hH⟩ := bind_ok hH
  simp only [Except.ok.injEq] at hH
  subst hH
  have key : ∀ (t : List (List Row)) (s : List (List X3)), (∀ l ∈ t, ∀ r ∈ l, ∃ x y z, r = [x, y, .num z]) → mapE (mapE parse3) t = .ok s → ∀ l ∈ s, ∀ q ∈ l, ∃ z, q.2.2 = .num z := by
    intro t s ht hs l hl q hq
    obtain ⟨l0, m1, e1⟩ := mapE_mem _ _ hs l hl
    obtain ⟨q0, m2, e2⟩ := mapE_mem _ _ e1 q hq
    obtain ⟨x, y, z, rfl⟩ := ht l0 m1 q0 m2
    simp only [parse3, Except.ok.injEq] at e2
    subst e2
    exact ⟨z, rfl⟩
  exact ⟨key r r' (bothSides_num hb hd (.inl rfl) hr) hr', key g g' (bothSides_num hb hd (.inr rfl) hg) hg'⟩

theorem filterScatters_lift (gen : Bool) (lw zr : ℝ × ℝ) (s : SB) (hs : Heights s.mu) : filterScatters gen lw (zr.1 + h, zr.2 + h) (scatter h s) = (filterScatters gen lw zr s).map (scatter h) := by
  unfold filterScatters
  simp only [keepMask_lift]
  have e0 : (scatter h s).mu = batch h s.mu := rfl
  have e1 : (batch h s.mu).removed.isEmpty = s.mu.removed.isEmpty := by simp [batch]
  split
  · rfl
  · rw [e0, e1]
    split
    · rfl
    · simp only [bind, Except.bind, filterMuons_lift]
      cases hm : s.mu.filterMuons (keepMask gen lw zr s) with
      | error _ => rfl
      | ok mu =>
        simp only [Except.map, recorded_lift]
        cases hd : mu.getHits none none with
        | error _ => rfl
        | ok d =>
          simp only [Except.map, extract_lift]
          cases hH : extract d with
          | error _ => rfl
          | ok H =>
            simp only [Except.map, computeTracks_lift h gen lw H (extract_num (heights_filter hs hm) hd hH)]
            cases computeTracks gen lw H <;> rfl

theorem trackCoefs_lift (a b : Track) : trackCoefs (track h a) (track h b) = trackCoefs a b := by
  unfold trackCoefs
  simp only [track, place, add_sub_add_right_eq_sub]

theorem coefsOf_lift (t : Option Track × Option Track) : coefsOf (trackL h t) = (coefsOf t).map (coefs h) := by
  obtain ⟨t1, t2⟩ := t
  cases t1 with
  | none => rfl
  | some t1 =>
    cases t2 with
    | none => rfl
    | some t2 =>
      simp only [trackL, Option.map_some, coefsOf, trackCoefs_lift]
      cases trackCoefs t1 t2 <;> rfl

theorem passives_lift (V : Volume) : (volume h V).passives = V.passives.map (passive h) := by
  simp only [Volume.passives, volume, List.filterMap_map, List.map_filterMap]
  congr 1
  funext l
  cases l <;> rfl

theorem lw_lift (V : Volume) : (volume h V).lw = V.lw := by
  unfold Volume.lw
  rw [passives_lift, List.getLast?_map]
  cases V.passives.getLast? <;> rfl

theorem size_lift (V : Volume) : (volume h V).passiveSize = V.passiveSize := by
  unfold Volume.passiveSize
  rw [passives_lift, List.getLast?_map]
  cases V.passives.getLast? <;> rfl

theorem zRange_lift (V : Volume) : (volume h V).zRange = V.zRange.map fun zr => (zr.1 + h, zr.2 + h) := by
  unfold Volume.zRange
  rw [passives_lift, List.getLast?_map, List.head?_map]
  cases V.passives.head? with
  | none => rfl
  | some T =>
    cases V.passives.getLast? with
    | none => rfl
    | some B =>
      simp only [Option.map_some, Except.map, passive]
      refine congrArg Except.ok (Prod.ext ?_ rfl)
      simp only
      ring

theorem build_lift (gen : Bool) (V : Volume) (b : Batch Row) (hb : Heights b) : build gen (volume h V) (batch h b) = (build gen V b).map fun r => (scatter h r.1, r.2.map (coefs h)) := by
  unfold build
  simp only [bind, Except.bind, recorded_lift]
  cases hd : b.getHits none none with
  | error _ => rfl
  | ok d =>
    simp only [Except.map, extract_lift, lw_lift, zRange_lift]
    cases hH : extract d with
    | error _ => rfl
    | ok H =>
      simp only [Except.map]
      cases V.lw with
      | error _ => rfl
      | ok lw =>
        simp only
        cases V.zRange with
        | error _ => rfl
        | ok zr =>
          simp only [computeTracks_lift h gen lw H (extract_num hb hd hH)]
          cases computeTracks gen lw H with
          | error _ => rfl
          | ok ts =>
            simp only [Except.map]
            have e := filterScatters_lift h gen lw zr ⟨b, H, ts⟩ hb
            have e' : (⟨batch h b, hits h H, ts.map (trackL h)⟩ : SB) = scatter h ⟨b, H, ts⟩ := rfl
            rw [e', e]
            cases filterScatters gen lw zr ⟨b, H, ts⟩ with
            | error _ => rfl
            | ok s =>
              simp only [Except.map]
              have e2 : mapE coefsOf (scatter h s).tracks = (mapE coefsOf s.tracks).map (List.map (coefs h)) := mapE_comm (trackL h) (coefs h) s.tracks fun t _ => coefsOf_lift h t
              rw [e2]
              cases mapE coefsOf s.tracks <;> rfl

/-! ### Recorded heights -/

theorem heights_hits {b b' : Batch Row} (hb : Heights b) (e : b'.hits = b.hits) : Heights b' := by
  unfold Heights at *
  rw [e]
  exact hb

theorem heights_keep {b b' : Batch Row} {keep : List Bool} (hb : Heights b) (e : b'.hits = Batch.filterHits b.hits keep) : Heights b' := by
  intro kv hkv kw hkw hv t ht r hr
  rw [e] at hkv
  simp only [Batch.filterHits, Dict.mapVals, List.mem_map] at hkv
  obtain ⟨kv0, h0, rfl⟩ := hkv
  simp only [List.mem_map] at hkw
  obtain ⟨kw0, h1, rfl⟩ := hkw
  simp only [List.mem_map] at ht
  obtain ⟨t0, h2, rfl⟩ := ht
  exact hb kv0 h0 kw0 h1 hv t0 h2 r ((pick_sublist keep t0).subset hr)

theorem propagateD_hits {b b' : Batch Row} {d : Arg} {m : Option (List Bool)} (e : b.propagateD d m = .ok b') : b'.hits = b.hits := by
  unfold Batch.propagateD at e
  obtain ⟨_, _, e⟩ := bind_ok e
  obtain ⟨_, _, e⟩ := bind_ok e
  simp only [Except.ok.injEq] at e
  rw [← e]

theorem propagateDz_hits {b b' : Batch Row} {d : Arg} {m : Option (List Bool)} (e : b.propagateDz d m = .ok b') : b'.hits = b.hits := by
  unfold Batch.propagateDz at e
  obtain ⟨_, _, e⟩ := bind_ok e
  obtain ⟨_, _, e⟩ := bind_ok e
  simp only [Except.ok.injEq] at e
  rw [← e]

theorem scatterDxyz_hits {b b' : Batch Row} {dx dy dz : Option Arg} {m : Option (List Bool)} (e : b.scatterDxyz dx dy dz m = .ok b') : b'.hits = b.hits := by
  unfold Batch.scatterDxyz at e
  obtain ⟨_, _, e⟩ := bind_ok e
  obtain ⟨_, _, e⟩ := bind_ok e
  obtain ⟨_, _, e⟩ := bind_ok e
  obtain ⟨_, _, e⟩ := bind_ok e
  simp only [Except.ok.injEq] at e
  rw [← e]

theorem heights_pass {L : PassiveLayer} {draw : Nat → Draw} {b b' : Batch Row} {mask : List Bool} (hb : Heights b) (e : L.pass draw b mask = .ok b') : Heights b' := by
  unfold PassiveLayer.pass at e
  split at e
  · exact heights_hits hb (propagateD_hits e)
  · obtain ⟨_, _, e⟩ := bind_ok e
    obtain ⟨_, _, e⟩ := bind_ok e
    obtain ⟨b1, e1, e⟩ := bind_ok e
    obtain ⟨b2, e2, e⟩ := bind_ok e
    obtain ⟨b3, e3, e⟩ := bind_ok e
    simp only [Except.ok.injEq] at e
    have h3 : Heights b3 := heights_hits (heights_hits (heights_hits hb (scatterDxyz_hits e1)) (propagateD_hits e2)) (propagateDz_hits e3)
    subst e
    unfold PassiveLayer.scatterAngles Batch.removeUpwards
    simp only
    split
    · exact heights_keep h3 rfl
    · exact heights_hits h3 rfl

theorem heights_loop (L : PassiveLayer) (rng : Nat → Nat → Draw) : ∀ (fuel k : Nat) (b b' : Batch Row) (mask : List Bool), Heights b → L.loop rng fuel k b mask = .ok (some b') → Heights b'
  | 0, k, b, b', mask, hb, e => by
    unfold PassiveLayer.loop at e
    split at e
    · simp at e
    · simp only [Except.ok.injEq, Option.some.injEq] at e
      exact e ▸ hb
  | fuel + 1, k, b, b', mask, hb, e => by
    unfold PassiveLayer.loop at e
    split at e
    · obtain ⟨b1, e1, e⟩ := bind_ok e
      exact heights_loop L rng fuel (k + 1) b1 b' _ (heights_pass hb e1) e
    · simp only [Except.ok.injEq, Option.some.injEq] at e
      exact e ▸ hb

theorem heights_passive {L : PassiveLayer} {rng : Nat → Nat → Draw} {fuel : Nat} {b b' : Batch Row} (hb : Heights b) (e : L.forward rng fuel b = .ok (some b')) : Heights b' := by
  unfold PassiveLayer.forward at e
  obtain ⟨b1, e1, e⟩ := bind_ok e
  obtain ⟨r, e2, e⟩ := bind_ok e
  cases r with
  | none => simp at e
  | some b2 =>
    simp only at e
    obtain ⟨b3, e3, e⟩ := bind_ok e
    simp only [Except.ok.injEq, Option.some.injEq] at e
    exact e ▸ heights_hits (heights_loop L rng fuel 0 b1 b2 _ (heights_hits hb (propagateDz_hits e1)) e2) (propagateDz_hits e3)

theorem mem_modify' {v : Type} (P : String → v → Prop) (k : String) (dflt : v) (f : v → v) (h0 : P k (f dflt)) (hf : ∀ x, P k x → P k (f x)) : ∀ d : Dict String v, (∀ kv ∈ d, P kv.1 kv.2) → ∀ kv ∈ Dict.modify d k dflt f, P kv.1 kv.2
  | [], _, kv, hk => by
    simp only [Dict.modify, List.mem_singleton] at hk
    subst hk
    exact h0
  | (k', x) :: d, hd, kv, hk => by
    simp only [Dict.modify] at hk
    split at hk
    · rename_i e
      subst e
      rcases List.mem_cons.mp hk with rfl | hk
      · exact hf x (hd (k', x) (by simp))
      · exact hd kv (by simp [hk])
    · rcases List.mem_cons.mp hk with rfl | hk
      · exact hd (k', x) (by simp)
      · exact mem_modify' P k dflt f h0 hf d (fun kv hk => hd kv (by simp [hk])) kv hk

theorem heights_append {b : Batch Row} (hb : Heights b) (d : Dict String (List Row)) (pos : String) (hd : ∀ kv ∈ d, kv.1 = "reco_xyz" ∨ kv.1 = "gen_xyz" → ∀ r ∈ kv.2, ∃ x y z, r = [x, y, .num z]) :
    Heights (b.appendHits d pos) := by
  unfold Heights Batch.appendHits at *
  simp only
  generalize b.hits = H at hb
  induction d generalizing H with
  | nil => exact hb
  | cons kv d ih =>
    simp only [List.foldl_cons]
    refine ih (fun kv hk => hd kv (by simp [hk])) _ ?_
    have key : ∀ vs : Dict String (List (List Row)), (∀ kw ∈ vs, kw.1 = "reco_xyz" ∨ kw.1 = "gen_xyz" → ∀ t ∈ kw.2, ∀ r ∈ t, ∃ x y z, r = [x, y, .num z]) →
        ∀ kw ∈ Dict.modify vs kv.1 [] (fun tensors => tensors ++ [kv.2]), kw.1 = "reco_xyz" ∨ kw.1 = "gen_xyz" → ∀ t ∈ kw.2, ∀ r ∈ t, ∃ x y z, r = [x, y, .num z] := by
      intro vs hvs
      refine mem_modify' (fun k ts => k = "reco_xyz" ∨ k = "gen_xyz" → ∀ t ∈ ts, ∀ r ∈ t, ∃ x y z, r = [x, y, XF.num z]) kv.1 [] _ ?_ ?_ vs hvs
      · intro hv t ht
        simp only [List.nil_append, List.mem_singleton] at ht
        subst ht
        exact hd kv (by simp) hv
      · intro ts hts hv t ht
        rcases List.mem_append.mp ht with ht | ht
        · exact hts hv t ht
        · simp only [List.mem_singleton] at ht
          subst ht
          exact hd kv (by simp) hv
    exact mem_modify' (fun _ vs => ∀ kw ∈ vs, kw.1 = "reco_xyz" ∨ kw.1 = "gen_xyz" → ∀ t ∈ kw.2, ∀ r ∈ t, ∃ x y z, r = [x, y, XF.num z]) pos []
      (fun vs : Dict String (List (List Row)) => Dict.modify vs kv.1 [] fun tensors => tensors ++ [kv.2]) (key [] (by simp)) key H hb

theorem getHits_num (p : AnyPanel) (noise : Nat → ℝ × ℝ) (b : Batch Row) (d : Dict String (List Row)) (e : p.getHits noise b = .ok d) :
    ∀ kv ∈ d, kv.1 = "reco_xyz" ∨ kv.1 = "gen_xyz" → ∀ r ∈ kv.2, ∃ x y z, r = [x, y, .num z] := by
  have four : ∀ (f g u e : Muon → Row), (∀ m, ∃ x y z, f m = [x, y, .num z]) → (∀ m, ∃ x y z, g m = [x, y, .num z]) →
      ∀ kv ∈ [("reco_xyz", b.muons.map f), ("gen_xyz", b.muons.map g), ("unc_xyz", b.muons.map u), ("eff", b.muons.map e)], kv.1 = "reco_xyz" ∨ kv.1 = "gen_xyz" → ∀ r ∈ kv.2, ∃ x y z, r = [x, y, .num z] := by
    intro f g u e hf hg kv hkv hv r hr
    simp only [List.mem_cons, List.not_mem_nil, or_false] at hkv
    rcases hkv with rfl | rfl | rfl | rfl <;> simp only [List.mem_map] at hr <;> obtain ⟨m, _, rfl⟩ := hr
    · exact hf m
    · exact hg m
    · simp at hv
    · simp at hv
  cases p with
  | panel p =>
    rcases p.getHits_cases noise b with ⟨_, h'⟩ | ⟨_, h'⟩
    · rw [show (AnyPanel.panel p).getHits noise b = p.getHits noise b from rfl, h'] at e
      simp only [Except.ok.injEq] at e
      rw [← e]
      exact four _ _ _ _ (fun _ => ⟨_, _, _, rfl⟩) (fun _ => ⟨_, _, _, rfl⟩)
    · rw [show (AnyPanel.panel p).getHits noise b = p.getHits noise b from rfl, h'] at e
      simp at e
  | heatmap q =>
    have e : q.getHits noise b = d := by simpa [AnyPanel.getHits] using e
    rw [← e]
    exact four _ _ _ _ (fun _ => ⟨_, _, _, rfl⟩) (fun _ => ⟨_, _, _, rfl⟩)

theorem heights_visit (pos : String) (noise : Nat → Nat → ℝ × ℝ) : ∀ (ps : List (Nat × AnyPanel)) (b b' : Batch Row), Heights b → DetLayer.visit pos noise ps b = .ok b' → Heights b'
  | [], b, b', hb, e => by
    simp only [DetLayer.visit, Except.ok.injEq] at e
    exact e ▸ hb
  | (i, p) :: ps, b, b', hb, e => by
    unfold DetLayer.visit at e
    cases h1 : b.propagateDz (.vec (b.muons.map fun m => m.z - p.z)) none with
    | error _ => rw [h1] at e; simp at e
    | ok b1 =>
      rw [h1] at e
      simp only at e
      cases h2 : p.getHits (noise i) b1 with
      | error _ => rw [h2] at e; simp at e
      | ok d =>
        rw [h2] at e
        simp only at e
        exact heights_visit pos noise ps _ b' (heights_append (heights_hits hb (propagateDz_hits h1)) d pos (getHits_num p _ _ d h2)) e

theorem heights_run (argsort : List ℝ → List Nat) (rng : Nat → Nat → Nat → Draw) (noise : Nat → Nat → Nat → ℝ × ℝ) (fuel : Nat) :
    ∀ (ls : List AnyLayer) (i : Nat) (b b' : Batch Row), Heights b → Volume.runLayers argsort rng noise fuel i ls b = .ok (some b') → Heights b'
  | [], i, b, b', hb, e => by
    simp only [Volume.runLayers, Except.ok.injEq, Option.some.injEq] at e
    exact e ▸ hb
  | l :: ls, i, b, b', hb, e => by
    unfold Volume.runLayers at e
    cases hl : Volume.layerForward argsort (rng i) (noise i) fuel b l with
    | error _ => rw [hl] at e; simp at e
    | ok r =>
      rw [hl] at e
      cases r with
      | none => simp at e
      | some b1 =>
        simp only at e
        refine heights_run argsort rng noise fuel ls (i + 1) b1.snapshot b' (heights_hits (b := b1) ?_ rfl) e
        cases l with
        | passive L => exact heights_passive hb hl
        | detector D =>
          simp only [Volume.layerForward] at hl
          cases hd : D.forward argsort (noise i) b with
          | error _ => rw [hd] at hl; simp at hl
          | ok b2 =>
            rw [hd] at hl
            simp only [Except.ok.injEq, Option.some.injEq] at hl
            subst hl
            unfold DetLayer.forward at hd
            cases hv : DetLayer.visit D.pos (noise i) (D.zpanels argsort) b with
            | error _ => rw [hv] at hd; simp at hd
            | ok b3 =>
              rw [hv] at hd
              simp only at hd
              exact heights_hits (heights_visit _ _ _ b b3 hb hv) (propagateDz_hits hd)

/-! ### What is reconstructed -/

theorem poca_lift (k : Track × Track × (ℝ × ℝ × ℝ)) : poca (coefs h k).1 (coefs h k).2.1 (coefs h k).2.2 = place h (poca k.1 k.2.1 k.2.2) := by
  simp only [poca, coefs, track, place]
  refine Prod.ext rfl (Prod.ext rfl ?_)
  simp only
  ring

end Lift

end

end Tomopt
