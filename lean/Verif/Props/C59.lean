import Verif.Model.Generation
import Verif.Lemmas.Masks
import Mathlib.Analysis.SpecialFunctions.Trigonometric.Basic
import Mathlib.Tactic.Linarith
import Mathlib.Tactic.Ring

/- C59: resampling muons that miss the passive volume. -/
namespace Tomopt

noncomputable section
open Real

namespace C59

open Gen
open scoped Classical

/-- horizontal position, at height `z`, of a muon that starts at height `h` and is not scattered (generated muons are not horizontal, `C58.ranges`) -/
def xAt (h : ℝ) (r : Gen.Row) (z : ℝ) : ℝ := r.1 + (h - z) * (sin r.2.2.2.1 / cos r.2.2.2.1) * cos r.2.2.2.2
def yAt (h : ℝ) (r : Gen.Row) (z : ℝ) : ℝ := r.2.1 + (h - z) * (sin r.2.2.2.1 / cos r.2.2.2.1) * sin r.2.2.2.2

/-- over the footprint at height `z` -/
def Over (h : ℝ) (lw : ℝ × ℝ) (r : Gen.Row) (z : ℝ) : Prop := 0 ≤ xAt h r z ∧ xAt h r z < lw.1 ∧ 0 ≤ yAt h r z ∧ yAt h r z < lw.2

/-- over the footprint at the top of one of the layers -/
def HitsTop (h : ℝ) (lw : ℝ × ℝ) (Ls : List PassiveLayer) (r : Gen.Row) : Prop := ∃ L ∈ Ls, Over h lw r L.z

/-- crosses the passive volume: over the footprint somewhere between top and bottom of one of the layers -/
def Crosses (h : ℝ) (lw : ℝ × ℝ) (Ls : List PassiveLayer) (r : Gen.Row) : Prop := ∃ L ∈ Ls, ∃ z, L.z - L.size ≤ z ∧ z ≤ L.z ∧ Over h lw r z

/-- `HitsTop` as a truth value -/
def hitsB (h : ℝ) (lw : ℝ × ℝ) (Ls : List PassiveLayer) (r : Gen.Row) : Bool := decide (HitsTop h lw Ls r)

/-- the muon of a row at height `z` -/
def atZ (h : ℝ) (z : ℝ) (r : Gen.Row × Nat) : Muon := ⟨r.2, xAt h r.1 z, yAt h r.1 z, z, r.1.2.2.1, r.1.2.2.2.1, r.1.2.2.2.2⟩

theorem prop_at (h z z' : ℝ) (r : Gen.Row × Nat) : Batch.propDzRow (atZ h z r) (z - z') = atZ h z' r := by
  unfold Batch.propDzRow atZ xAt yAt
  simp only
  congr 1
  · ring
  · ring
  · ring

theorem inWindow_iff (h : ℝ) (lw : ℝ × ℝ) (z : ℝ) (r : Gen.Row × Nat) : Batch.inWindow (some (0, 0)) (some lw) (atZ h z r) = true ↔ Over h lw r.1 z := by
  unfold Batch.inWindow Over atZ
  simp [and_assoc]

theorem loop_spec (h : ℝ) (lw : ℝ × ℝ) (Ls : List PassiveLayer) (rs : List (Gen.Row × Nat)) (z : ℝ) (b : Batch Unit) (hb : b.muons = rs.map (atZ h z)) (ok : List Bool)
    (hok : ok.length = rs.length) : checkLoop lw Ls b ok = .ok (List.zipWith (fun o r => o || hitsB h lw Ls r.1) ok rs) := by
  induction Ls generalizing z b ok with
  | nil =>
    rw [checkLoop]
    congr 1
    have : ∀ (ok : List Bool) (rs : List (Gen.Row × Nat)), ok.length = rs.length → List.zipWith (fun o r => o || hitsB h lw [] r.1) ok rs = ok := by
      intro ok
      induction ok with
      | nil => intro rs _; simp
      | cons o ok ih =>
        intro rs hl
        cases rs with
        | nil => simp at hl
        | cons r rs =>
          rw [List.zipWith_cons_cons, ih rs (by simpa using hl)]
          simp [hitsB, HitsTop]
    rw [this ok rs hok]
  | cons L Ls ih =>
    rw [checkLoop]
    have hprop : b.propagateDz (.vec (b.muons.map fun m => m.z - L.z)) none = .ok { b with muons := rs.map (atZ h L.z) } := by
      unfold Batch.propagateDz
      simp only [resolveMask, Arg.expand, bind, Except.bind, List.length_map, countTrue_replicate, if_true]
      congr 2
      rw [maskedUpd_all_zip _ _ _ (by simp), hb, List.zipWith_map_left, List.map_map]
      rw [List.zipWith_map_right]
      rw [List.zipWith_self]
      apply List.map_congr_left
      intro r _
      simp only [Function.comp_apply]
      have : (atZ h z r).z = z := rfl
      rw [this]
      exact prop_at h z L.z r
    rw [hprop]
    simp only
    rw [ih L.z _ rfl _ (by simp [Batch.xyMask, hok])]
    congr 1
    clear hprop hb ih
    have : ∀ (ok : List Bool) (rs : List (Gen.Row × Nat)),
        List.zipWith (fun o (r : Gen.Row × Nat) => o || hitsB h lw Ls r.1) (List.zipWith (· || ·) ok ((rs.map (atZ h L.z)).map (Batch.inWindow (some (0, 0)) (some lw)))) rs =
        List.zipWith (fun o r => o || hitsB h lw (L :: Ls) r.1) ok rs := by
      intro ok
      induction ok with
      | nil => intro rs; simp
      | cons o ok ih =>
        intro rs
        cases rs with
        | nil => simp
        | cons r rs =>
          simp only [List.map_cons, List.zipWith_cons_cons]
          rw [ih rs]
          congr 1
          have e : hitsB h lw (L :: Ls) r.1 = (Batch.inWindow (some (0, 0)) (some lw) (atZ h L.z r) || hitsB h lw Ls r.1) := by
            rw [Bool.eq_iff_iff, Bool.or_eq_true, inWindow_iff]
            unfold hitsB
            rw [decide_eq_true_iff, decide_eq_true_iff]
            unfold HitsTop
            simp
          rw [e, Bool.or_assoc]
    exact this ok rs

/-- the check finds exactly the muons that are over the footprint at the top of some layer -/
theorem check_spec (h : ℝ) (lw : ℝ × ℝ) (Ls : List PassiveLayer) (rows : List Gen.Row) : check h lw Ls rows = .ok (rows.map (hitsB h lw Ls)) := by
  unfold check
  rw [loop_spec h lw Ls rows.zipIdx h _ ?_ _ (by simp)]
  · congr 1
    have : ∀ (k : Nat) (rows : List Gen.Row), List.zipWith (fun o (r : Gen.Row × Nat) => o || hitsB h lw Ls r.1) (List.replicate rows.length false) (rows.zipIdx k) =
        rows.map (hitsB h lw Ls) := by
      intro k rows
      induction rows generalizing k with
      | nil => rfl
      | cons r rows ih =>
        rw [List.length_cons, List.replicate_succ, List.zipIdx_cons, List.zipWith_cons_cons, ih, List.map_cons]
        simp
    exact this 0 rows
  · unfold Batch.copy Batch.init
    simp only
    apply List.map_congr_left
    intro r _
    unfold atZ xAt yAt
    simp

/-- one round, row by row -/
theorem round_spec (P : Gen.Row → Bool) (ok : List Bool) (mus g : List Gen.Row) (hl : ok.length = mus.length) (hg : g.length = countTrue (inv ((pick (inv ok) mus).map P))) :
    put (inv ok) ok (List.zipWith (· || ·) (pick (inv ok) ok) ((pick (inv ok) mus).map P)) = List.zipWith (fun o m => o || P m) ok mus ∧
      ∀ (i : Nat) m, mus[i]? = some m →
        ((ok[i]? = some true ∨ P m = true) → (put (inv ok) mus (put (inv ((pick (inv ok) mus).map P)) (pick (inv ok) mus) g))[i]? = some m) ∧
        ((ok[i]? = some false ∧ P m = false) → ∃ q ∈ g, (put (inv ok) mus (put (inv ((pick (inv ok) mus).map P)) (pick (inv ok) mus) g))[i]? = some q) := by
  induction ok generalizing mus g with
  | nil =>
    cases mus with
    | nil => simp [inv, put]
    | cons m mus => simp at hl
  | cons o ok ih =>
    cases mus with
    | nil => simp at hl
    | cons m mus =>
      have hl' : ok.length = mus.length := by simpa using hl
      cases o with
      | true =>
        obtain ⟨a, b⟩ := ih mus g hl' (by simpa [inv] using hg)
        constructor
        · simp only [inv, List.map_cons, Bool.not_true, pick_false, put, List.zipWith_cons_cons, Bool.true_or]
          congr 1
        · intro i x hx
          cases i with
          | zero =>
            simp only [List.getElem?_cons_zero, Option.some.injEq] at hx
            subst hx
            simp [inv, put]
          | succ i =>
            simp only [List.getElem?_cons_succ] at hx
            have := b i x hx
            simpa [inv, put] using this
      | false =>
        cases hP : P m with
        | true =>
          obtain ⟨a, b⟩ := ih mus g hl' (by simpa [inv, hP] using hg)
          constructor
          · simp only [inv, List.map_cons, Bool.not_false, pick_true, put, List.zipWith_cons_cons, Bool.false_or, hP]
            congr 1
          · intro i x hx
            cases i with
            | zero =>
              simp only [List.getElem?_cons_zero, Option.some.injEq] at hx
              subst hx
              simp [inv, put, hP]
            | succ i =>
              simp only [List.getElem?_cons_succ] at hx
              have := b i x hx
              simpa [inv, put, hP] using this
        | false =>
          cases g with
          | nil => simp [inv, hP] at hg
          | cons q g =>
            obtain ⟨a, b⟩ := ih mus g hl' (by simpa [inv, hP] using hg)
            constructor
            · simp only [inv, List.map_cons, Bool.not_false, pick_true, put, List.zipWith_cons_cons, Bool.false_or, hP]
              congr 1
            · intro i x hx
              cases i with
              | zero =>
                simp only [List.getElem?_cons_zero, Option.some.injEq] at hx
                subst hx
                simp [inv, put, hP]
              | succ i =>
                simp only [List.getElem?_cons_succ] at hx
                obtain ⟨b1, b2⟩ := b i x hx
                constructor
                · intro hc
                  have := b1 (by simpa using hc)
                  simpa [inv, put, hP] using this
                · intro hc
                  obtain ⟨q', hq', e⟩ := b2 (by simpa using hc)
                  exact ⟨q', List.mem_cons_of_mem _ hq', by simpa [inv, put, hP] using e⟩

theorem loop_result (h : ℝ) (lw : ℝ × ℝ) (Ls : List PassiveLayer) (gen : Nat → Nat → List Gen.Row) (hgen : ∀ i k, (gen i k).length = k) (fuel : Nat) (i : Nat) (mus : List Gen.Row) (ok : List Bool)
    (hl : ok.length = mus.length) (hinv : ∀ (j : Nat) m, ok[j]? = some true → mus[j]? = some m → HitsTop h lw Ls m) (r : Except Err (Option (List Gen.Row)))
    (hr : resampleLoop h lw Ls gen fuel i mus ok = r) :
    r = .ok none ∨ ∃ out, r = .ok (some out) ∧ out.length = mus.length ∧ (∀ m ∈ out, HitsTop h lw Ls m) ∧
      (∀ (j : Nat) m, mus[j]? = some m → HitsTop h lw Ls m → out[j]? = some m) ∧ (∀ m ∈ out, m ∈ mus ∨ ∃ i k, m ∈ gen i k) := by
  induction fuel generalizing i mus ok with
  | zero =>
    rw [resampleLoop] at hr
    split at hr
    · exact .inl hr.symm
    · rename_i hc
      refine .inr ⟨mus, hr.symm, rfl, ?_, fun _ _ a _ => a, fun m hm => .inl hm⟩
      have hall := all_true_of_count ok (by rw [hl]; exact hc)
      intro m hm
      obtain ⟨j, hj⟩ := List.getElem?_of_mem hm
      have hjl : j < mus.length := (List.getElem?_eq_some_iff.mp hj).1
      exact hinv j m (by rw [hall, List.getElem?_replicate, if_pos (by omega)]) hj
  | succ fuel ih =>
    rw [resampleLoop] at hr
    split at hr
    · simp only [check_spec] at hr
      have hg := hgen i (countTrue (inv ((pick (inv ok) mus).map (hitsB h lw Ls))))
      obtain ⟨s1, s2⟩ := round_spec (hitsB h lw Ls) ok mus _ hl hg
      rw [s1] at hr
      generalize hmus : put (inv ok) mus (put (inv ((pick (inv ok) mus).map (hitsB h lw Ls))) (pick (inv ok) mus)
          (gen i (countTrue (inv ((pick (inv ok) mus).map (hitsB h lw Ls)))))) = mus' at hr s2
      have hlen : mus'.length = mus.length := by rw [← hmus]; simp
      have hok : ∀ (j : Nat) m, mus[j]? = some m → ∃ o, ok[j]? = some o ∧ (List.zipWith (fun o m => o || hitsB h lw Ls m) ok mus)[j]? = some (o || hitsB h lw Ls m) := by
        intro j m hm
        have hjl : j < mus.length := (List.getElem?_eq_some_iff.mp hm).1
        have hjo : j < ok.length := by omega
        refine ⟨ok[j], List.getElem?_eq_getElem hjo, ?_⟩
        rw [List.getElem?_zipWith, List.getElem?_eq_getElem hjo, hm]
      have hinv' : ∀ (j : Nat) m, (List.zipWith (fun o m => o || hitsB h lw Ls m) ok mus)[j]? = some true → mus'[j]? = some m → HitsTop h lw Ls m := by
        intro j m h1 h2
        have hjl : j < mus'.length := (List.getElem?_eq_some_iff.mp h2).1
        have hm := List.getElem?_eq_getElem (show j < mus.length by omega)
        obtain ⟨o, ho1, ho2⟩ := hok j _ hm
        rw [ho2, Option.some.injEq, Bool.or_eq_true] at h1
        rcases h1 with h1 | h1
        · have := (s2 j _ hm).1 (.inl (by rw [ho1, h1]))
          rw [h2, Option.some.injEq] at this
          rw [this]
          exact hinv j _ (by rw [ho1, h1]) hm
        · have := (s2 j _ hm).1 (.inr h1)
          rw [h2, Option.some.injEq] at this
          rw [this]
          exact of_decide_eq_true h1
      rcases ih (i + 1) mus' _ (by simp [hl, hlen]) hinv' hr with hn | ⟨out, e, o1, o2, o3, o4⟩
      · exact .inl hn
      · refine .inr ⟨out, e, by rw [o1, hlen], o2, ?_, ?_⟩
        · intro j m hm hhit
          exact o3 j m ((s2 j m hm).1 (.inr (decide_eq_true hhit))) hhit
        · intro m hm
          rcases o4 m hm with h' | h'
          · obtain ⟨j, hj⟩ := List.getElem?_of_mem h'
            have hjl : j < mus'.length := (List.getElem?_eq_some_iff.mp hj).1
            have hm' := List.getElem?_eq_getElem (show j < mus.length by omega)
            obtain ⟨o, ho1, ho2⟩ := hok j _ hm'
            by_cases hc : o = true ∨ hitsB h lw Ls mus[j] = true
            · have := (s2 j _ hm').1 (hc.imp (fun hc => by rw [ho1, hc]) id)
              rw [hj, Option.some.injEq] at this
              rw [this]
              exact .inl (List.getElem_mem _)
            · have hc1 : o = false := Bool.eq_false_iff.mpr fun hh => hc (.inl hh)
              have hc2 : hitsB h lw Ls mus[j] = false := Bool.eq_false_iff.mpr fun hh => hc (.inr hh)
              obtain ⟨q, hq, hq2⟩ := (s2 j _ hm').2 ⟨by rw [ho1, hc1], hc2⟩
              rw [hj, Option.some.injEq] at hq2
              rw [hq2]
              exact .inr ⟨_, _, hq⟩
          · exact .inr h'
    · rename_i hc
      refine .inr ⟨mus, hr.symm, rfl, ?_, fun _ _ a _ => a, fun m hm => .inl hm⟩
      have hall := all_true_of_count ok (by rw [hl]; exact hc)
      intro m hm
      obtain ⟨j, hj⟩ := List.getElem?_of_mem hm
      have hjl : j < mus.length := (List.getElem?_eq_some_iff.mp hj).1
      exact hinv j m (by rw [hall, List.getElem?_replicate, if_pos (by omega)]) hj

/-- **C59.** For every generator and every starting set: resampling never fails, and if it ends, the result has as many muons as it was given; each crosses the passive volume
if not scattered; muons that passed the check to begin with are unchanged and in place; the others come from the generator. -/
theorem resampled (h : ℝ) (lw : ℝ × ℝ) (Ls : List PassiveLayer) (hsz : ∀ L ∈ Ls, 0 ≤ L.size) (gen : Nat → Nat → List Gen.Row) (hgen : ∀ i k, (gen i k).length = k) (fuel : Nat) (mus : List Gen.Row) :
    resample h lw Ls gen fuel mus = .ok none ∨ ∃ out, resample h lw Ls gen fuel mus = .ok (some out) ∧ out.length = mus.length ∧ (∀ m ∈ out, Crosses h lw Ls m) ∧
      (∀ (j : Nat) m, mus[j]? = some m → HitsTop h lw Ls m → out[j]? = some m) ∧ (∀ m ∈ out, m ∈ mus ∨ ∃ i k, m ∈ gen i k) := by
  rcases loop_result h lw Ls gen hgen fuel 0 mus (List.replicate mus.length false) (by simp) (by
    intro j m h1 _
    rw [List.getElem?_replicate] at h1
    split at h1 <;> simp at h1) _ rfl with h1 | ⟨out, e, o1, o2, o3, o4⟩
  · exact .inl h1
  · refine .inr ⟨out, e, o1, ?_, o3, o4⟩
    intro m hm
    obtain ⟨L, hL, ho⟩ := o2 m hm
    exact ⟨L, hL, L.z, by have := hsz L hL; linarith, le_rfl, ho⟩

/-- **C59: it ends** after at most two rounds if the generator only returns muons that hit the top of a layer. -/
theorem ends (h : ℝ) (lw : ℝ × ℝ) (Ls : List PassiveLayer) (gen : Nat → Nat → List Gen.Row) (hgen : ∀ i k, (gen i k).length = k) (hgood : ∀ i k, ∀ m ∈ gen i k, HitsTop h lw Ls m)
    (mus : List Gen.Row) : ∃ out, resample h lw Ls gen 2 mus = .ok (some out) := by
  have all_ok : ∀ (fuel i : Nat) (mus : List Gen.Row) (ok : List Bool), ok.length = mus.length → (∀ m ∈ mus, HitsTop h lw Ls m) → ∃ out, resampleLoop h lw Ls gen (fuel + 1) i mus ok = .ok (some out) := by
    intro fuel i mus ok hl hall
    rw [resampleLoop]
    split
    · simp only [check_spec]
      have hg := hgen i (countTrue (inv ((pick (inv ok) mus).map (hitsB h lw Ls))))
      obtain ⟨s1, s2⟩ := round_spec (hitsB h lw Ls) ok mus _ hl hg
      rw [s1]
      have hz : List.zipWith (fun o m => o || hitsB h lw Ls m) ok mus = List.replicate mus.length true := by
        rw [List.eq_replicate_iff]
        refine ⟨by simp [hl], ?_⟩
        intro b hb
        obtain ⟨j, hj⟩ := List.getElem?_of_mem hb
        rw [List.getElem?_zipWith] at hj
        cases hm : mus[j]? with
        | none => rw [hm] at hj; cases ok[j]? <;> simp at hj
        | some m =>
          cases ho : ok[j]? with
          | none => rw [hm, ho] at hj; simp at hj
          | some o =>
            rw [hm, ho] at hj
            simp only [Option.some.injEq] at hj
            rw [← hj, show hitsB h lw Ls m = true from decide_eq_true (hall m (List.mem_of_getElem? hm)), Bool.or_true]
      rw [hz]
      cases fuel with
      | zero => rw [resampleLoop, if_neg (by rw [countTrue_replicate]; simp)]; exact ⟨_, rfl⟩
      | succ fuel => rw [resampleLoop, if_neg (by rw [countTrue_replicate]; simp)]; exact ⟨_, rfl⟩
    · exact ⟨_, rfl⟩
  unfold resample
  rw [show 2 = 1 + 1 from rfl, resampleLoop]
  split
  · simp only [check_spec]
    apply all_ok 0 1
    · simp
    · have hl : (List.replicate mus.length false).length = mus.length := by simp
      have hg := hgen 0 (countTrue (inv ((pick (inv (List.replicate mus.length false)) mus).map (hitsB h lw Ls))))
      obtain ⟨s1, s2⟩ := round_spec (hitsB h lw Ls) _ mus _ hl hg
      intro m hm
      obtain ⟨j, hj⟩ := List.getElem?_of_mem hm
      have hjl := (List.getElem?_eq_some_iff.mp hj).1
      rw [put_length] at hjl
      have hm' := List.getElem?_eq_getElem hjl
      cases hP : hitsB h lw Ls mus[j] with
      | true =>
        have := (s2 j _ hm').1 (.inr hP)
        rw [hj, Option.some.injEq] at this
        rw [this]
        exact of_decide_eq_true hP
      | false =>
        obtain ⟨q, hq, hq2⟩ := (s2 j _ hm').2 ⟨by rw [List.getElem?_replicate, if_pos hjl], hP⟩
        rw [hj, Option.some.injEq] at hq2
        rw [hq2]
        exact hgood _ _ q hq
  · exact ⟨_, rfl⟩

/-- **C59 (violated): it may never end.** A generator that never hits the volume is asked for ever. -/
theorem never_ends_violated (h : ℝ) (lw : ℝ × ℝ) (Ls : List PassiveLayer) (gen : Nat → Nat → List Gen.Row) (hgen : ∀ i k, (gen i k).length = k)
    (hbad : ∀ i k, ∀ m ∈ gen i k, ¬ HitsTop h lw Ls m) (m0 : Gen.Row) (hm0 : ¬ HitsTop h lw Ls m0) (fuel : Nat) : resample h lw Ls gen fuel [m0] = .ok none := by
  have key : ∀ (fuel i : Nat) (m : Gen.Row), ¬ HitsTop h lw Ls m → resampleLoop h lw Ls gen fuel i [m] [false] = .ok none := by
    intro fuel
    induction fuel with
    | zero => intro i m _; rw [resampleLoop, if_pos (by simp)]
    | succ fuel ih =>
      intro i m hm
      have hP : hitsB h lw Ls m = false := decide_eq_false hm
      rw [resampleLoop, if_pos (by simp)]
      simp only [check_spec, inv, List.map_cons, List.map_nil, Bool.not_false, pick_true, pick_nil_left, hP]
      obtain ⟨q, hq⟩ : ∃ q, gen i 1 = [q] := List.length_eq_one_iff.mp (hgen i 1)
      have : countTrue [true] = 1 := by simp
      rw [this, hq]
      simp only [put, List.zipWith_cons_cons, List.zipWith_nil_left, Bool.or_self]
      exact ih (i + 1) q (hbad i 1 q (by rw [hq]; simp))
  exact key fuel 0 m0 hm0

/-- **C59 (violated): side entries.** Muons are only tested at the tops of layers: one that enters the lowest layer through its side crosses the passive volume, but is replaced,
although "muons that only hit the bottom layer" should be kept. -/
theorem side_entry_violated : ∃ (L : PassiveLayer) (m : Gen.Row), Crosses 1 (1, 1) [L] m ∧ check 1 (1, 1) [L] [m] = .ok [false] := by
  refine ⟨⟨(1, 1), 1, 1, 1, "pdg", none⟩, (-1 / 2, 1 / 2, 5, π / 4, 0), ?_, ?_⟩
  · refine ⟨_, List.mem_singleton.mpr rfl, 1 / 4, by norm_num, by norm_num, ?_⟩
    unfold Over xAt yAt
    have hc : cos (π / 4) ≠ 0 := by rw [cos_pi_div_four]; positivity
    have ht : sin (π / 4) / cos (π / 4) = 1 := by rw [cos_pi_div_four, sin_pi_div_four, div_self]; positivity
    simp only [ht, cos_zero, sin_zero]
    norm_num
  · rw [check_spec]
    congr 1
    simp only [List.map_cons, List.map_nil, List.cons.injEq, and_true]
    apply decide_eq_false
    rintro ⟨L, hL, ho⟩
    rw [List.mem_singleton] at hL
    subst hL
    have := ho.1
    unfold xAt at this
    norm_num at this

example : HitsTop 2 (1, 1) [⟨(1, 1), 1, 1, 1, "pdg", none⟩] (1 / 2, 1 / 2, 5, 0, 0) := by
  refine ⟨_, List.mem_singleton.mpr rfl, ?_⟩
  unfold Over xAt yAt
  norm_num

end C59

end

end Tomopt
