import Verif.Lemmas.Resample
import Mathlib.Probability.Independence.InfinitePi
import Mathlib.Probability.ConditionalProbability
import Mathlib.Analysis.SpecificLimits.Basic
import Mathlib.MeasureTheory.Constructions.BorelSpace.Real
import Mathlib.MeasureTheory.Function.SpecialFunctions.Basic

/- C134: the muons that come out of resampling are distributed as the generated ones given that they hit the volume.  Property theorems; the lemmas are in Lemmas/Resample.lean. -/
namespace Tomopt

noncomputable section

namespace C134

open Gen C59 MeasureTheory ProbabilityTheory Filter
open scoped ENNReal Topology

/-- the muons which hit the top of one of the layers, as a set -/
def Hits (h : ℝ) (lw : ℝ × ℝ) (Ls : List PassiveLayer) : Set Gen.Row := {r | HitsTop h lw Ls r}

theorem hits_measurable (h : ℝ) (lw : ℝ × ℝ) (Ls : List PassiveLayer) : MeasurableSet (Hits h lw Ls) := by
  have one : ∀ z, MeasurableSet {r : Gen.Row | Over h lw r z} := by
    intro z
    have hx : Measurable fun r : Gen.Row => xAt h r z := by
      unfold xAt Gen.Row
      exact measurable_fst.add ((measurable_const.mul ((Real.measurable_sin.comp (by fun_prop)).div (Real.measurable_cos.comp (by fun_prop)))).mul (Real.measurable_cos.comp (by fun_prop)))
    have hy : Measurable fun r : Gen.Row => yAt h r z := by
      unfold yAt Gen.Row
      exact (by fun_prop : Measurable fun r : ℝ × ℝ × ℝ × ℝ × ℝ => r.2.1).add ((measurable_const.mul ((Real.measurable_sin.comp (by fun_prop)).div (Real.measurable_cos.comp (by fun_prop)))).mul (Real.measurable_sin.comp (by fun_prop)))
    exact (measurableSet_le measurable_const hx).inter ((measurableSet_lt hx measurable_const).inter ((measurableSet_le measurable_const hy).inter (measurableSet_lt hy measurable_const)))
  induction Ls with
  | nil => simp [Hits, HitsTop]
  | cons L Ls ih =>
    have : Hits h lw (L :: Ls) = {r | Over h lw r L.z} ∪ Hits h lw Ls := by
      ext r; simp [Hits, HitsTop]
    rw [this]
    exact (one L.z).union ih

theorem hitsB_iff {h lw Ls} {r : Gen.Row} : hitsB h lw Ls r = true ↔ r ∈ Hits h lw Ls := by simp [hitsB, Hits]

theorem hitsB_iff' {h lw Ls} {r : Gen.Row} : hitsB h lw Ls r = false ↔ r ∉ Hits h lw Ls := by simp [hitsB, Hits]

variable {Ω : Type} [MeasurableSpace Ω]

/-- Independent draws of muons: draw number `p.2` of round `p.1`, each with law `μ`. -/
structure Draws (P : Measure Ω) (μ : Measure Gen.Row) (D : Nat × Nat → Ω → Gen.Row) : Prop where
  meas : ∀ p, Measurable (D p)
  indep : iIndepFun D P
  law : ∀ p, P.map (D p) = μ

/-- Resampling of `n` generated muons within `fuel` rounds; round `i` asks the generator for as many new muons as missed the volume. -/
def run (h : ℝ) (lw : ℝ × ℝ) (Ls : List PassiveLayer) (D : Nat × Nat → Ω → Gen.Row) (n fuel : Nat) (ω : Ω) : Except Err (Option (List Gen.Row)) :=
  resample h lw Ls (fun i k => (List.range k).map fun c => D (i + 1, c) ω) fuel ((List.range n).map fun c => D (0, c) ω)

/-- muon `j` that comes out is in `A j` -/
def OutIn {n : Nat} (A : Fin n → Set Gen.Row) (out : List Gen.Row) : Prop := out.length = n ∧ ∀ j : Fin n, ∃ r ∈ A j, out[j.val]? = some r

/-- the rounds of the slots -/
def ext {n f : Nat} (t : Fin n → Fin f) (j : Nat) : Nat := if hj : j < n then (t ⟨j, hj⟩).val else 0

/-- what has to be in which set if the slots are finished in rounds `t` -/
def req {n : Nat} (H : Set Gen.Row) (A : Fin n → Set Gen.Row) (t : Nat → Nat) (p : Σ j : Fin n, Fin (t j + 1)) : Set Gen.Row := if p.2.val = t p.1 then H ∩ A p.1 else Hᶜ

def idx {n : Nat} (t : Nat → Nat) (p : Σ j : Fin n, Fin (t j + 1)) : Nat × Nat := (p.2.val, rank t p.2.val p.1)

theorem idx_inj {n : Nat} (t : Nat → Nat) : Function.Injective (idx (n := n) t) := by
  rintro ⟨j, s⟩ ⟨j', s'⟩ e
  simp only [idx, Prod.mk.injEq] at e
  obtain ⟨e1, e2⟩ := e
  rw [← e1] at e2
  have hs : s.val ≤ t j := by have := s.isLt; omega
  have hs' : s.val ≤ t j' := by have := s'.isLt; omega
  have hj : j = j' := by
    rcases lt_trichotomy j.val j'.val with hlt | heq | hgt
    · have := rank_lt hs hlt; omega
    · exact Fin.ext heq
    · have := rank_lt hs' hgt; omega
  subst hj
  have : s = s' := Fin.ext e1
  rw [this]

omit [MeasurableSpace Ω] in
theorem finished_event (h : ℝ) (lw : ℝ × ℝ) (Ls : List PassiveLayer) (D : Nat × Nat → Ω → Gen.Row) (n : Nat) (A : Fin n → Set Gen.Row) (t : Nat → Nat) :
    {ω | Finished (hitsB h lw Ls) (fun s c => D (s, c) ω) n t ∧ OutIn A (outOf (fun s c => D (s, c) ω) n t)} = ⋂ p ∈ (Finset.univ : Finset (Σ j : Fin n, Fin (t j + 1))), D (idx t p) ⁻¹' req (Hits h lw Ls) A t p := by
  ext ω
  simp only [Set.mem_ofPred_eq, Finset.mem_univ, Set.iInter_true, Set.mem_iInter, Set.mem_preimage]
  constructor
  · rintro ⟨hf, _, ho⟩ ⟨j, s⟩
    by_cases hs : s.val = t j
    · obtain ⟨r, hr, e⟩ := ho j
      have e' : D (t j, rank t (t j) j) ω = r := by simpa [outOf] using e
      simp only [req, hs, if_true, idx]
      exact ⟨hitsB_iff.mp (hf j j.isLt).2, by rw [e']; exact hr⟩
    · simp only [req, hs, if_false, idx]
      exact hitsB_iff'.mp ((hf j j.isLt).1 s.val (by have := s.isLt; omega))
  · intro hp
    refine ⟨fun j hj => ⟨fun s hs => ?_, ?_⟩, by simp [outOf], fun j => ?_⟩
    · have := hp ⟨⟨j, hj⟩, ⟨s, by simp only; omega⟩⟩
      simp only [req, idx, hs.ne, if_false] at this
      exact hitsB_iff'.mpr this
    · have := hp ⟨⟨j, hj⟩, ⟨t j, by simp⟩⟩
      simp only [req, idx, if_true] at this
      exact hitsB_iff.mpr this.1
    · have := hp ⟨j, ⟨t j, by simp⟩⟩
      simp only [req, idx, if_true] at this
      exact ⟨_, this.2, by simp [outOf]⟩

theorem finished_prob {P : Measure Ω} {μ : Measure Gen.Row} {D : Nat × Nat → Ω → Gen.Row} (hD : Draws P μ D) (h : ℝ) (lw : ℝ × ℝ) (Ls : List PassiveLayer) (n : Nat) (A : Fin n → Set Gen.Row)
    (hA : ∀ j, MeasurableSet (A j)) (t : Nat → Nat) :
    P {ω | Finished (hitsB h lw Ls) (fun s c => D (s, c) ω) n t ∧ OutIn A (outOf (fun s c => D (s, c) ω) n t)} = ∏ j : Fin n, (μ (Hits h lw Ls)ᶜ ^ t j * μ (Hits h lw Ls ∩ A j)) := by
  have hm : ∀ p, MeasurableSet (req (Hits h lw Ls) A t p) := fun p => by
    unfold req; split
    · exact (hits_measurable h lw Ls).inter (hA _)
    · exact (hits_measurable h lw Ls).compl
  rw [finished_event, (hD.indep.precomp (idx_inj (n := n) t)).measure_inter_preimage_eq_mul Finset.univ (fun p _ => hm p)]
  have : ∀ p, P (D (idx t p) ⁻¹' req (Hits h lw Ls) A t p) = μ (req (Hits h lw Ls) A t p) := fun p => by
    rw [← hD.law (idx t p), Measure.map_apply (hD.meas _) (hm p)]
  rw [Finset.prod_congr rfl fun p _ => this p, Fintype.prod_sigma]
  refine Finset.prod_congr rfl fun j _ => ?_
  rw [Fin.prod_univ_castSucc]
  congr 1
  · rw [Finset.prod_congr rfl (g := fun _ => μ (Hits h lw Ls)ᶜ)]
    · simp
    · intro s _
      simp [req, s.isLt.ne]
  · simp [req]

theorem finished_congr {P : Gen.Row → Bool} {d : Nat → Nat → Gen.Row} {n : Nat} {t t' : Nat → Nat} (e : ∀ j < n, t j = t' j) (hf : Finished P d n t) : Finished P d n t' ∧ outOf d n t' = outOf d n t := by
  have rk : ∀ s, ∀ j < n, rank t' s j = rank t s j := fun s j hj => rank_congr fun i hi => by rw [e i (by omega)]
  constructor
  · intro j hj
    rw [← e j hj]
    exact ⟨fun s hs => by rw [rk s j hj]; exact (hf j hj).1 s hs, by rw [rk _ j hj]; exact (hf j hj).2⟩
  · refine List.map_congr_left fun j hj => ?_
    have hj := List.mem_range.mp hj
    rw [rk _ j hj, e j hj]

omit [MeasurableSpace Ω] in
theorem run_event (h : ℝ) (lw : ℝ × ℝ) (Ls : List PassiveLayer) (D : Nat × Nat → Ω → Gen.Row) (n fuel : Nat) (A : Fin n → Set Gen.Row) :
    {ω | ∃ out, run h lw Ls D n fuel ω = .ok (some out) ∧ OutIn A out} =
      ⋃ t ∈ (Finset.univ : Finset (Fin n → Fin fuel)), {ω | Finished (hitsB h lw Ls) (fun s c => D (s, c) ω) n (ext t) ∧ OutIn A (outOf (fun s c => D (s, c) ω) n (ext t))} := by
  ext ω
  simp only [Set.mem_ofPred_eq, Finset.mem_univ, Set.iUnion_true, Set.mem_iUnion]
  have key := ended_iff h lw Ls (fun s c => D (s, c) ω) n fuel
  constructor
  · rintro ⟨out, hr, ho⟩
    obtain ⟨t, h1, h2, h3⟩ := (key out).mp hr
    refine ⟨fun j => ⟨t j, h2 j j.isLt⟩, ?_⟩
    obtain ⟨g1, g2⟩ := finished_congr (t' := ext fun j : Fin n => (⟨t j, h2 j j.isLt⟩ : Fin fuel)) (fun j hj => by simp [ext, hj]) h1
    exact ⟨g1, by rw [g2, ← h3]; exact ho⟩
  · rintro ⟨t, h1, h2⟩
    exact ⟨_, (key _).mpr ⟨ext t, h1, fun j hj => by simp [ext, hj], rfl⟩, h2⟩

theorem run_measurable {P : Measure Ω} {μ : Measure Gen.Row} {D : Nat × Nat → Ω → Gen.Row} (hD : Draws P μ D) (h : ℝ) (lw : ℝ × ℝ) (Ls : List PassiveLayer) (n fuel : Nat) (A : Fin n → Set Gen.Row)
    (hA : ∀ j, MeasurableSet (A j)) : MeasurableSet {ω | ∃ out, run h lw Ls D n fuel ω = .ok (some out) ∧ OutIn A out} := by
  rw [run_event]
  refine Finset.measurableSet_biUnion _ fun t _ => ?_
  rw [finished_event]
  refine Finset.measurableSet_biInter _ fun p _ => hD.meas _ ?_
  unfold req; split
  · exact (hits_measurable h lw Ls).inter (hA _)
  · exact (hits_measurable h lw Ls).compl

/-- **Within a number of rounds.** The probability that resampling ends within `fuel` rounds with muon `j` in `A j` is the product over the muons of the probability to draw, after
`s < fuel` draws that miss the volume, one that hits it and is in `A j`. -/
theorem within {P : Measure Ω} {μ : Measure Gen.Row} {D : Nat × Nat → Ω → Gen.Row} (hD : Draws P μ D) (h : ℝ) (lw : ℝ × ℝ) (Ls : List PassiveLayer) (n fuel : Nat) (A : Fin n → Set Gen.Row)
    (hA : ∀ j, MeasurableSet (A j)) :
    P {ω | ∃ out, run h lw Ls D n fuel ω = .ok (some out) ∧ OutIn A out} = ∏ j : Fin n, ∑ s ∈ Finset.range fuel, μ (Hits h lw Ls)ᶜ ^ s * μ (Hits h lw Ls ∩ A j) := by
  rw [run_event, measure_biUnion_finset]
  · rw [Finset.sum_congr rfl fun t _ => finished_prob hD h lw Ls n A hA (ext t)]
    simp only [Finset.sum_range]
    rw [Finset.prod_univ_sum, Fintype.piFinset_univ]
    refine Finset.sum_congr rfl fun t _ => Finset.prod_congr rfl fun j _ => ?_
    simp [ext]
  · intro t _ t' _ hne
    rw [Function.onFun, Set.disjoint_left]
    rintro ω ⟨h1, _⟩ ⟨h2, _⟩
    refine hne (funext fun j => Fin.ext ?_)
    have := finished_unique h1 h2 j j.isLt
    simpa [ext] using this
  · intro t _
    rw [finished_event]
    refine Finset.measurableSet_biInter _ fun p _ => hD.meas _ ?_
    unfold req; split
    · exact (hits_measurable h lw Ls).inter (hA _)
    · exact (hits_measurable h lw Ls).compl

omit [MeasurableSpace Ω] in
/-- more rounds change nothing once it has ended -/
theorem run_mono (h : ℝ) (lw : ℝ × ℝ) (Ls : List PassiveLayer) (D : Nat × Nat → Ω → Gen.Row) (n : Nat) {f f' : Nat} (hf : f ≤ f') {ω : Ω} {out : List Gen.Row}
    (hr : run h lw Ls D n f ω = .ok (some out)) : run h lw Ls D n f' ω = .ok (some out) := by
  have key := ended_iff h lw Ls (fun s c => D (s, c) ω) n
  obtain ⟨t, h1, h2, h3⟩ := (key f out).mp hr
  exact (key f' out).mpr ⟨t, h1, fun j hj => (h2 j hj).trans_le hf, h3⟩

theorem q_eq {μ : Measure Gen.Row} [IsProbabilityMeasure μ] (h lw Ls) : 1 - μ (Hits h lw Ls)ᶜ = μ (Hits h lw Ls) := by
  rw [prob_compl_eq_one_sub (hits_measurable h lw Ls), ENNReal.sub_sub_cancel ENNReal.one_ne_top prob_le_one]

/-- **Rejection sampling.** The muons that come out of resampling are independent and each is distributed as a drawn muon given that it
hits the volume: no slot, and no round, is preferred.  If no muon can hit the volume both sides
are zero, unless there are no muons: the conditional probability is then zero by definition, and `ends_almost_surely` says that resampling does not end. -/
theorem rejection {P : Measure Ω} {μ : Measure Gen.Row} [IsProbabilityMeasure μ] {D : Nat × Nat → Ω → Gen.Row} (hD : Draws P μ D) (h : ℝ) (lw : ℝ × ℝ) (Ls : List PassiveLayer)
    (n : Nat) (A : Fin n → Set Gen.Row) (hA : ∀ j, MeasurableSet (A j)) :
    P {ω | ∃ fuel out, run h lw Ls D n fuel ω = .ok (some out) ∧ OutIn A out} = ∏ j : Fin n, μ[A j | Hits h lw Ls] := by
  have e : {ω | ∃ fuel out, run h lw Ls D n fuel ω = .ok (some out) ∧ OutIn A out} = ⋃ f : Nat, {ω | ∃ out, run h lw Ls D n f ω = .ok (some out) ∧ OutIn A out} := by
    ext ω; simp
  have mono : Monotone fun f : Nat => {ω | ∃ out, run h lw Ls D n f ω = .ok (some out) ∧ OutIn A out} := fun f f' hf ω => by
    rintro ⟨out, h1, h2⟩
    exact ⟨out, run_mono h lw Ls D n hf h1, h2⟩
  have t1 := tendsto_measure_iUnion_atTop (μ := P) mono
  rw [← e] at t1
  refine tendsto_nhds_unique t1 ?_
  simp only [Function.comp_def, within hD h lw Ls n _ A hA]
  refine ENNReal.tendsto_finsetProd_of_ne_top _ (fun j _ => ?_) fun j _ => measure_ne_top _ _
  have t2 := (ENNReal.summable (f := fun s : Nat => μ (Hits h lw Ls)ᶜ ^ s * μ (Hits h lw Ls ∩ A j))).hasSum.tendsto_sum_nat
  rw [ENNReal.tsum_mul_right, ENNReal.tsum_geometric, q_eq] at t2
  rwa [cond_apply (hits_measurable h lw Ls)]

omit [MeasurableSpace Ω] in
theorem any_out (h : ℝ) (lw : ℝ × ℝ) (Ls : List PassiveLayer) (D : Nat × Nat → Ω → Gen.Row) (n fuel : Nat) :
    {ω | ∃ out, run h lw Ls D n fuel ω = .ok (some out)} = {ω | ∃ out, run h lw Ls D n fuel ω = .ok (some out) ∧ OutIn (fun _ : Fin n => Set.univ) out} := by
  ext ω
  constructor
  · rintro ⟨out, hr⟩
    obtain ⟨t, _, _, h3⟩ := (ended_iff h lw Ls (fun s c => D (s, c) ω) n fuel out).mp hr
    exact ⟨out, hr, by simp [h3, outOf], fun j => ⟨D (t j, rank t (t j) j) ω, trivial, by simp [h3, outOf]⟩⟩
  · rintro ⟨out, hr, _⟩; exact ⟨out, hr⟩

/-- **Rounds.** All `n` muons are found within `fuel` rounds with probability `(1 - q ^ fuel) ^ n`, if `q` is the probability to miss the volume. -/
theorem rounds {P : Measure Ω} {μ : Measure Gen.Row} [IsProbabilityMeasure μ] {D : Nat × Nat → Ω → Gen.Row} (hD : Draws P μ D) (h : ℝ) (lw : ℝ × ℝ) (Ls : List PassiveLayer) (n fuel : Nat) :
    P {ω | ∃ out, run h lw Ls D n fuel ω = .ok (some out)} = (1 - μ (Hits h lw Ls)ᶜ ^ fuel) ^ n := by
  rw [any_out, within hD h lw Ls n fuel _ fun _ => MeasurableSet.univ]
  simp only [Set.inter_univ, Finset.prod_const, Finset.card_univ, Fintype.card_fin]
  congr 1
  have hq : μ (Hits h lw Ls)ᶜ ≤ 1 := prob_le_one
  induction fuel with
  | zero => simp
  | succ f ih =>
    rw [Finset.sum_range_succ, ih, ← q_eq (μ := μ) h lw Ls]
    have hf : μ (Hits h lw Ls)ᶜ ^ f ≤ 1 := pow_le_one' hq f
    have hne : μ (Hits h lw Ls)ᶜ ^ f ≠ ⊤ := ne_top_of_le_ne_top ENNReal.one_ne_top hf
    rw [ENNReal.mul_sub (fun _ _ => hne), mul_one, ← pow_succ]
    exact tsub_add_tsub_cancel hf (pow_le_pow_right_of_le_one' hq (Nat.le_succ f))

/-- **Ends.** It ends with probability one if a muon can hit the volume at all, and otherwise, of one muon or more, never. -/
theorem ends_almost_surely {P : Measure Ω} {μ : Measure Gen.Row} [IsProbabilityMeasure P] [IsProbabilityMeasure μ] {D : Nat × Nat → Ω → Gen.Row} (hD : Draws P μ D) (h : ℝ) (lw : ℝ × ℝ) (Ls : List PassiveLayer)
    (n : Nat) : (μ (Hits h lw Ls) ≠ 0 → ∀ᵐ ω ∂P, ∃ fuel out, run h lw Ls D n fuel ω = .ok (some out)) ∧
      (μ (Hits h lw Ls) = 0 → 0 < n → ∀ᵐ ω ∂P, ∀ fuel, ¬ ∃ out, run h lw Ls D n fuel ω = .ok (some out)) := by
  constructor
  · intro hpos
    have h1 := rejection hD h lw Ls n (fun _ => Set.univ) fun _ => MeasurableSet.univ
    have := cond_isProbabilityMeasure hpos
    simp only [measure_univ, Finset.prod_const_one] at h1
    have h2 : MeasurableSet {ω | ∃ fuel out, run h lw Ls D n fuel ω = .ok (some out) ∧ OutIn (fun _ : Fin n => Set.univ) out} := by
      have e : {ω | ∃ fuel out, run h lw Ls D n fuel ω = .ok (some out) ∧ OutIn (fun _ : Fin n => Set.univ) out} =
          ⋃ f : Nat, {ω | ∃ out, run h lw Ls D n f ω = .ok (some out) ∧ OutIn (fun _ : Fin n => Set.univ) out} := by
        ext ω; simp
      rw [e]
      exact MeasurableSet.iUnion fun f => run_measurable hD h lw Ls n f _ fun _ => MeasurableSet.univ
    have h3 := (prob_compl_eq_zero_iff h2).mpr h1
    filter_upwards [(ae_iff (p := fun ω => ∃ fuel out, run h lw Ls D n fuel ω = .ok (some out) ∧ OutIn (fun _ : Fin n => Set.univ) out)).mpr h3] with ω hω
    obtain ⟨f, out, h4, _⟩ := hω
    exact ⟨f, out, h4⟩
  · intro h0 hn
    rw [ae_all_iff]
    intro f
    rw [ae_iff]
    simp only [not_not]
    rw [rounds hD]
    have : μ (Hits h lw Ls)ᶜ = 1 := by rw [prob_compl_eq_one_sub (hits_measurable h lw Ls), h0, tsub_zero]
    rw [this]
    simp [hn.ne']

/-- **One muon.** Each muon that comes out, whichever its slot and however many others there are, has the law of a drawn muon given that it hits the volume. -/
theorem marginal {P : Measure Ω} {μ : Measure Gen.Row} [IsProbabilityMeasure μ] {D : Nat × Nat → Ω → Gen.Row} (hD : Draws P μ D) (h : ℝ) (lw : ℝ × ℝ) (Ls : List PassiveLayer)
    (hpos : μ (Hits h lw Ls) ≠ 0) (n : Nat) (j : Fin n) (A : Set Gen.Row) (hA : MeasurableSet A) :
    P {ω | ∃ fuel out r, run h lw Ls D n fuel ω = .ok (some out) ∧ out[j.val]? = some r ∧ r ∈ A} = μ[A | Hits h lw Ls] := by
  have e : {ω | ∃ fuel out r, run h lw Ls D n fuel ω = .ok (some out) ∧ out[j.val]? = some r ∧ r ∈ A} =
      {ω | ∃ fuel out, run h lw Ls D n fuel ω = .ok (some out) ∧ OutIn (fun i : Fin n => if i = j then A else Set.univ) out} := by
    ext ω
    constructor
    · rintro ⟨f, out, r, hr, h1, h2⟩
      have : ω ∈ {ω | ∃ out, run h lw Ls D n f ω = .ok (some out)} := ⟨out, hr⟩
      rw [any_out] at this
      obtain ⟨out', hr', hl, ho⟩ := this
      have : out' = out := by rw [hr] at hr'; simpa using hr'.symm
      subst this
      refine ⟨f, out', hr, hl, fun i => ?_⟩
      by_cases hi : i = j
      · subst hi; exact ⟨r, by simpa using h2, h1⟩
      · obtain ⟨r', _, h3⟩ := ho i
        exact ⟨r', by simp [hi], h3⟩
    · rintro ⟨f, out, hr, _, ho⟩
      obtain ⟨r, h1, h2⟩ := ho j
      exact ⟨f, out, r, hr, h2, by simpa using h1⟩
  have := cond_isProbabilityMeasure hpos
  rw [e, rejection hD h lw Ls n _ fun i => by split <;> simp [hA], Finset.prod_eq_single j]
  · simp
  · intro i _ hi; simp [hi]
  · simp

/-- **Biased.** What comes out is not what the generator makes: a property of muons is as frequent after resampling as before exactly if it is independent of hitting the volume. -/
theorem unbiased_iff {P : Measure Ω} {μ : Measure Gen.Row} [IsProbabilityMeasure μ] {D : Nat × Nat → Ω → Gen.Row} (hD : Draws P μ D) (h : ℝ) (lw : ℝ × ℝ) (Ls : List PassiveLayer)
    (hpos : μ (Hits h lw Ls) ≠ 0) (n : Nat) (j : Fin n) (A : Set Gen.Row) (hA : MeasurableSet A) :
    P {ω | ∃ fuel out r, run h lw Ls D n fuel ω = .ok (some out) ∧ out[j.val]? = some r ∧ r ∈ A} = μ A ↔ μ (Hits h lw Ls ∩ A) = μ (Hits h lw Ls) * μ A := by
  rw [marginal hD h lw Ls hpos n j A hA, cond_apply (hits_measurable h lw Ls)]
  constructor
  · intro e
    rw [← e, ← mul_assoc, ENNReal.mul_inv_cancel hpos (measure_ne_top _ _), one_mul]
  · intro e
    rw [e, ← mul_assoc, ENNReal.inv_mul_cancel hpos (measure_ne_top _ _), one_mul]

/-- Draws exist, for any law. -/
theorem draws_exist (μ : Measure Gen.Row) [IsProbabilityMeasure μ] : Draws (Measure.infinitePi fun _ : Nat × Nat => μ) μ fun p ω => ω p where
  meas := fun p => measurable_pi_apply p
  indep := iIndepFun_infinitePi (X := fun _ x => x) fun _ => measurable_id
  law := fun p => Measure.infinitePi_map_eval _ p

/-- half of the muons go down in the middle of a square of one metre, half of them one metre beside it -/
def beam : Measure Gen.Row := (2 : ℝ≥0∞)⁻¹ • Measure.dirac (1 / 2, 1 / 2, 5, 0, 0) + (2 : ℝ≥0∞)⁻¹ • Measure.dirac (3 / 2, 1 / 2, 1, 0, 0)

instance : IsProbabilityMeasure beam := ⟨by simp [beam, ENNReal.inv_two_add_inv_two]⟩

def oneLayer : List PassiveLayer := [⟨(1, 1), 1, 1, 1, "pgeant", none⟩]

theorem in_hits : ((1 / 2, 1 / 2, 5, 0, 0) : Gen.Row) ∈ Hits 1 (1, 1) oneLayer := by
  norm_num [Hits, HitsTop, oneLayer, Over, xAt, yAt]

theorem not_in_hits : ((3 / 2, 1 / 2, 1, 0, 0) : Gen.Row) ∉ Hits 1 (1, 1) oneLayer := by
  norm_num [Hits, HitsTop, oneLayer, Over, xAt, yAt]

theorem beam_hits : beam (Hits 1 (1, 1) oneLayer) = 2⁻¹ := by
  rw [beam, Measure.add_apply, Measure.smul_apply, Measure.smul_apply, Measure.dirac_apply' _ (hits_measurable 1 (1, 1) oneLayer), Measure.dirac_apply' _ (hits_measurable 1 (1, 1) oneLayer),
    Set.indicator_of_mem in_hits, Set.indicator_of_notMem not_in_hits]
  simp

/-- muons of 5 GeV -/
def Hard : Set Gen.Row := {r | r.2.2.1 = 5}

theorem hard_measurable : MeasurableSet Hard := by
  have : Measurable fun r : Gen.Row => r.2.2.1 := by unfold Gen.Row; fun_prop
  exact this (measurableSet_singleton 5)

theorem beam_hard : beam Hard = 2⁻¹ ∧ beam (Hits 1 (1, 1) oneLayer ∩ Hard) = 2⁻¹ := by
  constructor
  · simp [beam, Hard]
  · rw [beam, Measure.add_apply, Measure.smul_apply, Measure.smul_apply, Measure.dirac_apply' _ ((hits_measurable 1 (1, 1) oneLayer).inter hard_measurable),
      Measure.dirac_apply' _ ((hits_measurable 1 (1, 1) oneLayer).inter hard_measurable), Set.indicator_of_mem (show ((1 / 2, 1 / 2, 5, 0, 0) : Gen.Row) ∈ Hits 1 (1, 1) oneLayer ∩ Hard from ⟨in_hits, rfl⟩),
      Set.indicator_of_notMem fun hn => not_in_hits hn.1]
    simp

/-- **Spectrum.** The energies of the muons after resampling are not those of the generator if these depend on where the muons go: of these muons one in two has 5 GeV, but all that come out do. -/
theorem spectrum_violated : ∃ (μ : Measure Gen.Row) (_ : IsProbabilityMeasure μ) (P : Measure (Nat × Nat → Gen.Row)) (D : Nat × Nat → (Nat × Nat → Gen.Row) → Gen.Row), Draws P μ D ∧ μ Hard = 2⁻¹ ∧
    ∀ (n : Nat) (j : Fin n), P {ω | ∃ fuel out r, run 1 (1, 1) oneLayer D n fuel ω = .ok (some out) ∧ out[j.val]? = some r ∧ r ∈ Hard} = 1 := by
  refine ⟨beam, inferInstance, _, _, draws_exist beam, beam_hard.1, fun n j => ?_⟩
  rw [marginal (draws_exist beam) 1 (1, 1) oneLayer (by rw [beam_hits]; simp) n j Hard hard_measurable, cond_apply (hits_measurable 1 (1, 1) oneLayer), beam_hits, beam_hard.2]
  exact ENNReal.inv_mul_cancel (by simp) (by simp)

/-- two muons of the beam: found within two rounds nine times of sixteen -/
example : (Measure.infinitePi fun _ : Nat × Nat => beam) {ω | ∃ out, run 1 (1, 1) oneLayer (fun p ω => ω p) 2 2 ω = .ok (some out)} = (1 - (2⁻¹ : ℝ≥0∞) ^ 2) ^ 2 := by
  rw [rounds (draws_exist beam), prob_compl_eq_one_sub (hits_measurable 1 (1, 1) oneLayer), beam_hits, ENNReal.one_sub_inv_two]

/-- they do not find an end if the layers are gone -/
example : ∀ᵐ ω ∂(Measure.infinitePi fun _ : Nat × Nat => beam), ∀ fuel, ¬ ∃ out, run 1 (1, 1) [] (fun p ω => ω p) 2 fuel ω = .ok (some out) :=
  (ends_almost_surely (draws_exist beam) 1 (1, 1) [] 2).2 (by simp [Hits, HitsTop]) (by omega)

/-- and one otherwise -/
example : ∀ᵐ ω ∂(Measure.infinitePi fun _ : Nat × Nat => beam), ∃ fuel out, run 1 (1, 1) oneLayer (fun p ω => ω p) 100 fuel ω = .ok (some out) :=
  (ends_almost_surely (draws_exist beam) 1 (1, 1) oneLayer 100).1 (by rw [beam_hits]; simp)

/-- where they go, given that they hit, does not depend on the slot -/
example (n : Nat) (j : Fin n) : (Measure.infinitePi fun _ : Nat × Nat => beam) {ω | ∃ fuel out r, run 1 (1, 1) oneLayer (fun p ω => ω p) n fuel ω = .ok (some out) ∧ out[j.val]? = some r ∧ r ∈ Hard} ≠ beam Hard := by
  rw [Ne, unbiased_iff (draws_exist beam) 1 (1, 1) oneLayer (by rw [beam_hits]; simp) n j Hard hard_measurable, beam_hits, beam_hard.1, beam_hard.2]
  intro e
  have h1 : (2⁻¹ : ℝ≥0∞) * 2 = 1 := ENNReal.inv_mul_cancel (by simp) (by simp)
  have h2 : (2⁻¹ : ℝ≥0∞) * 2 = 2⁻¹ * 2⁻¹ * 2 := by rw [← e]
  rw [mul_assoc, h1, mul_one] at h2
  have := ENNReal.inv_lt_one.mpr (by norm_num : (1 : ℝ≥0∞) < 2)
  exact absurd h2 this.ne'

end C134

end

end Tomopt
