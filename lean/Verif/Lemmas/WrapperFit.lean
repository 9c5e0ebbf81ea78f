import Verif.Lemmas.WrapperScan
import Mathlib.Tactic.Ring

/- From the loop over volumes to whole epochs and fits. -/
namespace Tomopt

noncomputable section

namespace Fit

variable {W V P : Type}

theorem mod_succ (i b : Nat) (h : (i + 1) % b ≠ 0) (hb : 0 < b) : (i + 1) % b = i % b + 1 := by
  rcases Nat.lt_or_ge (i % b + 1) b with h1 | h1
  · rw [Nat.add_mod, Nat.mod_eq_of_lt (show 1 < b by omega)]
    exact Nat.mod_eq_of_lt h1
  · exfalso; apply h
    have : i % b < b := Nat.mod_lt _ hb
    have h2 : i % b = b - 1 := by omega
    rw [← Nat.div_add_mod i b, h2, show b * (i / b) + (b - 1) + 1 = b * (i / b + 1) by rw [Nat.mul_add]; omega]
    exact Nat.mul_mod_right _ _

/-- less than what is left of the batch -/
theorem rest_short (p : Spec.Scan) (len : Nat) (sk : Nat → Bool) (hb : 0 < p.b) (xs : List (V × Spec.Out)) (i : Nat) (acc : List (Option ℝ))
    (h : i % p.b + xs.length < p.b) :
    rest p len sk i acc xs = (if i % p.b = 0 ∧ xs ≠ [] then Spec.evs p.n .volBatchBegin else []) ++ xs.flatMap (Spec.vol p) := by
  induction xs generalizing i acc with
  | nil => simp [rest]
  | cons x xs ih =>
    have hlt : i % p.b + 1 < p.b := by simp only [List.length_cons] at h; omega
    have h1 : (i + 1) % p.b = i % p.b + 1 := by
      rw [Nat.add_mod, Nat.mod_eq_of_lt (show 1 < p.b by omega)]
      exact Nat.mod_eq_of_lt hlt
    unfold rest
    simp only
    rw [if_neg (show ¬ (i + 1) % p.b = 0 by omega), ih (i + 1) _ (by simp only [List.length_cons] at h; omega),
      if_neg (show ¬ ((i + 1) % p.b = 0 ∧ xs ≠ []) by omega)]
    simp

/-- up to the end of the batch -/
theorem rest_block (p : Spec.Scan) (len : Nat) (sk : Nat → Bool) (hb : 0 < p.b) (ys zs : List (V × Spec.Out)) (i : Nat) (acc : List (Option ℝ))
    (h : i % p.b + ys.length = p.b) :
    rest p len sk i acc (ys ++ zs) = (if i % p.b = 0 then Spec.evs p.n .volBatchBegin else []) ++ ys.flatMap (Spec.vol p) ++ Spec.evs p.n .volBatchEnd ++
      (if p.train then Spec.update p.n (Spec.batchLoss p.b ((if i % p.b = 0 then [] else acc) ++ ys.map fun x => Spec.lossOf p.counted x.2)) (sk (i / p.b))
        else []) ++ (if len < p.b + (i + ys.length) then [] else rest p len sk (i + ys.length) [] zs) := by
  induction ys generalizing i acc with
  | nil => have := Nat.mod_lt i hb; simp at h; omega
  | cons y ys ih =>
    rw [List.cons_append]
    conv_lhs => unfold rest
    simp only
    simp only [List.length_cons] at h
    by_cases hy : ys = []
    · subst hy
      have hz : (i + 1) % p.b = 0 := by
        simp only [List.length_nil] at h
        rw [← Nat.div_add_mod i p.b, show p.b * (i / p.b) + i % p.b + 1 = p.b * (i / p.b + 1) by rw [Nat.mul_add]; omega]
        exact Nat.mul_mod_right _ _
      rw [if_pos hz]
      simp
    · have hl : 0 < ys.length := List.length_pos_iff.mpr hy
      have h1 : (i + 1) % p.b = i % p.b + 1 := by
        rw [Nat.add_mod, Nat.mod_eq_of_lt (show 1 < p.b by omega)]
        exact Nat.mod_eq_of_lt (by omega)
      have h2 : (i + 1) / p.b = i / p.b := by
        apply Nat.succ_div_of_not_dvd
        intro hd
        have := Nat.mod_eq_zero_of_dvd hd
        omega
      rw [if_neg (show ¬ (i + 1) % p.b = 0 by omega), ih (i + 1) _ (by omega), h2]
      rw [if_neg (show ¬ (i + 1) % p.b = 0 by omega), if_neg (show ¬ (i + 1) % p.b = 0 by omega)]
      simp only [List.nil_append, List.flatMap_cons, List.append_assoc, List.map_cons, List.cons_append]
      rw [show i + 1 + ys.length = i + (y :: ys).length by simp only [List.length_cons]; omega]

theorem rest_batches (p : Spec.Scan) (sk : Nat → Bool) (hb : 0 < p.b) (N m j : Nat) (hm : N / p.b = j + m) (h0 : 0 < m) (zs : List (V × Spec.Out))
    (hz : zs.length + j * p.b = N) :
    rest p N sk (j * p.b) [] zs = (List.range m).flatMap fun k => Spec.batch p ((zs.drop (k * p.b)).take p.b) (sk (j + k)) := by
  induction m generalizing j zs with
  | zero => omega
  | succ m ih =>
    have hN : N = p.b * (j + (m + 1)) + N % p.b := by rw [← hm]; exact (Nat.div_add_mod N p.b).symm
    have hmod := Nat.mod_lt N hb
    have hN' : N = j * p.b + m * p.b + p.b + N % p.b := by
      conv_lhs => rw [hN]
      ring
    have hlen : p.b ≤ zs.length := by
      have := Nat.zero_le (m * p.b)
      omega
    conv_lhs => rw [← List.take_append_drop p.b zs]
    have htl : (zs.take p.b).length = p.b := by simp [hlen]
    rw [rest_block p N sk hb _ _ _ _ (by rw [htl, Nat.mul_mod_left]; omega), htl, Nat.mul_mod_left, Nat.mul_div_cancel _ hb]
    simp only [if_true, List.nil_append]
    rw [List.range_succ_eq_map, List.flatMap_cons]
    congr 1
    · simp only [Spec.batch, Nat.zero_mul, List.drop_zero, Nat.add_zero]
    · rw [List.flatMap_map]
      by_cases hm0 : m = 0
      · subst hm0
        rw [if_pos (by simp at hN'; omega)]
        simp
      · have h1 : p.b ≤ m * p.b := Nat.le_mul_of_pos_left _ (by omega)
        rw [if_neg (by omega), show j * p.b + p.b = (j + 1) * p.b by ring]
        rw [ih (j + 1) (by omega) (by omega) (zs.drop p.b) (by rw [List.length_drop, Nat.add_mul]; omega)]
        congr 1
        funext k
        rw [List.drop_drop, show p.b + k * p.b = (k + 1) * p.b by ring, show j + 1 + k = j + (k + 1) by omega]

theorem rest_scan (p : Spec.Scan) (sk : Nat → Bool) (hb : 0 < p.b) (xs : List (V × Spec.Out)) :
    rest p xs.length sk 0 [] xs = Spec.scan p xs sk := by
  unfold Spec.scan
  split
  · rename_i h
    rw [rest_short p _ sk hb xs 0 [] (by simpa using h)]
    cases xs <;> simp
  · rename_i h
    have := rest_batches p sk hb xs.length (xs.length / p.b) 0 (by omega) (Nat.div_pos (by omega) hb) xs (by simp)
    simpa using this

variable (E : Env W V P) (c : Conf)

/-- `_scan_volumes` in training or validation -/
theorem emits_scan (ps : Passives V) (hlen : ps.len = ps.vols.length) (s : S W V P) (ht : s.fp.mode ≠ .test) :
    Emits (scanVolumes E c ps) s
      (fun s' t => (∃ xs skips, xs.map (·.1) = ps.vols ∧ t = Spec.scan (scanOf E c s.fp.mode) xs skips) ∧ s'.fp.mode = s.fp.mode ∧ s'.fp.epoch = s.fp.epoch)
      (fun t => ∃ xs skips, xs.map (·.1) = ps.vols ∧ t = Spec.scan (scanOf E c s.fp.mode) xs skips) := by
  unfold scanVolumes
  by_cases hb : 0 < c.bs
  · have key : ∀ xs sk, xs.map (·.1) = ps.vols → rest (scanOf E c s.fp.mode) ps.len sk 0 [] xs = Spec.scan (scanOf E c s.fp.mode) xs sk := by
      intro xs sk h
      have hl : ps.len = xs.length := by rw [hlen, ← h, List.length_map]
      rw [hl]
      exact rest_scan _ sk hb xs
    refine (emits_scanFrom E c ps.len hb ps.vols 0 [] s ht (fun h => absurd (Nat.zero_mod _) h)).mono ?_ ?_
    · rintro s' t ⟨⟨xs, sk, h1, rfl⟩, h2⟩
      exact ⟨⟨xs, sk, h1, key xs sk h1⟩, h2⟩
    · rintro t ⟨xs, sk, h1, rfl⟩
      exact ⟨xs, sk, h1, key xs sk h1⟩
  · -- a batch size of zero raises at the first volume
    have hb0 : c.bs = 0 := by omega
    have hsp : ∀ xs : List (V × Spec.Out), Spec.scan (scanOf E c s.fp.mode) xs (fun _ => false) = [] := by
      intro xs; simp [Spec.scan, scanOf, hb0]
    cases hv : ps.vols with
    | nil => exact ⟨[], by simp [scanFrom, nop], ⟨[], fun _ => false, rfl, (hsp []).symm⟩, rfl, rfl⟩
    | cons v vs =>
      unfold Emits scanFrom seq setFp batchBegin
      simp only [if_neg ht, if_pos hb0, raise]
      exact ⟨[], [], by simp, ⟨(v :: vs).map fun v => (v, ⟨false, 0⟩), fun _ => false, by simp [Function.comp_def], (hsp _).symm⟩, List.nil_prefix⟩

/-- `_scan_volumes` in prediction -/
theorem emits_scanTest (len : Nat) (vs : List V) (i : Nat) (s : S W V P) (ht : s.fp.mode = .test) :
    Emits (scanFrom E c len i vs) s
      (fun s' t => (∃ xs, xs.map (·.1) = vs ∧ t = Spec.scanTest (scanOf E c .test) xs) ∧ s'.fp.mode = .test)
      (fun t => ∃ xs, xs.map (·.1) = vs ∧ t = Spec.scanTest (scanOf E c .test) xs) := by
  induction vs generalizing i s with
  | nil => exact ⟨[], by simp [scanFrom, nop], ⟨[], rfl, rfl⟩, ht⟩
  | cons v vs ih =>
    have exs : ∃ xs : List (V × Spec.Out), xs.map (·.1) = vs := ⟨vs.map fun v => (v, ⟨false, 0⟩), by simp [Function.comp_def]⟩
    obtain ⟨xs0, hxs0⟩ := exs
    have hcons : ∀ (o : Spec.Out) xs, Spec.scanTest (scanOf E c .test) ((v, o) :: xs) =
        [] ++ ([] ++ (Spec.vol (scanOf E c .test) (v, o) ++ Spec.scanTest (scanOf E c .test) xs)) := by
      intro o xs; simp [Spec.scanTest]
    unfold scanFrom
    refine Emits.after (fixed_setFp _ fun x => ⟨rfl, rfl, rfl, rfl⟩) ⟨_, (v, ⟨false, 0⟩) :: xs0, by simp [hxs0], (hcons _ _).symm⟩ fun s1 k1 => ?_
    have hm1 : s1.fp.mode = .test := k1.1.trans ht
    refine Emits.seq (Q1 := fun s' t => t = [] ∧ s' = s1) ?_ ?_
    · unfold Emits batchBegin
      simp only [if_pos hm1]
      exact ⟨[], by simp, rfl, rfl⟩
    rintro s2 t2 ⟨rfl, rfl⟩
    have hv := emits_oneVolume E c s2 v
    rw [hm1] at hv
    refine Emits.seq (hv.mono (fun s' t h => h) ?_) ?_
    · rintro t ⟨o, rfl⟩
      exact ⟨_, (v, o) :: xs0, by simp [hxs0], (hcons _ _).symm⟩
    rintro s3 t3 ⟨o, rfl, hg⟩
    have hm3 : s3.fp.mode = .test := hg.1.trans hm1
    refine Emits.congr (m' := scanFrom E c len (i + 1) vs) ?_ ?_
    · rw [if_neg fun h => h.1 hm3]
    · refine (ih (i + 1) s3 hm3).mono ?_ ?_
      · rintro s4 t4 ⟨⟨xs, h1, rfl⟩, h2⟩
        exact ⟨⟨(v, o) :: xs, by simp [h1], (hcons _ _).symm⟩, h2⟩
      · rintro t ⟨xs, h1, rfl⟩
        exact ⟨(v, o) :: xs, by simp [h1], (hcons _ _).symm⟩

/-- the scan of a fit, for any mode -/
def fitScan : Spec.Scan := ⟨c.nCb, c.nMu / c.muBs, c.bs, E.hasLoss, true⟩

theorem scanOf_train : scanOf E c .train = { fitScan E c with train := true } := by simp [scanOf, fitScan]
theorem scanOf_valid : scanOf E c .valid = { fitScan E c with train := false } := by simp [scanOf, fitScan]

theorem emits_runEpoch (ps : Passives V) (hlen : ps.len = ps.vols.length) (s : S W V P) (ht : s.fp.mode ≠ .test) :
    Emits (runEpoch E c ps) s
      (fun s' t => (∃ xs skips, xs.map (·.1) = ps.vols ∧ t = Spec.evs c.nCb .epochBegin ++ (Spec.scan (scanOf E c s.fp.mode) xs skips ++
        Spec.evs c.nCb .epochEnd)) ∧ s'.fp.epoch = s.fp.epoch)
      (fun t => ∃ xs skips, xs.map (·.1) = ps.vols ∧ t = Spec.evs c.nCb .epochBegin ++ (Spec.scan (scanOf E c s.fp.mode) xs skips ++
        Spec.evs c.nCb .epochEnd)) := by
  have exs : ∃ xs : List (V × Spec.Out), xs.map (·.1) = ps.vols := ⟨ps.vols.map fun v => (v, ⟨false, 0⟩), by simp [Function.comp_def]⟩
  obtain ⟨xs0, hxs0⟩ := exs
  unfold runEpoch
  refine Emits.after (fixed_cbs E c _) ⟨_, xs0, fun _ => false, hxs0, rfl⟩ fun s1 k1 => ?_
  have hs := emits_scan E c ps hlen s1 (by rw [k1.1]; exact ht)
  rw [k1.1] at hs
  refine Emits.seq (hs.mono (fun s' t h => h) ?_) ?_
  · rintro t ⟨xs, sk, h1, rfl⟩
    exact ⟨_, xs, sk, h1, rfl⟩
  rintro s2 t2 ⟨⟨xs, sk, h1, rfl⟩, h2, h3⟩
  refine (fixed_cbs E c .epochEnd s2).mono ?_ ?_
  · rintro s3 t3 ⟨rfl, k3⟩
    exact ⟨⟨xs, sk, h1, rfl⟩, k3.2.2.2.trans (h3.trans k1.2.2.2)⟩
  · rintro t rfl
    exact ⟨xs, sk, h1, rfl⟩

theorem emits_fitEpoch (trn : Passives V) (val : Option (Passives V)) (htrn : trn.len = trn.vols.length) (hval : ∀ v, val = some v → v.len = v.vols.length)
    (s : S W V P) :
    Emits (fitEpoch E c trn val) s
      (fun s' t => (∃ r, Spec.About trn.vols (val.map (·.vols)) r ∧ t = Spec.epoch (fitScan E c) val.isSome r) ∧ s'.fp.epoch = s.fp.epoch + 1)
      (fun t => ∃ r, Spec.About trn.vols (val.map (·.vols)) r ∧ t = Spec.epoch (fitScan E c) val.isSome r) := by
  have exs : ∀ vs : List V, ∃ xs : List (V × Spec.Out), xs.map (·.1) = vs := fun vs => ⟨vs.map fun v => (v, ⟨false, 0⟩), by simp [Function.comp_def]⟩
  -- any validation record
  have exv : ∃ ys : List (V × Spec.Out), ∀ v, val.map (·.vols) = some v → ys.map (·.1) = v := by
    cases val with
    | none => exact ⟨[], by simp⟩
    | some v => obtain ⟨ys, h⟩ := exs v.vols; exact ⟨ys, by rintro v hv; cases hv; exact h⟩
  obtain ⟨ys0, hys0⟩ := exv
  obtain ⟨xs0, hxs0⟩ := exs trn.vols
  have hep : ∀ xs sk ys, (Spec.epoch (fitScan E c) val.isSome ⟨xs, sk, ys⟩ : List (Act V)) = [] ++ ([.volMode true] ++ ([] ++ ((Spec.evs c.nCb .epochBegin ++
      (Spec.scan (scanOf E c .train) xs sk ++ Spec.evs c.nCb .epochEnd)) ++ if val.isSome then [.volMode false] ++ ([] ++ (Spec.evs c.nCb .epochBegin ++
        (Spec.scan (scanOf E c .valid) ys (fun _ => false) ++ Spec.evs c.nCb .epochEnd))) else []))) := by
    intro xs sk ys
    rw [scanOf_train, scanOf_valid]
    simp only [Spec.epoch, List.nil_append, List.append_assoc]
    rfl
  have scan_sk : ∀ (ys : List (V × Spec.Out)) sk, Spec.scan (scanOf E c .valid) ys sk = Spec.scan (scanOf E c .valid) ys (fun _ => false) := by
    intro ys sk
    have : (scanOf E c .valid).train = false := by simp [scanOf]
    simp [Spec.scan, Spec.batch, this]
  unfold fitEpoch
  refine Emits.seq (Q1 := fun s' t => t = [] ∧ s'.fp.epoch = s.fp.epoch + 1) ⟨[], by simp, rfl, rfl⟩ ?_
  rintro s1 t1 ⟨rfl, he1⟩
  refine Emits.after (fixed_call E _) ⟨_, ⟨xs0, fun _ => false, ys0⟩, ⟨hxs0, hys0⟩, (hep _ _ _).symm⟩ fun s2 k2 => ?_
  refine Emits.seq (Q1 := fun s' t => t = [] ∧ s'.fp.mode = .train ∧ s'.fp.epoch = s.fp.epoch + 1) ⟨[], by simp, rfl, rfl, k2.2.2.2.trans he1⟩ ?_
  rintro s3 t3 ⟨rfl, hm3, he3⟩
  have hr := emits_runEpoch E c trn htrn s3 (by rw [hm3]; decide)
  rw [hm3] at hr
  refine Emits.seq (hr.mono (fun s' t h => h) ?_) ?_
  · rintro t ⟨xs, sk, h1, rfl⟩
    exact ⟨_, ⟨xs, sk, ys0⟩, ⟨h1, hys0⟩, (hep _ _ _).symm⟩
  rintro s4 t4 ⟨⟨xs, sk, h1, rfl⟩, he4⟩
  cases hv : val with
  | none =>
    refine ⟨[], by simp [nop], ⟨⟨xs, sk, ys0⟩, ⟨h1, by simp⟩, ?_⟩, he4.trans he3⟩
    have := hep xs sk ys0
    rw [hv] at this
    exact this.symm
  | some v =>
    subst hv
    refine Emits.after (fixed_call E _) ⟨_, ⟨xs, sk, ys0⟩, ⟨h1, hys0⟩, (hep _ _ _).symm⟩ fun s5 k5 => ?_
    refine Emits.seq (Q1 := fun s' t => t = [] ∧ s'.fp.mode = .valid ∧ s'.fp.epoch = s.fp.epoch + 1)
      ⟨[], by simp, rfl, rfl, k5.2.2.2.trans (he4.trans he3)⟩ ?_
    rintro s6 t6 ⟨rfl, hm6, he6⟩
    have hr := emits_runEpoch E c v (hval v rfl) s6 (by rw [hm6]; decide)
    rw [hm6] at hr
    have key : ∀ ys sk', ys.map (·.1) = v.vols → ∃ r, Spec.About trn.vols (some v.vols) r ∧ [] ++ ([.volMode true] ++ ([] ++
        (Spec.evs c.nCb .epochBegin ++ (Spec.scan (scanOf E c .train) xs sk ++ Spec.evs c.nCb .epochEnd) ++ ([.volMode false] ++ ([] ++
          (Spec.evs c.nCb .epochBegin ++ (Spec.scan (scanOf E c .valid) ys sk' ++ Spec.evs c.nCb .epochEnd))))))) =
            Spec.epoch (fitScan E c) true r := by
      intro ys sk' hy
      refine ⟨⟨xs, sk, ys⟩, ⟨h1, by rintro w hw; cases hw; exact hy⟩, ?_⟩
      rw [scan_sk]
      exact (hep xs sk ys).symm
    refine hr.mono ?_ ?_
    · rintro s7 t7 ⟨⟨ys, sk', h7, rfl⟩, he7⟩
      exact ⟨key ys sk' h7, he7.trans he6⟩
    · rintro t ⟨ys, sk', h7, rfl⟩
      exact key ys sk' h7

theorem emits_epochs (trn : Passives V) (val : Option (Passives V)) (htrn : trn.len = trn.vols.length) (hval : ∀ v, val = some v → v.len = v.vols.length)
    (n : Nat) (s : S W V P) :
    Emits (epochs E c trn val n) s
      (fun s' t => ∃ rs : List (Spec.EpochRec V), rs.length ≤ n ∧ (∀ r ∈ rs, Spec.About trn.vols (val.map (·.vols)) r) ∧
        t = rs.flatMap (Spec.epoch (fitScan E c) val.isSome) ∧ s'.fp.epoch = s.fp.epoch + rs.length ∧ (s'.fp.stop = false → rs.length = n) ∧ (0 < n → rs ≠ []))
      (fun t => ∃ rs : List (Spec.EpochRec V), rs.length ≤ n ∧ (∀ r ∈ rs, Spec.About trn.vols (val.map (·.vols)) r) ∧
        t = rs.flatMap (Spec.epoch (fitScan E c) val.isSome)) := by
  induction n generalizing s with
  | zero => exact ⟨[], by simp [epochs, nop], [], by simp [epochs, nop]⟩
  | succ n ih =>
    unfold epochs
    refine Emits.seq ((emits_fitEpoch E c trn val htrn hval s).mono (fun s' t h => h) ?_) ?_
    · rintro t ⟨r, h1, rfl⟩
      exact ⟨[], [r], by simp, by simpa using h1, by simp⟩
    rintro s1 t1 ⟨⟨r, h1, rfl⟩, h2⟩
    by_cases hs : s1.fp.stop = true
    · unfold Emits
      simp only [if_pos hs]
      exact ⟨[], by simp, [r], by simp, by simpa using h1, by simp, by simp [h2], by simp [hs], by simp⟩
    · refine Emits.congr (m' := epochs E c trn val n) (by rw [if_neg hs]) ((ih s1).mono ?_ ?_)
      · rintro s2 t2 ⟨rs, h3, h4, rfl, h5, h6, -⟩
        refine ⟨r :: rs, by simpa using h3, ?_, by simp, by simp only [List.length_cons]; omega, fun h => by simp [h6 h], by simp⟩
        intro r' hr'
        rcases List.mem_cons.mp hr' with rfl | hr'
        · exact h1
        · exact h4 r' hr'
      · rintro t ⟨rs, h3, h4, rfl⟩
        refine ⟨r :: rs, by simpa using h3, ?_, by simp⟩
        intro r' hr'
        rcases List.mem_cons.mp hr' with rfl | hr'
        · exact h1
        · exact h4 r' hr'

theorem emits_fitBody (n : Nat) (trn : Passives V) (val : Option (Passives V)) (htrn : trn.len = trn.vols.length)
    (hval : ∀ v, val = some v → v.len = v.vols.length) (s : S W V P) :
    Emits (fitBody E c n trn val) s
      (fun s' t => ∃ rs : List (Spec.EpochRec V), rs.length ≤ n ∧ (∀ r ∈ rs, Spec.About trn.vols (val.map (·.vols)) r) ∧
        t = Spec.fit (fitScan E c) val.isSome rs ∧ s'.fp.epoch = s.fp.epoch + rs.length ∧ (0 < n → rs ≠ []))
      (fun t => ∃ rs : List (Spec.EpochRec V), rs.length ≤ n ∧ (∀ r ∈ rs, Spec.About trn.vols (val.map (·.vols)) r) ∧
        t = Spec.fit (fitScan E c) val.isSome rs) := by
  have hf : ∀ rs : List (Spec.EpochRec V), Spec.fit (fitScan E c) val.isSome rs = Spec.evs c.nCb .setWrapper ++ (Spec.evs c.nCb .trainBegin ++
      (rs.flatMap (Spec.epoch (fitScan E c) val.isSome) ++ Spec.evs c.nCb .trainEnd)) := by
    intro rs
    simp only [Spec.fit, List.append_assoc]
    rfl
  unfold fitBody
  refine Emits.after (fixed_cbs E c _) ⟨_, [], by simp, by simp, (hf []).symm⟩ fun s1 k1 => ?_
  refine Emits.after (fixed_cbs E c _) ⟨_, [], by simp, by simp, (hf []).symm⟩ fun s2 k2 => ?_
  refine Emits.seq ((emits_epochs E c trn val htrn hval n s2).mono (fun s' t h => h) ?_) ?_
  · rintro t ⟨rs, h1, h2, rfl⟩
    exact ⟨_, rs, h1, h2, (hf rs).symm⟩
  rintro s3 t3 ⟨rs, h1, h2, rfl, h3, -, h0⟩
  refine (fixed_cbs E c .trainEnd s3).mono ?_ ?_
  · rintro s4 t4 ⟨rfl, k4⟩
    refine ⟨rs, h1, h2, (hf rs).symm, ?_, h0⟩
    rw [k4.2.2.2, h3, k2.2.2.2, k1.2.2.2]
  · rintro t rfl
    exact ⟨rs, h1, h2, (hf rs).symm⟩

/-- the scan of a prediction -/
def predScan : Spec.Scan := ⟨c.nCb, c.nMu / c.muBs, c.bs, false, false⟩

theorem emits_predictBody (ps : Passives V) (s : S W V P) (ht : s.fp.mode = .test) :
    Emits (predictBody E c ps) s
      (fun _ t => ∃ xs, xs.map (·.1) = ps.vols ∧ t = Spec.predict (predScan c) xs)
      (fun t => ∃ xs, xs.map (·.1) = ps.vols ∧ t = Spec.predict (predScan c) xs) := by
  have hsc : scanOf E c .test = predScan c := by simp [scanOf, predScan]
  have hf : ∀ xs : List (V × Spec.Out), Spec.predict (predScan c) xs = Spec.evs c.nCb .setWrapper ++ ([.volMode false] ++ (Spec.evs c.nCb .predBegin ++
      (Spec.scanTest (scanOf E c .test) xs ++ Spec.evs c.nCb .predEnd))) := by
    intro xs
    rw [hsc]
    simp only [Spec.predict, List.append_assoc]
    rfl
  have exs : ∃ xs : List (V × Spec.Out), xs.map (·.1) = ps.vols := ⟨ps.vols.map fun v => (v, ⟨false, 0⟩), by simp [Function.comp_def]⟩
  obtain ⟨xs0, hxs0⟩ := exs
  unfold predictBody
  refine Emits.after (fixed_cbs E c _) ⟨_, xs0, hxs0, (hf _).symm⟩ fun s1 k1 => ?_
  refine Emits.after (fixed_call E _) ⟨_, xs0, hxs0, (hf _).symm⟩ fun s2 k2 => ?_
  refine Emits.after (fixed_cbs E c _) ⟨_, xs0, hxs0, (hf _).symm⟩ fun s3 k3 => ?_
  have hm : s3.fp.mode = .test := by rw [k3.1, k2.1, k1.1, ht]
  refine Emits.seq ((emits_scanTest E c ps.len ps.vols 0 s3 hm).mono (fun s' t h => h) ?_) ?_
  · rintro t ⟨xs, h1, rfl⟩
    exact ⟨_, xs, h1, (hf _).symm⟩
  rintro s4 t4 ⟨⟨xs, h1, rfl⟩, -⟩
  refine (fixed_cbs E c .predEnd s4).mono ?_ ?_
  · rintro s5 t5 ⟨rfl, -⟩
    exact ⟨xs, h1, (hf _).symm⟩
  · rintro t rfl
    exact ⟨xs, h1, (hf _).symm⟩

end Fit

end

end Tomopt
