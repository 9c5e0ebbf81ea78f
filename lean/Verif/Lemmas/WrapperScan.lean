import Verif.Lemmas.Wrapper

/- The scan over volumes, epochs and whole fits. -/
namespace Tomopt

noncomputable section

namespace Fit

variable {W V P : Type} (E : Env W V P) (c : Conf)

theorem Emits.congr {m m' : Prog W V P} {s : S W V P} {Q : S W V P → List (Act V) → Prop} {L : List (Act V) → Prop} (e : m s = m' s) (h : Emits m' s Q L) :
    Emits m s Q L := by
  unfold Emits at h ⊢
  rw [e]
  exact h

theorem emits_update (s : S W V P) :
    Emits (update E c) s (fun s' t => (∃ skip, t = Spec.update c.nCb s.fp.meanLoss skip) ∧ Keeps s s')
      (fun t => ∃ skip, t = Spec.update c.nCb s.fp.meanLoss skip) := by
  have hu : ∀ skip, (Spec.update c.nCb s.fp.meanLoss skip : List (Act V)) = [.zeroGrad] ++ (Spec.evs c.nCb .backBegin ++ (s.fp.meanLoss.toList.map .backward ++
      (Spec.evs c.nCb .backEnd ++ ((if s.fp.meanLoss.isSome = true ∧ skip = false then [.step] else []) ++ (Spec.evs c.nCb .stepEnd ++ [.conform]))))) := by
    intro skip; simp only [Spec.update, List.append_assoc]
  unfold update
  refine Emits.after (fixed_call E _) ⟨_, false, (hu false).symm⟩ fun s1 k1 => ?_
  refine Emits.after (fixed_cbs E c _) ⟨_, false, (hu false).symm⟩ fun s2 k2 => ?_
  have hb : Fixed (fun s' : S W V P => (match s.fp.meanLoss with
      | some x => call E (.backward x)
      | none => nop) s') (s.fp.meanLoss.toList.map .backward) := by
    cases s.fp.meanLoss with
    | none => exact fixed_nop
    | some x => exact fixed_call E _
  refine Emits.seq (Q1 := fun s' t' => t' = s.fp.meanLoss.toList.map .backward ∧ Keeps s2 s') ?_ ?_
  · have := hb s2
    have e : s2.fp.meanLoss = s.fp.meanLoss := k2.2.2.1.trans k1.2.2.1
    refine Emits.congr (m' := fun s' : S W V P => (match s.fp.meanLoss with
      | some x => call E (.backward x)
      | none => nop) s') (by simp only [e]; cases s.fp.meanLoss <;> rfl) (this.mono (fun _ _ h => h) ?_)
    rintro t rfl
    exact ⟨_, false, (hu false).symm⟩
  rintro s3 t3 ⟨rfl, k3⟩
  refine Emits.after (fixed_cbs E c _) ⟨_, false, (hu false).symm⟩ fun s4 k4 => ?_
  have k := ((k1.trans k2).trans k3).trans k4
  -- what comes last
  have hlast := (fixed_cbs E c .stepEnd).seq (fixed_call E .conform)
  refine Emits.seq (Q1 := fun s' t' => t' = (if s.fp.meanLoss.isSome = true ∧ s4.fp.skip = false then [.step] else []) ∧ Keeps s4 s') ?_ ?_
  · by_cases hc : s.fp.meanLoss.isSome = true ∧ s4.fp.skip = false
    · have hc' : s4.fp.meanLoss.isSome = true ∧ s4.fp.skip = false := by rw [k.2.2.1]; exact hc
      have := fixed_call E .step s4
      unfold Emits at this ⊢
      simp only [if_pos hc, if_pos hc']
      refine Emits.mono (m := call E .step) this (fun _ _ h => h) ?_
      rintro t rfl
      exact ⟨Spec.evs c.nCb .stepEnd ++ [.conform], s4.fp.skip, by rw [hu, if_pos hc]⟩
    · have hc' : ¬ (s4.fp.meanLoss.isSome = true ∧ s4.fp.skip = false) := by rw [k.2.2.1]; exact hc
      unfold Emits
      simp only [if_neg hc, if_neg hc']
      exact ⟨[], by simp, rfl, Keeps.refl _⟩
  rintro s5 t5 ⟨rfl, k5⟩
  refine (hlast s5).mono ?_ ?_
  · rintro s6 t6 ⟨rfl, k6⟩
    exact ⟨⟨s4.fp.skip, by rw [hu]⟩, (k.trans k5).trans k6⟩
  · rintro t rfl
    exact ⟨s4.fp.skip, by rw [hu]⟩

/-- the running loss after volumes with the given losses -/
def total (ls : List (Option ℝ)) : Option ℝ := ls.foldl plus none

theorem total_snoc (ls : List (Option ℝ)) (l : Option ℝ) : total (ls ++ [l]) = plus (total ls) l := by
  simp [total, List.foldl_append]

theorem foldl_plus_some (ls : List (Option ℝ)) (y : ℝ) : ls.foldl plus (some y) = some (y + (ls.filterMap id).sum) := by
  induction ls generalizing y with
  | nil => simp
  | cons l ls ih =>
    cases l with
    | none => simpa [plus] using ih y
    | some x =>
      simp only [List.foldl_cons, plus, ih, List.filterMap_cons, id, List.sum_cons]
      rw [add_assoc]

theorem total_eq (b : Nat) (ls : List (Option ℝ)) : (total ls).map (· / (b : ℝ)) = Spec.batchLoss b ls := by
  unfold Spec.batchLoss total
  induction ls with
  | nil => simp
  | cons l ls ih =>
    cases l with
    | none =>
      simp only [List.foldl_cons, plus]
      rw [ih]
      simp
    | some x =>
      simp only [List.foldl_cons, plus, foldl_plus_some]
      rw [if_neg (by simp)]
      simp

theorem emits_batchEnd (s : S W V P) (ls : List (Option ℝ)) (hl : s.fp.lossVal = total ls) (ht : s.fp.mode ≠ .test) :
    Emits (batchEnd E c) s
      (fun s' t => (∃ skip, t = Spec.evs c.nCb .volBatchEnd ++ if (scanOf E c s.fp.mode).train then Spec.update c.nCb (Spec.batchLoss c.bs ls) skip else []) ∧
        s'.fp.mode = s.fp.mode ∧ s'.fp.epoch = s.fp.epoch)
      (fun t => ∃ skip, t = Spec.evs c.nCb .volBatchEnd ++ if (scanOf E c s.fp.mode).train then Spec.update c.nCb (Spec.batchLoss c.bs ls) skip else []) := by
  unfold batchEnd
  refine Emits.seq (Q1 := fun s' t => t = [] ∧ s'.fp.mode = s.fp.mode ∧ s'.fp.epoch = s.fp.epoch ∧ s'.fp.meanLoss = Spec.batchLoss c.bs ls) ?_ ?_
  · refine ⟨[], by simp, rfl, rfl, rfl, ?_⟩
    simp only [hl]
    exact total_eq c.bs ls
  rintro s1 t1 ⟨rfl, h1, h1e, h2⟩
  refine Emits.after (fixed_cbs E c _) ⟨_, false, rfl⟩ fun s2 k2 => ?_
  have hm : s2.fp.mode = s.fp.mode := k2.1.trans h1
  have he : s2.fp.epoch = s.fp.epoch := k2.2.2.2.trans h1e
  by_cases htr : s.fp.mode = .train
  · have hm' : s2.fp.mode = .train := hm.trans htr
    have ht' : (scanOf E c s.fp.mode).train = true := by simp [scanOf, htr]
    have := emits_update E c s2
    rw [k2.2.2.1, h2] at this
    have e : (fun s : S W V P => (if s.fp.mode = .train then update E c else nop) s) s2 = update E c s2 := by simp only [hm', if_true]
    unfold Emits at this ⊢
    rw [e]
    refine Emits.mono (m := update E c) this ?_ ?_
    · rintro s3 t3 ⟨⟨skip, rfl⟩, k3⟩
      exact ⟨⟨skip, by rw [ht']; simp⟩, k3.1.trans hm, k3.2.2.2.trans he⟩
    · rintro t ⟨skip, rfl⟩
      exact ⟨skip, by rw [ht']; simp⟩
  · have hm' : s2.fp.mode ≠ .train := by rw [hm]; exact htr
    have ht' : (scanOf E c s.fp.mode).train = false := by simp [scanOf, htr]
    unfold Emits
    simp only [if_neg hm']
    exact ⟨[], by simp, ⟨false, by rw [ht']; simp⟩, hm, he⟩

/-- the trace from the `i`-th volume on, following the loop -/
def rest (p : Spec.Scan) (len : Nat) (skips : Nat → Bool) : Nat → List (Option ℝ) → List (V × Spec.Out) → List (Act V)
  | _, _, [] => []
  | i, acc, x :: xs =>
    let acc' := (if i % p.b = 0 then [] else acc) ++ [Spec.lossOf p.counted x.2]
    (if i % p.b = 0 then Spec.evs p.n .volBatchBegin else []) ++ (Spec.vol p x ++
      if (i + 1) % p.b = 0 then
        (Spec.evs p.n .volBatchEnd ++ if p.train then Spec.update p.n (Spec.batchLoss p.b acc') (skips (i / p.b)) else []) ++
          if len < p.b + (i + 1) then [] else rest p len skips (i + 1) [] xs
      else rest p len skips (i + 1) acc' xs)

/-- only the entries from the current batch on matter -/
theorem rest_skips (p : Spec.Scan) (len : Nat) (sk sk' : Nat → Bool) (xs : List (V × Spec.Out)) (i : Nat) (acc : List (Option ℝ))
    (h : ∀ j, i / p.b ≤ j → sk j = sk' j) : rest p len sk i acc xs = rest p len sk' i acc xs := by
  induction xs generalizing i acc with
  | nil => rfl
  | cons x xs ih =>
    have hmono : i / p.b ≤ (i + 1) / p.b := Nat.div_le_div_right (Nat.le_succ i)
    unfold rest
    simp only
    rw [h _ (le_refl _), ih (i + 1) [] fun j hj => h j (le_trans hmono hj), ih (i + 1) _ fun j hj => h j (le_trans hmono hj)]

theorem emits_scanFrom (len : Nat) (hb : 0 < c.bs) (vs : List V) (i : Nat) (acc : List (Option ℝ)) (s : S W V P) (ht : s.fp.mode ≠ .test)
    (hl : i % c.bs ≠ 0 → s.fp.lossVal = total acc) :
    Emits (scanFrom E c len i vs) s
      (fun s' t => (∃ xs skips, xs.map (·.1) = vs ∧ t = rest (scanOf E c s.fp.mode) len skips i acc xs) ∧ s'.fp.mode = s.fp.mode ∧ s'.fp.epoch = s.fp.epoch)
      (fun t => ∃ xs skips, xs.map (·.1) = vs ∧ t = rest (scanOf E c s.fp.mode) len skips i acc xs) := by
  have exs : ∀ vs : List V, ∃ xs : List (V × Spec.Out), xs.map (·.1) = vs := fun vs => ⟨vs.map fun v => (v, ⟨false, 0⟩), by simp [Function.comp_def]⟩
  induction vs generalizing i acc s with
  | nil =>
    unfold scanFrom
    exact ⟨[], by simp [nop], ⟨[], fun _ => false, rfl, rfl⟩, rfl, rfl⟩
  | cons v vs ih =>
    obtain ⟨xs0, hxs0⟩ := exs vs
    set p := scanOf E c s.fp.mode with hp
    have hpb : p.b = c.bs := rfl
    have hpn : p.n = c.nCb := rfl
    have hany : ∀ o : Spec.Out, ∃ xs skips, xs.map (·.1) = v :: vs ∧ rest p len (fun _ => false) i acc ((v, o) :: xs0) = rest p len skips i acc xs :=
      fun o => ⟨(v, o) :: xs0, fun _ => false, by simp [hxs0], rfl⟩
    have hsome : ∀ (o : Spec.Out) (sk : Nat → Bool) xs1, xs1.map (·.1) = vs → ∃ xs skips, xs.map (·.1) = v :: vs ∧
        rest p len sk i acc ((v, o) :: xs1) = rest p len skips i acc xs := fun o sk xs1 h => ⟨(v, o) :: xs1, sk, by simp [h], rfl⟩
    have hrest : ∀ (o : Spec.Out) (sk : Nat → Bool) (xs : List (V × Spec.Out)), rest p len sk i acc ((v, o) :: xs) =
      [] ++ ((if i % c.bs = 0 then Spec.evs c.nCb .volBatchBegin else []) ++ (Spec.vol p (v, o) ++
      if (i + 1) % c.bs = 0 then
        (Spec.evs c.nCb .volBatchEnd ++ if p.train then Spec.update c.nCb (Spec.batchLoss c.bs ((if i % c.bs = 0 then [] else acc) ++ [Spec.lossOf p.counted o]))
          (sk (i / c.bs)) else []) ++ if len < c.bs + (i + 1) then [] else rest p len sk (i + 1) [] xs
      else rest p len sk (i + 1) ((if i % c.bs = 0 then [] else acc) ++ [Spec.lossOf p.counted o]) xs)) := fun o sk xs => rfl
    unfold scanFrom
    refine Emits.after (fixed_setFp _ fun x => ⟨rfl, rfl, rfl, rfl⟩) ?_ fun s1 k1 => ?_
    · obtain ⟨xs, sk, h1, h2⟩ := hany ⟨false, 0⟩
      exact ⟨_, xs, sk, h1, h2⟩
    -- start of the batch
    have hm1 : s1.fp.mode = s.fp.mode := k1.1
    refine Emits.seq (Q1 := fun s' t => t = (if i % c.bs = 0 then Spec.evs c.nCb .volBatchBegin else []) ∧ s'.fp.mode = s.fp.mode ∧
      s'.fp.epoch = s.fp.epoch ∧ s'.fp.lossVal = total (if i % c.bs = 0 then [] else acc)) ?_ ?_
    · have e : batchBegin E c i s1 = (if i % c.bs = 0 then setFp (fun f => { f with lossVal := none }) ;; cbs E c .volBatchBegin else nop) s1 := by
        unfold batchBegin
        rw [if_neg (by rw [hm1]; exact ht), if_neg (by omega)]
      unfold Emits
      rw [e]
      change Emits (if i % c.bs = 0 then setFp (fun f => { f with lossVal := none }) ;; cbs E c .volBatchBegin else nop) s1 _ _
      by_cases hi : i % c.bs = 0
      · rw [if_pos hi, if_pos hi]
        refine Emits.seq (Q1 := fun s' t => t = [] ∧ s'.fp.mode = s.fp.mode ∧ s'.fp.epoch = s.fp.epoch ∧ s'.fp.lossVal = none)
          ⟨[], by simp, rfl, hm1, k1.2.2.2, rfl⟩ ?_
        rintro s2 t2 ⟨rfl, a, b, d⟩
        refine (fixed_cbs E c .volBatchBegin s2).mono ?_ ?_
        · rintro s3 t3 ⟨rfl, k3⟩
          exact ⟨rfl, k3.1.trans a, k3.2.2.2.trans b, by rw [if_pos hi, k3.2.1, d]; rfl⟩
        · rintro t rfl
          obtain ⟨xs, sk, h1, h2⟩ := hany ⟨false, 0⟩
          rw [hrest, if_pos hi] at h2
          exact ⟨_, xs, sk, h1, h2⟩
      · rw [if_neg hi, if_neg hi]
        exact ⟨[], by simp [nop], rfl, hm1, k1.2.2.2, by rw [if_neg hi, k1.2.1, hl hi]⟩
    rintro s2 t2 ⟨rfl, hm2, he2, hl2⟩
    -- the volume
    refine Emits.seq ((emits_oneVolume E c s2 v).mono (fun s' t h => h) ?_) ?_
    · rintro t ⟨o, rfl⟩
      obtain ⟨xs, sk, h1, h2⟩ := hany o
      exact ⟨_, xs, sk, h1, by rw [← h2, hrest, hm2]⟩
    rintro s3 t3 ⟨o, rfl, hg⟩
    have hm3 : s3.fp.mode = s.fp.mode := hg.1.trans hm2
    have he3 : s3.fp.epoch = s.fp.epoch := hg.2.2.trans he2
    have hl3 : s3.fp.lossVal = total ((if i % c.bs = 0 then [] else acc) ++ [Spec.lossOf p.counted o]) := by
      rw [total_snoc, hg.2.1, hl2, hm2]
    generalize hacc : (if i % c.bs = 0 then [] else acc) ++ [Spec.lossOf p.counted o] = acc' at hl3 hrest
    have hrest' : ∀ (sk : Nat → Bool) (xs : List (V × Spec.Out)), rest p len sk i acc ((v, o) :: xs) =
      [] ++ ((if i % c.bs = 0 then Spec.evs c.nCb .volBatchBegin else []) ++ (Spec.vol p (v, o) ++
      if (i + 1) % c.bs = 0 then
        (Spec.evs c.nCb .volBatchEnd ++ if p.train then Spec.update c.nCb (Spec.batchLoss c.bs acc') (sk (i / c.bs)) else []) ++
          if len < c.bs + (i + 1) then [] else rest p len sk (i + 1) [] xs
      else rest p len sk (i + 1) acc' xs)) := by intro sk xs; rw [← hacc]; rfl
    by_cases hi : (i + 1) % c.bs = 0
    · -- end of the batch
      have e : (fun s : S W V P => (if s.fp.mode ≠ .test ∧ (i + 1) % c.bs = 0 then
          batchEnd E c ;; if len < c.bs + (i + 1) then nop else scanFrom E c len (i + 1) vs
        else scanFrom E c len (i + 1) vs) s) s3 = (batchEnd E c ;; if len < c.bs + (i + 1) then nop else scanFrom E c len (i + 1) vs) s3 := by
        simp only
        rw [if_pos ⟨by rw [hm3]; exact ht, hi⟩]
      unfold Emits
      rw [e]
      change Emits (batchEnd E c ;; if len < c.bs + (i + 1) then nop else scanFrom E c len (i + 1) vs) s3 _ _
      have hbe := emits_batchEnd E c s3 acc' hl3 (by rw [hm3]; exact ht)
      rw [hm3] at hbe
      refine Emits.seq (hbe.mono (fun s' t h => h) ?_) ?_
      · rintro t ⟨skip, rfl⟩
        obtain ⟨xs, sk, h1, h2⟩ := hsome o (fun _ => skip) xs0 hxs0
        rw [hrest', if_pos hi] at h2
        rw [hm2]
        exact ⟨_, xs, sk, h1, h2⟩
      rintro s4 t4 ⟨⟨skip, rfl⟩, hm4, he4⟩
      have hm4' : s4.fp.mode = s.fp.mode := hm4
      by_cases hbr : len < c.bs + (i + 1)
      · rw [if_pos hbr]
        obtain ⟨xs, sk, h1, h2⟩ := hsome o (fun _ => skip) xs0 hxs0
        refine ⟨[], by simp [nop], ⟨xs, sk, h1, ?_⟩, hm4', he4.trans he3⟩
        rw [← h2, hrest', if_pos hi, if_pos hbr, hm2]
      · rw [if_neg hbr]
        have := ih (i + 1) [] s4 (by rw [hm4']; exact ht) (fun h => absurd hi h)
        rw [hm4', ← hp] at this
        -- use `skip` for this batch and what follows for the others
        have key : ∀ xs sk, xs.map (·.1) = vs → ∃ xs' sk', xs'.map (·.1) = v :: vs ∧ [] ++ ((if i % c.bs = 0 then Spec.evs c.nCb .volBatchBegin else []) ++
            (Spec.vol (scanOf E c s2.fp.mode) (v, o) ++ ((Spec.evs c.nCb .volBatchEnd ++
              if p.train then Spec.update c.nCb (Spec.batchLoss c.bs acc') skip else []) ++ rest p len sk (i + 1) [] xs))) =
            rest p len sk' i acc xs' := by
          intro xs sk hxs
          obtain ⟨xs', sk', h1, h2⟩ := hsome o (fun j => if j = i / c.bs then skip else sk j) xs hxs
          refine ⟨xs', sk', h1, ?_⟩
          rw [← h2, hrest', if_pos hi, if_neg hbr, hm2]
          simp only [if_true]
          rw [rest_skips p len sk (fun j => if j = i / c.bs then skip else sk j) xs (i + 1) []]
          intro j hj
          have : i / c.bs < (i + 1) / c.bs := by
            rw [Nat.succ_div_of_dvd (Nat.dvd_of_mod_eq_zero hi)]
            omega
          have hj' : (i + 1) / c.bs ≤ j := hj
          rw [if_neg (by omega)]
        refine this.mono ?_ ?_
        · rintro s5 t5 ⟨⟨xs, sk, hxs, rfl⟩, hm5, he5⟩
          exact ⟨key xs sk hxs, hm5, he5.trans (he4.trans he3)⟩
        · rintro t ⟨xs, sk, hxs, rfl⟩
          exact key xs sk hxs
    · have e : (fun s : S W V P => (if s.fp.mode ≠ .test ∧ (i + 1) % c.bs = 0 then
          batchEnd E c ;; if len < c.bs + (i + 1) then nop else scanFrom E c len (i + 1) vs
        else scanFrom E c len (i + 1) vs) s) s3 = scanFrom E c len (i + 1) vs s3 := by
        simp only
        rw [if_neg fun h => hi h.2]
      unfold Emits
      rw [e]
      change Emits (scanFrom E c len (i + 1) vs) s3 _ _
      have := ih (i + 1) acc' s3 (by rw [hm3]; exact ht) (fun _ => hl3)
      rw [hm3, ← hp] at this
      have key : ∀ xs sk, xs.map (·.1) = vs → ∃ xs' sk', xs'.map (·.1) = v :: vs ∧ [] ++ ((if i % c.bs = 0 then Spec.evs c.nCb .volBatchBegin else []) ++
            (Spec.vol (scanOf E c s2.fp.mode) (v, o) ++ rest p len sk (i + 1) acc' xs)) = rest p len sk' i acc xs' := by
        intro xs sk hxs
        obtain ⟨xs', sk', h1, h2⟩ := hsome o sk xs hxs
        refine ⟨xs', sk', h1, ?_⟩
        rw [← h2, hrest', if_neg hi, hm2]
      refine this.mono ?_ ?_
      · rintro s5 t5 ⟨⟨xs, sk, hxs, rfl⟩, hm5, he5⟩
        exact ⟨key xs sk hxs, hm5, he5.trans he3⟩
      · rintro t ⟨xs, sk, hxs, rfl⟩
        exact key xs sk hxs

end Fit

end

end Tomopt
