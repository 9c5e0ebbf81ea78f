import Verif.Lemmas.Report

/- C153: what is printed during a fit, the best value of the main metric, and the animation of the plots. -/
namespace Tomopt

noncomputable section

namespace C153

open Report Fit

theorem batches_length {V : Type} (p : Spec.Scan) (xs : List (V × Spec.Out)) : (C51.batchLosses p xs).length = xs.length / p.b := by simp [C51.batchLosses]

/-- **C153: order.** After every fit with validation that ends normally: the training losses are those of the complete batches of every epoch, one epoch after another, that of batch `j` of epoch `e`
(counted from zero) at place `e * n + j` where `n` is the number of complete batches of training volumes. -/
theorem order {W V P C : Type} (E : Env W V P) (c : Conf) (hb : 0 < c.bs) (k : Nat) (lg : W → Logger) (hlog : Logs E k lg) (mkdir : W → Except Err Unit × W) (N : Nat) (trn val : Passives V)
    (htrn : trn.len = trn.vols.length) (hval : val.len = val.vols.length ∧ c.bs ≤ val.vols.length) (o o' : Outer W V P C) (hk : k < o.cbList.length)
    (h : fit E c mkdir N trn (some val) o = (.ok (), o')) :
    ∃ (p : Spec.Scan) (rs : List (Spec.EpochRec V)), p = ⟨o.cbList.length, c.nMu / c.muBs, c.bs, E.hasLoss, true⟩ ∧ rs.length ≤ N ∧ (∀ r ∈ rs, Spec.About trn.vols (some val.vols) r) ∧
      o'.log = o.log ++ Spec.fit p true rs ∧ (lg o'.w).trn.length = rs.length * (trn.vols.length / c.bs) ∧
      ∀ (e : Nat) (r : Spec.EpochRec V), rs[e]? = some r → ∀ j < trn.vols.length / c.bs, (lg o'.w).trn[e * (trn.vols.length / c.bs) + j]? = (C51.batchLosses p r.trn)[j]?.map itemOr := by
  obtain ⟨p, rs, hp, h1, h2, h3, h4, h5, -, -⟩ := C51.histories_run E c hb k lg hlog mkdir N trn (some val) htrn (fun v hv => by cases hv; exact hval) o o' hk h
  have hlen : ∀ r ∈ rs, ((C51.batchLosses p r.trn).map itemOr).length = trn.vols.length / c.bs := by
    intro r hr
    rw [List.length_map, batches_length, ← (h2 r hr).1, List.length_map, hp]
  obtain ⟨g1, g2⟩ := flatMap_get (fun r : Spec.EpochRec V => (C51.batchLosses p r.trn).map itemOr) _ rs hlen
  refine ⟨p, rs, hp, h1, h2, h3, by rw [h4, g1], fun e r hr j hj => ?_⟩
  rw [h4, g2 e r hr j hj, List.getElem?_map]

/-- the last block of equal blocks -/
theorem lastN_blocks {β γ : Type} (f : β → List γ) (n : Nat) (l : List β) (b : β) (hl : l.getLast? = some b) (hn : 0 < n) (hlen : ∀ b ∈ l, (f b).length = n) : lastN n (l.flatMap f) = f b := by
  obtain ⟨ys, rfl⟩ := List.getLast?_eq_some_iff.mp hl
  have h1 := hlen b (by simp)
  rw [lastN, if_neg hn.ne', List.flatMap_append, List.flatMap_cons, List.flatMap_nil, List.append_nil, List.length_append, h1, Nat.add_sub_cancel, List.drop_left]

/-- **C153: printed.** After a fit with validation of at least one epoch that ends normally, with metrics that each have a value: printed are the number of epochs run, the average training loss of the
complete batches of the last epoch, the validation loss of the last epoch, and all metrics in order with their last values. Without a complete batch of training volumes the training loss is not a number. -/
theorem printed {W V P C : Type} (E : Env W V P) (c : Conf) (hb : 0 < c.bs) (k : Nat) (lg : W → Logger) (hlog : Logs E k lg) (mkdir : W → Except Err Unit × W) (N : Nat) (hN : 0 < N)
    (trn val : Passives V) (htrn : trn.len = trn.vols.length) (hval : val.len = val.vols.length ∧ c.bs ≤ val.vols.length) (o o' : Outer W V P C) (hk : k < o.cbList.length)
    (h : fit E c mkdir N trn (some val) o = (.ok (), o')) (ms : List Metric) (vals : List (List ℝ)) (hms : ms.length = vals.length) (hvals : ∀ v ∈ vals, v ≠ []) :
    ∃ (p : Spec.Scan) (rs : List (Spec.EpochRec V)) (r : Spec.EpochRec V) (out : Printed), p = ⟨o.cbList.length, c.nMu / c.muBs, c.bs, E.hasLoss, true⟩ ∧
      (∀ r ∈ rs, Spec.About trn.vols (some val.vols) r) ∧ o'.log = o.log ++ Spec.fit p true rs ∧ rs.getLast? = some r ∧
      printLosses (trn.vols.length / c.bs) (lg o'.w) ms vals = .ok out ∧ out.epoch = rs.length ∧
      out.training = (if c.bs ≤ trn.vols.length then C51.average (C51.batchLosses p r.trn) else .nan) ∧ out.validation = C51.average (C51.batchLosses p r.val) ∧
      out.metrics.map (·.1) = ms.map (·.name) ∧ out.metrics.map (fun x => some x.2) = vals.map (·.getLast?) := by
  obtain ⟨p, rs, hp, h1, h2, h3, h4, h5, h6, -⟩ := C51.histories_run E c hb k lg hlog mkdir N trn (some val) htrn (fun v hv => by cases hv; exact hval) o o' hk h
  have hne := h6 hN
  obtain ⟨m, m1, m2, m3⟩ := lastMetrics_ok ms vals hms hvals
  have hl := List.getLast?_eq_some_getLast hne
  have hv : (lg o'.w).val = rs.map fun r => C51.average (C51.batchLosses p r.val) := by simpa using h5
  refine ⟨p, rs, rs.getLast hne, ⟨(lg o'.w).val.length, npMean (lastN (trn.vols.length / c.bs) (lg o'.w).trn), C51.average (C51.batchLosses p (rs.getLast hne).val), m⟩, hp, h2, h3, hl, ?_, by simp [hv], ?_, rfl,
    m2, m3⟩
  · unfold printLosses
    rw [hv, List.getLast?_map, hl, Option.map_some]
    simp only [m1, hv]
  · have hlen : ∀ r ∈ rs, ((C51.batchLosses p r.trn).map itemOr).length = trn.vols.length / c.bs := by
      intro r hr
      rw [List.length_map, batches_length, ← (h2 r hr).1, List.length_map, hp]
    simp only [h4]
    by_cases hle : c.bs ≤ trn.vols.length
    · have hpos : 0 < trn.vols.length / c.bs := Nat.div_pos hle hb
      rw [if_pos hle, lastN_blocks _ _ rs _ hl hpos hlen]
      have hln := hlen _ (List.getLast_mem hne)
      have hnil : (C51.batchLosses p (rs.getLast hne).trn).map itemOr ≠ [] := by
        intro h0
        rw [h0] at hln
        simp at hln
        omega
      rw [npMean, if_neg hnil, List.length_map, C51.fdiv_fold]
    · have h0 : trn.vols.length / c.bs = 0 := Nat.div_eq_of_lt (by omega)
      rw [if_neg hle, h0, lastN, if_pos rfl]
      have : rs.flatMap (fun r => (C51.batchLosses p r.trn).map itemOr) = [] := by
        rw [List.flatMap_eq_nil_iff]
        intro r hr
        have := hlen r hr
        rw [h0] at this
        exact List.length_eq_zero_iff.mp this
      rw [this]
      rfl

/-- **C153: best.** The best value of the main metric is one of its values; none is smaller, or greater if greater is better. The main metric is the first one chosen as such, and the first of all if none is. -/
theorem best (ms : List Metric) (vals : List (List ℝ)) (hms : ms.length = vals.length) (hvals : ∀ v ∈ vals, v ≠ []) (hne : ms ≠ []) :
    ∃ (i : Nat) (m : Metric) (y : List ℝ) (b : ℝ), ms[i]? = some m ∧ vals[i]? = some y ∧ ((m.main = true ∧ ∀ (j : Nat) (a : Metric), j < i → ms[j]? = some a → a.main = false) ∨ i = 0 ∧ ∀ a ∈ ms, a.main = false) ∧
      metricBest ms vals = .ok (some (m.name, b)) ∧ b ∈ y ∧ ∀ x ∈ y, if m.lowerBetter then b ≤ x else x ≤ b := by
  have key : ∀ (i : Nat) (m : Metric), (mainMetric ms).1 = some i → ms[i]? = some m → ∃ (y : List ℝ) (b : ℝ), vals[i]? = some y ∧ metricBest ms vals = .ok (some (m.name, b)) ∧ b ∈ y ∧
      ∀ x ∈ y, if m.lowerBetter then b ≤ x else x ≤ b := by
    intro i m h1 h2
    have hi : i < vals.length := by
      rw [← hms]
      exact (List.getElem?_eq_some_iff.mp h2).1
    have hy := List.getElem?_eq_getElem hi
    generalize vals[i] = y at hy
    have hyne : y ≠ [] := hvals y (List.mem_of_getElem? hy)
    obtain ⟨x, xs, rfl⟩ := List.exists_cons_of_ne_nil hyne
    by_cases hb : m.lowerBetter = true
    · obtain ⟨g1, g2⟩ := npMin_spec xs x
      refine ⟨_, xs.foldl min x, hy, ?_, g1, ?_⟩
      · simp only [metricBest, h1, hy, h2, hb, if_true, npMin]
      · simpa [hb] using g2
    · obtain ⟨g1, g2⟩ := npMax_spec xs x
      refine ⟨_, xs.foldl max x, hy, ?_, g1, ?_⟩
      · simp [metricBest, h1, hy, h2, hb, npMax]
      · simpa [hb] using g2
  have hpos : ms.length > 0 := List.length_pos_iff.mpr hne
  cases hf : ms.findIdx? (·.main) with
  | some i =>
    obtain ⟨hi, h1, h2⟩ := List.findIdx?_eq_some_iff_getElem.mp hf
    have hm : (mainMetric ms).1 = some i := by simp only [mainMetric, if_pos hpos, hf]
    obtain ⟨y, b, k1, k2, k3, k4⟩ := key i _ hm (List.getElem?_eq_getElem hi)
    refine ⟨i, ms[i], y, b, List.getElem?_eq_getElem hi, k1, .inl ⟨h1, fun j a hj ha => ?_⟩, k2, k3, k4⟩
    obtain ⟨hj', rfl⟩ := List.getElem?_eq_some_iff.mp ha
    simpa using h2 j hj
  | none =>
    have hm : (mainMetric ms).1 = some 0 := by simp only [mainMetric, if_pos hpos, hf]
    obtain ⟨y, b, k1, k2, k3, k4⟩ := key 0 _ hm (List.getElem?_eq_getElem hpos)
    exact ⟨0, ms[0], y, b, List.getElem?_eq_getElem hpos, k1, .inr ⟨rfl, fun a ha => by simpa using List.findIdx?_eq_none_iff.mp hf a ha⟩, k2, k3, k4⟩

/-- **C153: animation.** Whatever happened before and whatever files there are: at the end of a training the animation consists of the figure as it was at the beginning of every training epoch, in order, and
as it is at the end, each shown equally long and all together as long as asked for. -/
theorem animation {Img : Type} (folder : String) (s : Gif.St Img) (first last : Img) (m m' : Mode) (mid : List (Ev × Mode × Img)) (hmid : ∀ x ∈ mid, x.1 ≠ .trainBegin ∧ x.1 ≠ .trainEnd) :
    ∃ s', acts folder ((.trainBegin, m, first) :: mid ++ [(.trainEnd, m', last)]) s = .ok s' ∧ s'.gif = some (pictures mid ++ [last]) ∧
      ∀ length : ℝ, (s'.buffer.length : ℝ) * frameTime length s'.buffer.length = length := by
  obtain ⟨t, h1, h2⟩ := acts_mid folder mid [] { s with buffer := [] } hmid ⟨by simp, by simp⟩
  have h3 := taken_snapshot h2 last
  have h4 := taken_read h3
  rw [List.nil_append] at h3 h4
  refine ⟨{ snapshot folder last t with gif := some (pictures mid ++ [last]) }, ?_, rfl, fun length => ?_⟩
  · rw [List.cons_append, acts, act]
    simp only
    rw [acts_append folder mid _ _ _ h1, acts, act]
    simp only [h4, acts]
  · simp only [h3.buffer, List.length_map, List.length_range, List.length_append, List.length_singleton, frameTime]
    push_cast
    field_simp

/-! ### Instances -/

/-- a logger as the only callback; every volume has the loss one -/
def demo : Env Logger Unit Unit where
  cb i e fp w :=
    if i = 0 then
      match logStep e (viewOf fp) w with
      | .ok l => (.ok (), ⟨fp.pred, fp.stop, fp.skip⟩, l)
      | .error x => (.error x, ⟨fp.pred, fp.stop, fp.skip⟩, w)
    else (.ok (), ⟨fp.pred, fp.stop, fp.skip⟩, w)
  prim _ _ w := (.ok (), w)
  pred _ w := (.ok (some ()), w)
  loss _ w := (.ok 1, w)
  hasLoss := true

example : Logs demo 0 id := by
  refine ⟨fun e fp w h => ?_, fun i e fp w hi => by simp [demo, hi], fun _ _ _ => rfl, fun _ _ => rfl, fun _ _ => rfl⟩
  simp only [demo, if_true, id] at h ⊢
  cases hs : logStep e (viewOf fp) w with
  | ok l => rfl
  | error x => rw [hs] at h; cases h

example : (fit demo ⟨0, 1, 1, 1⟩ (fun w => (.ok (), w)) 1 ⟨[(), ()], 2⟩ (some ⟨[()], 1⟩) (⟨none, ⟨[], [], .pinf, .num 0, 0⟩, [], [()], true⟩ : Outer Logger Unit Unit Unit)).1.isOk = true := by
  decide +kernel

/-- two epochs of two batches: printed is the average of the last two training losses -/
example : printLosses 2 ⟨[.num 9, .num 7, .num 4, .num 2], [.num 8, .num 5], .num 5, .num 0, 0⟩ [⟨"m", true, false⟩] [[3, 1]] = .ok ⟨2, .num 3, .num 5, [("m", 1)]⟩ := by
  simp [printLosses, lastMetrics, npMean, lastN, fadd, fdiv]
  norm_num

/-- the hypotheses of `best` with two metrics, the second being the main one -/
example : metricBest [⟨"a", true, false⟩, ⟨"b", false, true⟩] [[1, 2], [3, 5]] = .ok (some ("b", 5)) := by
  simp [metricBest, mainMetric, List.findIdx?_cons, npMax]
  norm_num

/-- two training epochs, the first with validation: three pictures -/
example : pictures [(.epochBegin, .train, 0), (.backEnd, .train, 1), (.epochBegin, .valid, 2), (.epochBegin, .train, 3)] = [0, 3] := by
  simp [pictures]

end C153

end

end Tomopt
