import Verif.Model.Monitor
import Verif.Lemmas.Replay
import Verif.Props.C40_43
import Mathlib.Tactic.Linarith
import Mathlib.Tactic.FieldSimp

/- C51: what the logger reports. C77: results of the best epoch. C78: one main metric. -/
namespace Tomopt

noncomputable section

open Fit

namespace C51

variable {W V P : Type}

/-- the losses of the complete batches of a scan, in order; `none` for a batch without any prediction -/
def batchLosses (p : Spec.Scan) (xs : List (V × Spec.Out)) : List (Option ℝ) :=
  (List.range (xs.length / p.b)).map fun j => Spec.batchLoss p.b (((xs.drop (j * p.b)).take p.b).map fun x => Spec.lossOf p.counted x.2)

/-- the average of batch losses: infinite if a batch has none -/
def average (ls : List (Option ℝ)) : XF := if none ∈ ls then .pinf else .num ((ls.filterMap id).sum / ls.length)

/-- what a logger does, `none` once it has raised -/
def obs (e : Ev) (v : View) (x : Option Logger) : Option Logger := x.bind fun l => (logStep e v l).toOption

theorem calm : Calm obs := by
  constructor <;> (intro v x; cases x <;> rfl)

theorem watches {E : Env W V P} {k : Nat} {lg : W → Logger} (h : Logs E k lg) : Watches E k (fun w => some (lg w)) obs := by
  refine ⟨?_, fun i e fp w hi => by rw [h.other i e fp w hi], fun a fp w => by rw [h.prim], fun fp w => by rw [h.pred], fun p w => by rw [h.loss]⟩
  intro e fp w hok
  unfold obs
  rw [Option.bind_some, h.self e fp w hok]
  rfl

theorem train_batch (p : Spec.Scan) (k : Nat) (hk : k < p.n) (hp : p.train = true) (xs : List (V × Spec.Out)) (skip : Bool) (v : View) (hv : v.mode = .train) (l : Logger) :
    ∃ v', v'.mode = .train ∧ v'.epoch = v.epoch ∧ (Spec.batch p xs skip).foldl (feed p.b k obs) (v, some l) =
      (v', some { l with trn := l.trn ++ [itemOr (Spec.batchLoss p.b (xs.map fun x => Spec.lossOf p.counted x.2))] }) := by
  refine ⟨after p xs v, hv, rfl, ?_⟩
  rw [replay_batch p hk calm]
  simp [hp, obs, logStep, after, hv, Except.toOption]

theorem valid_batch (p : Spec.Scan) (k : Nat) (hk : k < p.n) (hp : p.train = false) (xs : List (V × Spec.Out)) (skip : Bool) (v : View) (hv : v.mode = .valid) (l : Logger) :
    ∃ v', v'.mode = .valid ∧ v'.epoch = v.epoch ∧ (Spec.batch p xs skip).foldl (feed p.b k obs) (v, some l) =
      (v', some { l with tmp := fadd l.tmp (itemOr (Spec.batchLoss p.b (xs.map fun x => Spec.lossOf p.counted x.2))), cnt := l.cnt + 1 }) := by
  refine ⟨after p xs v, hv, rfl, ?_⟩
  rw [replay_batch p hk calm]
  simp [hp, obs, logStep, after, hv, Except.toOption]

/-- one logger after some batches -/
def addTrain (l : Logger) (ms : List (Option ℝ)) : Logger := { l with trn := l.trn ++ ms.map itemOr }
def addValid (l : Logger) (ms : List (Option ℝ)) : Logger := { l with tmp := (ms.map itemOr).foldl fadd l.tmp, cnt := l.cnt + ms.length }

theorem train_batches (p : Spec.Scan) (k : Nat) (hk : k < p.n) (hp : p.train = true) (g : Nat → List (V × Spec.Out)) (skips : Nat → Bool) (m : Nat) (v : View)
    (hv : v.mode = .train) (l : Logger) :
    ∃ v', v'.mode = .train ∧ v'.epoch = v.epoch ∧ ((List.range m).flatMap fun j => Spec.batch p (g j) (skips j)).foldl (feed p.b k obs) (v, some l) =
      (v', some (addTrain l ((List.range m).map fun j => Spec.batchLoss p.b ((g j).map fun x => Spec.lossOf p.counted x.2)))) := by
  induction m with
  | zero => exact ⟨v, hv, rfl, by simp [addTrain]⟩
  | succ m ih =>
    obtain ⟨v1, h1, h1e, e1⟩ := ih
    obtain ⟨v2, h2, h2e, e2⟩ := train_batch p k hk hp (g m) (skips m) v1 h1
      (addTrain l ((List.range m).map fun j => Spec.batchLoss p.b ((g j).map fun x => Spec.lossOf p.counted x.2)))
    refine ⟨v2, h2, h2e.trans h1e, ?_⟩
    rw [List.range_succ, List.flatMap_append, List.foldl_append, e1, List.flatMap_cons, List.flatMap_nil, List.append_nil, e2]
    simp [addTrain, List.map_append]

theorem valid_batches (p : Spec.Scan) (k : Nat) (hk : k < p.n) (hp : p.train = false) (g : Nat → List (V × Spec.Out)) (skips : Nat → Bool) (m : Nat) (v : View)
    (hv : v.mode = .valid) (l : Logger) :
    ∃ v', v'.mode = .valid ∧ v'.epoch = v.epoch ∧ ((List.range m).flatMap fun j => Spec.batch p (g j) (skips j)).foldl (feed p.b k obs) (v, some l) =
      (v', some (addValid l ((List.range m).map fun j => Spec.batchLoss p.b ((g j).map fun x => Spec.lossOf p.counted x.2)))) := by
  induction m with
  | zero => exact ⟨v, hv, rfl, by simp [addValid]⟩
  | succ m ih =>
    obtain ⟨v1, h1, h1e, e1⟩ := ih
    obtain ⟨v2, h2, h2e, e2⟩ := valid_batch p k hk hp (g m) (skips m) v1 h1
      (addValid l ((List.range m).map fun j => Spec.batchLoss p.b ((g j).map fun x => Spec.lossOf p.counted x.2)))
    refine ⟨v2, h2, h2e.trans h1e, ?_⟩
    rw [List.range_succ, List.flatMap_append, List.foldl_append, e1, List.flatMap_cons, List.flatMap_nil, List.append_nil, e2]
    simp [addValid, List.map_append, List.foldl_append, Nat.add_assoc]

/-- events before the first batch is complete leave no trace -/
theorem short_scan (p : Spec.Scan) (k : Nat) (hk : k < p.n) (xs : List (V × Spec.Out)) (skips : Nat → Bool) (hs : xs.length < p.b) (v : View) (l : Logger) :
    ∃ v', v'.mode = v.mode ∧ v'.epoch = v.epoch ∧ (Spec.scan p xs skips).foldl (feed p.b k obs) (v, some l) = (v', some l) := by
  unfold Spec.scan
  rw [if_pos hs, List.foldl_append]
  split
  · rw [List.foldl_nil]
    have := replay_vols p.b p hk calm xs (v, some l)
    exact ⟨⟨v.mode, v.epoch, (xs.map fun x => Spec.lossOf p.counted x.2).foldl plus v.lossVal, v.meanLoss⟩, rfl, rfl, this⟩
  · rw [feed_evs p.b obs p.n hk]
    have := replay_vols p.b p hk calm xs ({ v with lossVal := none }, some l)
    exact ⟨⟨v.mode, v.epoch, (xs.map fun x : V × Spec.Out => Spec.lossOf p.counted x.2).foldl plus none, v.meanLoss⟩, rfl, rfl, this⟩

/-- single events -/
theorem ev_epochBegin (bs n : Nat) {k : Nat} (hk : k < n) (v : View) (l : Logger) :
    (Spec.evs n .epochBegin : List (Act V)).foldl (feed bs k obs) (v, some l) = (v, some { l with tmp := .num 0, cnt := 0 }) := feed_evs bs obs n hk _ _

theorem ev_trainBegin (bs n : Nat) {k : Nat} (hk : k < n) (v : View) (l : Logger) :
    (Spec.evs n .trainBegin : List (Act V)).foldl (feed bs k obs) (v, some l) = (v, some ⟨[], [], .pinf, .num 0, 0⟩) := feed_evs bs obs n hk _ _

theorem ev_trainEnd (bs n : Nat) {k : Nat} (hk : k < n) (v : View) (l : Logger) :
    (Spec.evs n .trainEnd : List (Act V)).foldl (feed bs k obs) (v, some l) = (v, some l) := feed_evs bs obs n hk _ _

theorem ev_setWrapper (bs n : Nat) {k : Nat} (hk : k < n) (v : View) (l : Logger) :
    (Spec.evs n .setWrapper : List (Act V)).foldl (feed bs k obs) (v, some l) = (v, some l) := feed_evs bs obs n hk _ _

theorem ev_epochEnd (bs n : Nat) {k : Nat} (hk : k < n) (v : View) (hv : v.mode = .train) (l : Logger) :
    (Spec.evs n .epochEnd : List (Act V)).foldl (feed bs k obs) (v, some l) = (v, some l) := by
  rw [feed_evs bs obs n hk]
  simp [pre, obs, logStep, hv, Except.toOption]

theorem ev_epochEnd_valid (bs n : Nat) {k : Nat} (hk : k < n) (v : View) (l : Logger) :
    (Spec.evs n .epochEnd : List (Act V)).foldl (feed bs k obs) (v, some l) = (v, obs .epochEnd v (some l)) := feed_evs bs obs n hk _ _

theorem train_scan (p : Spec.Scan) (k : Nat) (hk : k < p.n) (hp : p.train = true) (xs : List (V × Spec.Out)) (skips : Nat → Bool) (v : View) (hv : v.mode = .train)
    (l : Logger) : ∃ v', v'.mode = .train ∧ v'.epoch = v.epoch ∧ (Spec.scan p xs skips).foldl (feed p.b k obs) (v, some l) = (v', some (addTrain l (batchLosses p xs))) := by
  by_cases hs : xs.length < p.b
  · obtain ⟨v', a, b, e⟩ := short_scan p k hk xs skips hs v l
    refine ⟨v', a.trans hv, b, ?_⟩
    rw [e]
    unfold batchLosses
    rw [Nat.div_eq_of_lt hs]
    simp [addTrain]
  · unfold Spec.scan
    rw [if_neg hs]
    exact train_batches p k hk hp (fun j => (xs.drop (j * p.b)).take p.b) skips _ v hv l

theorem valid_scan (p : Spec.Scan) (k : Nat) (hk : k < p.n) (hp : p.train = false) (xs : List (V × Spec.Out)) (skips : Nat → Bool) (v : View) (hv : v.mode = .valid)
    (l : Logger) : ∃ v', v'.mode = .valid ∧ v'.epoch = v.epoch ∧ (Spec.scan p xs skips).foldl (feed p.b k obs) (v, some l) = (v', some (addValid l (batchLosses p xs))) := by
  by_cases hs : xs.length < p.b
  · obtain ⟨v', a, b, e⟩ := short_scan p k hk xs skips hs v l
    refine ⟨v', a.trans hv, b, ?_⟩
    rw [e]
    unfold batchLosses
    rw [Nat.div_eq_of_lt hs]
    simp [addValid]
  · unfold Spec.scan
    rw [if_neg hs]
    exact valid_batches p k hk hp (fun j => (xs.drop (j * p.b)).take p.b) skips _ v hv l

theorem fadd_inf (ls : List (Option ℝ)) : (ls.map itemOr).foldl fadd .pinf = .pinf := by
  induction ls with
  | nil => rfl
  | cons l ls ih => cases l <;> simpa [itemOr, fadd] using ih

theorem fadd_fold (ls : List (Option ℝ)) (x : ℝ) : (ls.map itemOr).foldl fadd (.num x) = if none ∈ ls then .pinf else .num (x + (ls.filterMap id).sum) := by
  induction ls generalizing x with
  | nil => simp
  | cons l ls ih =>
    cases l with
    | none => simp [itemOr, fadd, fadd_inf]
    | some y =>
      rw [List.map_cons, List.foldl_cons]
      simp only [itemOr, fadd]
      rw [ih]
      simp [add_assoc]

theorem fdiv_fold (ls : List (Option ℝ)) : fdiv ((ls.map itemOr).foldl fadd (.num 0)) ls.length = average ls := by
  rw [fadd_fold]
  unfold average
  split
  · rfl
  · simp [fdiv]

open Classical in
/-- the records after an epoch -/
def record (p : Spec.Scan) (hasVal : Bool) (l : Logger) (r : Spec.EpochRec V) : Logger :=
  let trn := l.trn ++ (batchLosses p r.trn).map itemOr
  if hasVal then
    let x := average (batchLosses p r.val)
    ⟨trn, l.val ++ [x], if fle x l.best then x else l.best, ((batchLosses p r.val).map itemOr).foldl fadd (.num 0), (batchLosses p r.val).length⟩
  else ⟨trn, l.val, l.best, .num 0, 0⟩

theorem epoch_ok (p : Spec.Scan) (k : Nat) (hk : k < p.n) (hasVal : Bool) (r : Spec.EpochRec V) (hb : 0 < p.b) (hlong : hasVal = true → p.b ≤ r.val.length) (v : View) (l : Logger) :
    ∃ v', (Spec.epoch p hasVal r).foldl (feed p.b k obs) (v, some l) = (v', some (record p hasVal l r)) := by
  unfold Spec.epoch
  simp only [List.foldl_append, List.foldl_cons, List.foldl_nil]
  have e0 : feed p.b k obs (v, some l) (.volMode true : Act V) = (⟨.train, v.epoch + 1, v.lossVal, v.meanLoss⟩, some l) := rfl
  rw [e0, ev_epochBegin p.b p.n hk]
  obtain ⟨v1, m1, -, e1⟩ := train_scan { p with train := true } k hk rfl r.trn r.skips ⟨.train, v.epoch + 1, v.lossVal, v.meanLoss⟩ rfl { l with tmp := .num 0, cnt := 0 }
  have e1' : (Spec.scan { p with train := true } r.trn r.skips).foldl (feed p.b k obs) (⟨.train, v.epoch + 1, v.lossVal, v.meanLoss⟩, some { l with tmp := .num 0, cnt := 0 }) =
    (v1, some (addTrain { l with tmp := .num 0, cnt := 0 } (batchLosses p r.trn))) := e1
  rw [e1', ev_epochEnd p.b p.n hk v1 m1]
  cases hasVal with
  | false =>
    simp only [Bool.false_eq_true, if_false, List.foldl_nil]
    exact ⟨v1, by simp [record, addTrain]⟩
  | true =>
    simp only [if_true, List.foldl_append, List.foldl_cons, List.foldl_nil]
    have e3 : ∀ x : Option Logger, feed p.b k obs (v1, x) (.volMode false : Act V) = (⟨.valid, v1.epoch, v1.lossVal, v1.meanLoss⟩, x) := fun _ => rfl
    rw [e3, ev_epochBegin p.b p.n hk]
    obtain ⟨v2, m2, -, e5⟩ := valid_scan { p with train := false } k hk rfl r.val (fun _ => false) ⟨.valid, v1.epoch, v1.lossVal, v1.meanLoss⟩ rfl
      (addTrain { l with tmp := .num 0, cnt := 0 } (batchLosses p r.trn))
    have e5' : (Spec.scan { p with train := false } r.val (fun _ => false)).foldl (feed p.b k obs) (⟨.valid, v1.epoch, v1.lossVal, v1.meanLoss⟩,
        some (addTrain { l with tmp := .num 0, cnt := 0 } (batchLosses p r.trn))) =
      (v2, some (addValid (addTrain { l with tmp := .num 0, cnt := 0 } (batchLosses p r.trn)) (batchLosses p r.val))) := e5
    refine Exists.imp (fun v' hv' => (congrArg (fun q => List.foldl (feed p.b k obs) q (Spec.evs p.n .epochEnd)) e5').trans hv') ?_
    rw [ev_epochEnd_valid p.b p.n hk]
    have hpos : (batchLosses p r.val).length ≠ 0 := by
      unfold batchLosses
      rw [List.length_map, List.length_range]
      exact Nat.pos_iff_ne_zero.mp (Nat.div_pos (hlong rfl) hb)
    refine ⟨v2, ?_⟩
    congr 1
    simp only [obs, Option.bind_some, logStep, m2, if_true, addValid, addTrain, Nat.zero_add, if_neg hpos, Except.toOption]
    rw [fdiv_fold]
    rfl

/-- a validation without a complete batch makes the logger raise -/
theorem epoch_short (p : Spec.Scan) (k : Nat) (hk : k < p.n) (r : Spec.EpochRec V) (hs : r.val.length < p.b) (v : View) (l : Logger) :
    ∃ v', (Spec.epoch p true r).foldl (feed p.b k obs) (v, some l) = (v', none) := by
  unfold Spec.epoch
  simp only [List.foldl_append, List.foldl_cons, List.foldl_nil, if_true]
  have e0 : feed p.b k obs (v, some l) (.volMode true : Act V) = (⟨.train, v.epoch + 1, v.lossVal, v.meanLoss⟩, some l) := rfl
  rw [e0, ev_epochBegin p.b p.n hk]
  obtain ⟨v1, m1, -, e1⟩ := train_scan { p with train := true } k hk rfl r.trn r.skips ⟨.train, v.epoch + 1, v.lossVal, v.meanLoss⟩ rfl { l with tmp := .num 0, cnt := 0 }
  have e1' : (Spec.scan { p with train := true } r.trn r.skips).foldl (feed p.b k obs) (⟨.train, v.epoch + 1, v.lossVal, v.meanLoss⟩, some { l with tmp := .num 0, cnt := 0 }) =
    (v1, some (addTrain { l with tmp := .num 0, cnt := 0 } (batchLosses p r.trn))) := e1
  rw [e1', ev_epochEnd p.b p.n hk v1 m1]
  have e3 : ∀ x : Option Logger, feed p.b k obs (v1, x) (.volMode false : Act V) = (⟨.valid, v1.epoch, v1.lossVal, v1.meanLoss⟩, x) := fun _ => rfl
  rw [e3, ev_epochBegin p.b p.n hk]
  obtain ⟨v2, m2, -, e5⟩ := short_scan { p with train := false } k hk r.val (fun _ => false) hs ⟨.valid, v1.epoch, v1.lossVal, v1.meanLoss⟩
    (addTrain { l with tmp := .num 0, cnt := 0 } (batchLosses p r.trn))
  have e5' : (Spec.scan { p with train := false } r.val (fun _ => false)).foldl (feed p.b k obs) (⟨.valid, v1.epoch, v1.lossVal, v1.meanLoss⟩,
      some (addTrain { l with tmp := .num 0, cnt := 0 } (batchLosses p r.trn))) =
    (v2, some (addTrain { l with tmp := .num 0, cnt := 0 } (batchLosses p r.trn))) := e5
  refine Exists.imp (fun v' hv' => (congrArg (fun q => List.foldl (feed p.b k obs) q (Spec.evs p.n .epochEnd)) e5').trans hv') ?_
  rw [ev_epochEnd_valid p.b p.n hk]
  refine ⟨v2, ?_⟩
  simp [pre, obs, logStep, m2, addTrain, Except.toOption]

theorem epochs_ok (p : Spec.Scan) (k : Nat) (hk : k < p.n) (hasVal : Bool) (hb : 0 < p.b) (rs : List (Spec.EpochRec V)) (hlong : ∀ r ∈ rs, hasVal = true → p.b ≤ r.val.length)
    (v : View) (l : Logger) : ∃ v', (rs.flatMap (Spec.epoch p hasVal)).foldl (feed p.b k obs) (v, some l) = (v', some (rs.foldl (record p hasVal) l)) := by
  induction rs generalizing v l with
  | nil => exact ⟨v, rfl⟩
  | cons r rs ih =>
    obtain ⟨v1, e1⟩ := epoch_ok p k hk hasVal r hb (hlong r (by simp)) v l
    obtain ⟨v2, e2⟩ := ih (fun r' hr' => hlong r' (by simp [hr'])) v1 (record p hasVal l r)
    exact ⟨v2, by rw [List.flatMap_cons, List.foldl_append, e1, e2]; rfl⟩

/-- a logger that has raised stays so in a replay -/
theorem none_stays (bs k : Nat) (t : List (Act V)) (v : View) : ∃ v', t.foldl (feed bs k obs) (v, none) = (v', none) := by
  induction t generalizing v with
  | nil => exact ⟨v, rfl⟩
  | cons a t ih =>
    rw [List.foldl_cons]
    have : ∃ v', feed bs k obs (v, none) a = (v', none) := by
      cases a with
      | cb i e => exact ⟨pre bs e v, by simp only [feed, obs, Option.bind_none, ite_self]⟩
      | volMode b => cases b <;> exact ⟨_, rfl⟩
      | _ => exact ⟨_, rfl⟩
    obtain ⟨v', e⟩ := this
    rw [e]
    exact ih v'

/-- the records after all epochs -/
theorem record_trn (p : Spec.Scan) (hasVal : Bool) (rs : List (Spec.EpochRec V)) (l : Logger) :
    (rs.foldl (record p hasVal) l).trn = l.trn ++ rs.flatMap fun r => (batchLosses p r.trn).map itemOr := by
  induction rs generalizing l with
  | nil => simp
  | cons r rs ih =>
    rw [List.foldl_cons, ih, List.flatMap_cons, ← List.append_assoc]
    congr 1
    unfold record
    cases hasVal <;> rfl

theorem record_val (p : Spec.Scan) (hasVal : Bool) (rs : List (Spec.EpochRec V)) (l : Logger) :
    (rs.foldl (record p hasVal) l).val = l.val ++ if hasVal then rs.map fun r => average (batchLosses p r.val) else [] := by
  induction rs generalizing l with
  | nil => simp
  | cons r rs ih =>
    rw [List.foldl_cons, ih]
    unfold record
    cases hasVal <;> simp

/-- one and only one `fit` run of a wrapper with a logger -/
theorem fit_replay {C : Type} (E : Env W V P) (c : Conf) (k : Nat) (lg : W → Logger) (hlog : Logs E k lg) (mkdir : W → Except Err Unit × W) (n : Nat) (trn : Passives V)
    (val : Option (Passives V)) (htrn : trn.len = trn.vols.length) (hval : ∀ v, val = some v → v.len = v.vols.length) (o o' : Outer W V P C) (hk : k < o.cbList.length)
    (h : fit E c mkdir n trn val o = (.ok (), o')) :
    ∃ (rs : List (Spec.EpochRec V)) (v v' : View) (x : Logger), rs.length ≤ n ∧ (∀ r ∈ rs, Spec.About trn.vols (val.map (·.vols)) r) ∧
      o'.log = o.log ++ Spec.fit ⟨o.cbList.length, c.nMu / c.muBs, c.bs, E.hasLoss, true⟩ val.isSome rs ∧ (0 < n → rs ≠ []) ∧
      (Spec.fit ⟨o.cbList.length, c.nMu / c.muBs, c.bs, E.hasLoss, true⟩ val.isSome rs).foldl (feed c.bs k obs) (v, some x) = (v', some (lg o'.w)) := by
  obtain ⟨rs, h1, h2, h3, h0⟩ := C41.fit_trace E c mkdir n trn val htrn hval o o' h
  unfold Fit.fit at h
  rcases hm : mkdir o.w with ⟨r, w⟩
  rw [hm] at h
  cases r with
  | error e => simp at h
  | ok u =>
    simp only [Prod.mk.injEq] at h
    obtain ⟨h4, h5⟩ := h
    have hs := sim_fitBody (c := { c with nCb := o.cbList.length }) (watches hlog) hk n trn val
    generalize hr : fitBody E { c with nCb := o.cbList.length } n trn val ⟨initFp .train, w, o.log⟩ = q at h4 h5
    obtain ⟨q1, q2⟩ := q
    simp only at h4 h5
    subst h4
    obtain ⟨t, e1, e2⟩ := hs _ _ hr
    have hlog' : o'.log = q2.log := by rw [← h5]
    have hw : o'.w = q2.w := by rw [← h5]
    have ht : t = Spec.fit ⟨o.cbList.length, c.nMu / c.muBs, c.bs, E.hasLoss, true⟩ val.isSome rs := by
      have : o.log ++ t = o.log ++ Spec.fit ⟨o.cbList.length, c.nMu / c.muBs, c.bs, E.hasLoss, true⟩ val.isSome rs := by rw [← h3, hlog', e1]
      exact List.append_cancel_left this
    refine ⟨rs, viewOf (initFp .train : FP P), viewOf q2.fp, lg w, h1, h2, h3, h0, ?_⟩
    rw [← ht, hw]
    exact e2

/-- the histories after a fit; an epoch is run if one is asked for -/
theorem histories_run {C : Type} (E : Env W V P) (c : Conf) (hb : 0 < c.bs) (k : Nat) (lg : W → Logger) (hlog : Logs E k lg) (mkdir : W → Except Err Unit × W) (n : Nat) (trn : Passives V)
    (val : Option (Passives V)) (htrn : trn.len = trn.vols.length) (hval : ∀ v, val = some v → v.len = v.vols.length ∧ c.bs ≤ v.vols.length)
    (o o' : Outer W V P C) (hk : k < o.cbList.length) (h : fit E c mkdir n trn val o = (.ok (), o')) :
    ∃ (p : Spec.Scan) (rs : List (Spec.EpochRec V)), p = ⟨o.cbList.length, c.nMu / c.muBs, c.bs, E.hasLoss, true⟩ ∧ rs.length ≤ n ∧
      (∀ r ∈ rs, Spec.About trn.vols (val.map (·.vols)) r) ∧ o'.log = o.log ++ Spec.fit p val.isSome rs ∧
      (lg o'.w).trn = (rs.flatMap fun r => (batchLosses p r.trn).map itemOr) ∧
      ((lg o'.w).val = if val.isSome then rs.map fun r => average (batchLosses p r.val) else []) ∧ (0 < n → rs ≠ []) ∧
      lg o'.w = rs.foldl (record p val.isSome) ⟨[], [], .pinf, .num 0, 0⟩ := by
  obtain ⟨rs, v, v', x, h1, h2, h3, h0, h4⟩ := fit_replay E c k lg hlog mkdir n trn val htrn (fun v hv => (hval v hv).1) o o' hk h
  refine ⟨_, rs, rfl, h1, h2, h3, ?_⟩
  set p : Spec.Scan := ⟨o.cbList.length, c.nMu / c.muBs, c.bs, E.hasLoss, true⟩ with hp
  have hk' : k < p.n := hk
  unfold Spec.fit at h4
  simp only [List.foldl_append] at h4
  have hbs : c.bs = p.b := rfl
  rw [hbs, ev_setWrapper p.b p.n hk', ev_trainBegin p.b p.n hk'] at h4
  obtain ⟨v1, e1⟩ := epochs_ok p k hk' val.isSome hb rs (by
    intro r hr hv
    obtain ⟨vv, hvv⟩ := Option.isSome_iff_exists.mp hv
    have := (h2 r hr).2 vv.vols (by rw [hvv]; rfl)
    have hl : r.val.length = vv.vols.length := by rw [← this, List.length_map]
    rw [hl]
    exact (hval vv hvv).2) v ⟨[], [], .pinf, .num 0, 0⟩
  rw [e1, ev_trainEnd p.b p.n hk'] at h4
  have e2 : some (lg o'.w) = some (rs.foldl (record p val.isSome) ⟨[], [], .pinf, .num 0, 0⟩) := by
    have := congrArg Prod.snd h4
    exact this.symm
  rw [Option.some.injEq] at e2
  refine ⟨?_, ?_, h0, e2⟩
  · rw [e2, record_trn]; simp
  · rw [e2, record_val]; simp

/-- **C51.** After every fit that ends normally, whatever the volumes, callbacks and losses: the training history has one entry per complete batch of training volumes, epoch after
epoch, its loss (infinite if no volume of it could be predicted); the validation history has one entry per epoch, the average of the losses of the complete batches of validation
volumes of that epoch. -/
theorem histories {C : Type} (E : Env W V P) (c : Conf) (hb : 0 < c.bs) (k : Nat) (lg : W → Logger) (hlog : Logs E k lg) (mkdir : W → Except Err Unit × W) (n : Nat) (trn : Passives V)
    (val : Option (Passives V)) (htrn : trn.len = trn.vols.length) (hval : ∀ v, val = some v → v.len = v.vols.length ∧ c.bs ≤ v.vols.length)
    (o o' : Outer W V P C) (hk : k < o.cbList.length) (h : fit E c mkdir n trn val o = (.ok (), o')) :
    ∃ (p : Spec.Scan) (rs : List (Spec.EpochRec V)), p = ⟨o.cbList.length, c.nMu / c.muBs, c.bs, E.hasLoss, true⟩ ∧ rs.length ≤ n ∧
      (∀ r ∈ rs, Spec.About trn.vols (val.map (·.vols)) r) ∧ o'.log = o.log ++ Spec.fit p val.isSome rs ∧
      (lg o'.w).trn = (rs.flatMap fun r => (batchLosses p r.trn).map itemOr) ∧
      (lg o'.w).val = if val.isSome then rs.map fun r => average (batchLosses p r.val) else [] := by
  obtain ⟨p, rs, h1, h2, h3, h4, h5, h6, -, -⟩ := histories_run E c hb k lg hlog mkdir n trn val htrn hval o o' hk h
  exact ⟨p, rs, h1, h2, h3, h4, h5, h6⟩

/-- **C51 (violated): fewer validation volumes than a batch.** There is nothing to average: the logger divides by zero, so that no fit of one epoch or more ends normally. -/
theorem few_validation_error {C : Type} (E : Env W V P) (c : Conf) (hb : 0 < c.bs) (k : Nat) (lg : W → Logger) (hlog : Logs E k lg) (mkdir : W → Except Err Unit × W) (n : Nat)
    (hn : 0 < n) (trn val : Passives V) (htrn : trn.len = trn.vols.length) (hval : val.len = val.vols.length) (hfew : val.vols.length < c.bs)
    (o : Outer W V P C) (hk : k < o.cbList.length) : ∃ e, (fit E c mkdir n trn (some val) o).1 = .error e := by
  rcases hr : fit E c mkdir n trn (some val) o with ⟨r, o'⟩
  cases r with
  | error e => exact ⟨e, rfl⟩
  | ok u =>
    exfalso
    obtain ⟨rs, v, v', x, h1, h2, h3, h0, h4⟩ := fit_replay E c k lg hlog mkdir n trn (some val) htrn (fun v hv => by cases hv; exact hval) o o' hk hr
    obtain ⟨r, rs, rfl⟩ := List.exists_cons_of_ne_nil (h0 hn)
    set p : Spec.Scan := ⟨o.cbList.length, c.nMu / c.muBs, c.bs, E.hasLoss, true⟩ with hp
    have hk' : k < p.n := hk
    have hl : r.val.length < p.b := by
      have := (h2 r (by simp)).2 val.vols rfl
      have hl : r.val.length = val.vols.length := by rw [← this, List.length_map]
      rw [hl]
      exact hfew
    unfold Spec.fit at h4
    simp only [List.foldl_append, List.flatMap_cons] at h4
    have hbs : c.bs = p.b := rfl
    rw [hbs, ev_setWrapper p.b p.n hk', ev_trainBegin p.b p.n hk'] at h4
    obtain ⟨v1, e1⟩ := epoch_short p k hk' r hl v ⟨[], [], .pinf, .num 0, 0⟩
    simp only [Option.isSome_some] at h4
    rw [e1] at h4
    obtain ⟨v2, e2⟩ := none_stays p.b k (rs.flatMap (Spec.epoch p true)) v1
    rw [e2] at h4
    obtain ⟨v3, e3⟩ := none_stays p.b k (Spec.evs p.n .trainEnd : List (Act V)) v2
    rw [e3] at h4
    simp at h4

/-- **C51: best loss.** In a training with validation the best loss is one of the reported ones (or infinite) and none is smaller. -/
theorem best (p : Spec.Scan) (rs : List (Spec.EpochRec V)) :
    let l := rs.foldl (record p true) ⟨[], [], .pinf, .num 0, 0⟩
    (l.best = .pinf ∨ l.best ∈ l.val) ∧ ∀ x ∈ l.val, fle l.best x := by
  have key : ∀ (rs : List (Spec.EpochRec V)) (l : Logger), ((l.best = .pinf ∨ ∃ b, l.best = .num b ∧ l.best ∈ l.val) ∧ ∀ x ∈ l.val, fle l.best x) →
      (((rs.foldl (record p true) l).best = .pinf ∨ ∃ b, (rs.foldl (record p true) l).best = .num b ∧ (rs.foldl (record p true) l).best ∈ (rs.foldl (record p true) l).val) ∧
        ∀ x ∈ (rs.foldl (record p true) l).val, fle (rs.foldl (record p true) l).best x) := by
    intro rs
    induction rs with
    | nil => intro l h; exact h
    | cons r rs ih =>
      intro l ⟨h1, h2⟩
      rw [List.foldl_cons]
      apply ih
      unfold record
      simp only [if_true]
      have hav : average (batchLosses p r.val) = .pinf ∨ ∃ b, average (batchLosses p r.val) = .num b := by
        unfold average
        split
        · exact .inl rfl
        · exact .inr ⟨_, rfl⟩
      generalize average (batchLosses p r.val) = a at hav
      generalize l.best = b at h1 h2
      have hrefl : ∀ q : XF, (q = .pinf ∨ ∃ y, q = .num y) → fle q q := by
        rintro q (rfl | ⟨y, rfl⟩)
        · trivial
        · exact le_refl y
      split
      · rename_i hle
        refine ⟨?_, ?_⟩
        · rcases hav with rfl | ⟨y, rfl⟩
          · exact .inl rfl
          · exact .inr ⟨y, rfl, by simp⟩
        · intro x hx
          rcases List.mem_append.mp hx with hx | hx
          · have hbx := h2 x hx
            rcases h1 with rfl | ⟨y, rfl, -⟩ <;> rcases hav with rfl | ⟨z, rfl⟩ <;> cases x <;> simp_all [fle]
            linarith
          · rw [List.mem_singleton] at hx
            subst hx
            exact hrefl _ hav
      · rename_i hle
        refine ⟨?_, ?_⟩
        · rcases h1 with rfl | ⟨y, rfl, hm⟩
          · exact .inl rfl
          · exact .inr ⟨y, rfl, by simp [hm]⟩
        · intro x hx
          rcases List.mem_append.mp hx with hx | hx
          · exact h2 x hx
          · rw [List.mem_singleton] at hx
            subst hx
            rcases h1 with rfl | ⟨y, rfl, -⟩ <;> rcases hav with rfl | ⟨z, rfl⟩ <;> simp_all [fle]
            linarith
  intro l
  obtain ⟨h1, h2⟩ := key rs ⟨[], [], .pinf, .num 0, 0⟩ ⟨.inl rfl, by simp⟩
  exact ⟨h1.imp id fun ⟨_, _, h⟩ => h, h2⟩

example : average [some 1, some 3] = .num 2 := by
  unfold average
  rw [if_neg (by simp)]
  simp
  norm_num

example : batchLosses ⟨1, 1, 2, true, true⟩ [((), ⟨true, 1⟩), ((), ⟨false, 7⟩), ((), ⟨true, 5⟩)] = [some (1 / 2)] := by
  simp [batchLosses, Spec.batchLoss, Spec.lossOf]

end C51

namespace C79

/-- the validation loss of complete batches of `b` volumes, each with some prediction: the losses (sums of the sub-losses) of a batch divided by `b`, averaged over the batches -/
def lossOfBatches (b : Nat) (batches : List (List (Option (ℝ × ℝ)))) : ℝ :=
  (batches.map fun vs => ((vs.filterMap id).map fun s : ℝ × ℝ => s.1 + s.2).sum / (b : ℝ)).sum / batches.length

theorem subTotals_eq (vols : List (Option (ℝ × ℝ))) :
    subTotals vols = ((((vols.filterMap id).map (·.1)).sum, ((vols.filterMap id).map (·.2)).sum), (vols.filterMap id).length) := by
  have key : ∀ (vols : List (Option (ℝ × ℝ))) (a : (ℝ × ℝ) × Nat), vols.foldl subTotals.addSub a =
      ((a.1.1 + ((vols.filterMap id).map (·.1)).sum, a.1.2 + ((vols.filterMap id).map (·.2)).sum), a.2 + (vols.filterMap id).length) := by
    intro vols
    induction vols with
    | nil => intro a; simp
    | cons v vols ih =>
      intro a
      rw [List.foldl_cons, ih]
      cases v with
      | none => simp [subTotals.addSub]
      | some s => simp [subTotals.addSub, add_assoc, Nat.add_comm, Nat.add_left_comm]
  unfold subTotals
  rw [key]
  simp

theorem sum_eq (l : List (ℝ × ℝ)) : (l.map (·.1)).sum + (l.map (·.2)).sum = (l.map fun s => s.1 + s.2).sum := by
  induction l with
  | nil => simp
  | cons a l ih => simp only [List.map_cons, List.sum_cons]; linarith

theorem flat_loss (b : Nat) (batches : List (List (Option (ℝ × ℝ)))) :
    lossOfBatches b batches = ((batches.flatten.filterMap id).map fun s => s.1 + s.2).sum / (b * batches.length) := by
  unfold lossOfBatches
  have : (batches.map fun vs => ((vs.filterMap id).map fun s : ℝ × ℝ => s.1 + s.2).sum / (b : ℝ)).sum = ((batches.flatten.filterMap id).map fun s => s.1 + s.2).sum / b := by
    induction batches with
    | nil => simp
    | cons vs l ih =>
      rw [List.map_cons, List.sum_cons, ih, List.flatten_cons, List.filterMap_append, List.map_append, List.sum_append, add_div]
  rw [this, div_div]

/-- **C79 (partial).** The reported fractions of `error` and `cost` add up to the number of validation volumes over the number of those with a prediction; missing for the full
property is that this is one. -/
theorem composition_partial (b : Nat) (hb : 0 < b) (batches : List (List (Option (ℝ × ℝ)))) (hlen : ∀ vs ∈ batches, vs.length = b) (hne : lossOfBatches b batches ≠ 0) :
    ∃ f, fractions (lossOfBatches b batches) batches.flatten = .ok f ∧
      f.1 + f.2 = (batches.flatten.length : ℝ) / (batches.flatten.filterMap id).length := by
  have hflat : (batches.flatten.length : ℝ) = b * batches.length := by
    have : batches.flatten.length = b * batches.length := by
      clear hne
      induction batches with
      | nil => simp
      | cons vs l ih =>
        rw [List.flatten_cons, List.length_append, ih fun w hw => hlen w (by simp [hw]), hlen vs (by simp), List.length_cons]
        ring
    rw [this]
    push_cast
    rfl
  have hS := flat_loss b batches
  have hn : batches ≠ [] := by
    rintro rfl
    simp [lossOfBatches] at hne
  have hL : (0 : ℝ) < batches.length := by exact_mod_cast List.length_pos_iff.mpr hn
  have hb' : (0 : ℝ) < b := by exact_mod_cast hb
  have hbL : (b : ℝ) * batches.length ≠ 0 := (mul_pos hb' hL).ne'
  have hcnt : ((batches.flatten.filterMap id).length : ℝ) ≠ 0 := by
    intro h0
    have h0' : (batches.flatten.filterMap id).length = 0 := by exact_mod_cast h0
    apply hne
    rw [hS, List.length_eq_zero_iff.mp h0']
    simp
  have hf : fractions (lossOfBatches b batches) batches.flatten = .ok (((batches.flatten.filterMap id).map (·.1)).sum / (lossOfBatches b batches * (batches.flatten.filterMap id).length),
      ((batches.flatten.filterMap id).map (·.2)).sum / (lossOfBatches b batches * (batches.flatten.filterMap id).length)) := by
    unfold fractions
    rw [subTotals_eq]
    simp only
    rw [if_neg (mul_ne_zero hne hcnt)]
  refine ⟨_, hf, ?_⟩
  · simp only
    rw [← add_div, sum_eq, hflat]
    have hS' : ((batches.flatten.filterMap id).map fun s : ℝ × ℝ => s.1 + s.2).sum = lossOfBatches b batches * (b * batches.length) := by
      rw [hS, div_mul_cancel₀ _ hbL]
    rw [hS']
    field_simp

/-- with predictions for all volumes the fractions add up to one -/
theorem all_predicted (b : Nat) (hb : 0 < b) (batches : List (List (Option (ℝ × ℝ)))) (hlen : ∀ vs ∈ batches, vs.length = b) (hall : ∀ v ∈ batches.flatten, v ≠ none)
    (hne : lossOfBatches b batches ≠ 0) : ∃ f, fractions (lossOfBatches b batches) batches.flatten = .ok f ∧ f.1 + f.2 = 1 := by
  obtain ⟨f, h1, h2⟩ := composition_partial b hb batches hlen hne
  refine ⟨f, h1, ?_⟩
  have hl : (batches.flatten.filterMap id).length = batches.flatten.length := by
    generalize batches.flatten = l at hall
    induction l with
    | nil => rfl
    | cons v l ih =>
      cases v with
      | none => exact absurd rfl (hall none (by simp))
      | some s => rw [List.filterMap_cons_some (by rfl), List.length_cons, List.length_cons, ih fun w hw => hall w (by simp [hw])]
  rw [h2, hl]
  apply div_self
  intro h0
  apply hne
  have h0' : batches.flatten.length = 0 := by exact_mod_cast h0
  rw [flat_loss, List.length_eq_zero_iff.mp h0']
  simp

/-- **C79 (violated).** One of two volumes without a prediction: the fractions add up to two. -/
theorem composition_violated : fractions (lossOfBatches 2 [[some (1, 1), none]]) [some (1, 1), none] = .ok (1, 1) := by
  have : lossOfBatches 2 [[some ((1 : ℝ), (1 : ℝ)), none]] = 1 := by
    simp [lossOfBatches]
  rw [this]
  simp [fractions, subTotals, subTotals.addSub]

end C79

namespace C78

/-- the first metric marked as main -/
def firstMain (ms : List Metric) : Option Nat := ms.findIdx? (·.main)

/-- marking only number `i` -/
def only (i : Nat) (ms : List Metric) : List Metric := ms.mapIdx fun j m => { m with main := decide (j = i) }

theorem begin_main (ms : List Metric) (i : Nat) (m : Metric) (hi : ms[i]? = some m) (hm : m.main = true) : metricBegin ms i = only i ms := by
  unfold metricBegin
  rw [hi]
  simp only [hm, if_true]
  apply List.ext_getElem?
  intro j
  unfold only
  rw [List.getElem?_mapIdx, List.getElem?_set, List.getElem?_map]
  obtain ⟨hil, hget⟩ := List.getElem?_eq_some_iff.mp hi
  by_cases hij : i = j
  · subst hij
    simp [hget, hil]
  · rw [if_neg hij]
    cases hj : ms[j]? with
    | none => rfl
    | some q => simp [show ¬ j = i from fun h => hij h.symm]

theorem begin_not (ms : List Metric) (i : Nat) (h : ∀ m, ms[i]? = some m → m.main = false) : metricBegin ms i = ms := by
  unfold metricBegin
  cases hi : ms[i]? with
  | none => rfl
  | some m => simp [h m hi]

theorem only_get (i : Nat) (ms : List Metric) (j : Nat) (m : Metric) (h : (only i ms)[j]? = some m) : m.main = decide (j = i) := by
  unfold only at h
  rw [List.getElem?_mapIdx, Option.map_eq_some_iff] at h
  obtain ⟨q, -, rfl⟩ := h
  rfl

/-- **C78.** Whatever metrics are passed, once a training has begun exactly the first of those that ask to be the main metric is it; the logger agrees with that whether it starts
before, after or between the metrics. -/
theorem first_wins (ms : List Metric) (t : Nat) :
    let cur := (List.range t).foldl metricBegin ms
    mainMetric cur = mainMetric ms ∧ (ms.length ≤ t → (∀ i, firstMain ms = some i → cur = only i ms) ∧ (firstMain ms = none → cur = ms)) := by
  have key : ∀ t, (∀ i, firstMain ms = some i → (List.range t).foldl metricBegin ms = if i < t then only i ms else ms) ∧
      (firstMain ms = none → (List.range t).foldl metricBegin ms = ms) := by
    intro t
    induction t with
    | zero => exact ⟨fun i _ => by simp, fun _ => rfl⟩
    | succ t ih =>
      constructor
      · intro i hi
        rw [List.range_succ, List.foldl_append, ih.1 i hi]
        simp only [List.foldl_cons, List.foldl_nil]
        unfold firstMain at hi
        rw [List.findIdx?_eq_some_iff_getElem] at hi
        obtain ⟨hl, hm, hb⟩ := hi
        rcases Nat.lt_trichotomy i t with h | h | h
        · rw [if_pos h, if_pos (by omega)]
          apply begin_not
          intro m hmm
          rw [only_get i ms t m hmm]
          simp; omega
        · subst h
          rw [if_neg (by omega), if_pos (by omega)]
          exact begin_main ms i ms[i] (List.getElem?_eq_getElem hl) hm
        · rw [if_neg (by omega), if_neg (by omega)]
          apply begin_not
          intro m hmm
          have := hb t h
          rw [List.getElem?_eq_getElem (by omega)] at hmm
          simp only [Option.some.injEq] at hmm
          subst hmm
          simpa using this
      · intro hn
        rw [List.range_succ, List.foldl_append, ih.2 hn]
        simp only [List.foldl_cons, List.foldl_nil]
        apply begin_not
        intro m hm
        unfold firstMain at hn
        rw [List.findIdx?_eq_none_iff] at hn
        simpa using hn m (List.mem_of_getElem? hm)
  intro cur
  constructor
  · have hlen : ∀ i, (only i ms).length = ms.length := fun i => by simp [only]
    cases hf : firstMain ms with
    | none => rw [show cur = ms from (key t).2 hf]
    | some i =>
      have hc : cur = if i < t then only i ms else ms := (key t).1 i hf
      rw [hc]
      split
      · unfold mainMetric
        rw [hlen]
        have hf' : ms.findIdx? (·.main) = some i := hf
        have hi : (only i ms).findIdx? (·.main) = some i := by
          rw [List.findIdx?_eq_some_iff_getElem]
          rw [List.findIdx?_eq_some_iff_getElem] at hf'
          obtain ⟨hl, hm, hb⟩ := hf'
          refine ⟨by rw [hlen]; exact hl, ?_, ?_⟩
          · rw [only_get i ms i _ (List.getElem?_eq_getElem (by rw [hlen]; exact hl))]
            simp
          · intro j hj
            rw [only_get i ms j _ (List.getElem?_eq_getElem (by rw [hlen]; omega))]
            simp; omega
        rw [hi, hf']
      · rfl
  · intro ht
    refine ⟨fun i hi => ?_, fun hn => (key t).2 hn⟩
    have hil : i < ms.length := by
      unfold firstMain at hi
      rw [List.findIdx?_eq_some_iff_getElem] at hi
      exact hi.1
    rw [show cur = _ from (key t).1 i hi, if_pos (by omega)]

example : metricsBegin [⟨"a", true, false⟩, ⟨"b", true, true⟩, ⟨"c", false, true⟩] = [⟨"a", true, false⟩, ⟨"b", true, true⟩, ⟨"c", false, false⟩] := by
  simp [metricsBegin, List.range_succ, metricBegin]

end C78

namespace C77

theorem argminFrom_spec (ys : List ℝ) (all : List ℝ) (b i : Nat) (x : ℝ) (hdrop : all.drop i = ys) (hb : b < i) (hbx : all[b]? = some x)
    (hmin : ∀ j y, j < i → all[j]? = some y → x ≤ y ∧ (j < b → x < y)) :
    ∃ m, all[argminFrom b x i ys]? = some m ∧ ∀ j y, all[j]? = some y → m ≤ y ∧ (j < argminFrom b x i ys → m < y) := by
  induction ys generalizing b i x with
  | nil =>
    have hlen : all.length ≤ i := by
      have := congrArg List.length hdrop
      simp at this
      omega
    refine ⟨x, hbx, fun j y hj => hmin j y ?_ hj⟩
    have := (List.getElem?_eq_some_iff.mp hj).1
    omega
  | cons y ys ih =>
    have hi : all[i]? = some y := by
      have : (all.drop i)[0]? = some y := by rw [hdrop]; rfl
      simpa using this
    have hdrop' : all.drop (i + 1) = ys := by
      rw [← List.drop_drop, hdrop]
      rfl
    unfold argminFrom
    split
    · rename_i hlt
      refine ih i (i + 1) y hdrop' (by omega) hi ?_
      intro j z hj hz
      by_cases hji : j = i
      · subst hji
        rw [hi, Option.some.injEq] at hz
        subst hz
        exact ⟨le_rfl, fun h => absurd h (by omega)⟩
      · have := hmin j z (by omega) hz
        exact ⟨by linarith [this.1], fun _ => by linarith [this.1]⟩
    · rename_i hlt
      refine ih b (i + 1) x hdrop' (by omega) hbx ?_
      intro j z hj hz
      by_cases hji : j = i
      · subst hji
        rw [hi, Option.some.injEq] at hz
        subst hz
        exact ⟨by linarith [not_lt.mp hlt], fun h => absurd h (by omega)⟩
      · exact hmin j z (by omega) hz

theorem argmin_spec (xs : List ℝ) (hne : xs ≠ []) : ∃ i m, argmin xs = .ok i ∧ xs[i]? = some m ∧ ∀ j y, xs[j]? = some y → m ≤ y ∧ (j < i → m < y) := by
  obtain ⟨x, xs, rfl⟩ := List.exists_cons_of_ne_nil hne
  obtain ⟨m, h1, h2⟩ := argminFrom_spec xs (x :: xs) 0 1 x rfl (by omega) rfl (by
    intro j y hj hy
    have : j = 0 := by omega
    subst this
    simp only [List.getElem?_cons_zero, Option.some.injEq] at hy
    subst hy
    exact ⟨le_rfl, fun h => absurd h (by omega)⟩)
  exact ⟨_, m, rfl, h1, h2⟩

theorem argmax_spec (xs : List ℝ) (hne : xs ≠ []) : ∃ i m, argmax xs = .ok i ∧ xs[i]? = some m ∧ ∀ j y, xs[j]? = some y → y ≤ m ∧ (j < i → y < m) := by
  obtain ⟨i, m, h1, h2, h3⟩ := argmin_spec (xs.map (- ·)) (by simpa using hne)
  rw [List.getElem?_map, Option.map_eq_some_iff] at h2
  obtain ⟨x, hx, rfl⟩ := h2
  refine ⟨i, x, h1, hx, ?_⟩
  intro j y hy
  have := h3 j (-y) (by rw [List.getElem?_map, hy]; rfl)
  exact ⟨by linarith [this.1], fun h => by linarith [this.2 h]⟩

/-- loss and metrics of epoch `i` -/
def At (ms : List Metric) (losses : List ℝ) (vals : List (List ℝ)) (i : Nat) (r : ℝ × List (String × ℝ)) : Prop :=
  losses[i]? = some r.1 ∧ r.2.map (·.1) = ms.map (·.name) ∧ ∀ (j : Nat) v, vals[j]? = some v → (r.2[j]?).map (·.2) = v[i]?

theorem results_at (ms : List Metric) (losses : List ℝ) (vals : List (List ℝ)) (hv : vals.length = ms.length) (hl : ∀ v ∈ vals, v.length = losses.length) (i : Nat) (l : ℝ)
    (hi : losses[i]? = some l) : At ms losses vals i (l, List.zipWith (fun m v => (m.name, (v[i]?).getD 0)) ms vals) := by
  refine ⟨hi, ?_, ?_⟩
  · rw [List.map_zipWith]
    simp only
    apply List.ext_getElem (by simp [hv])
    intro j h1 h2
    simp
  · intro j v hj
    have hjl := (List.getElem?_eq_some_iff.mp hj).1
    rw [List.getElem?_zipWith, List.getElem?_eq_getElem (by omega : j < ms.length), hj]
    have : i < v.length := by
      rw [hl v (List.mem_of_getElem? hj)]
      exact (List.getElem?_eq_some_iff.mp hi).1
    simp [List.getElem?_eq_getElem this]

/-- **C77.** The results are loss and metrics of one and the same validation epoch: the last one; or, if the best state has been loaded, the first epoch in which the main metric was
best (the largest or smallest value, as the metric says), or without main metric the first epoch with the smallest loss. -/
theorem results (ms : List Metric) (losses : List ℝ) (vals : List (List ℝ)) (hne : losses ≠ []) (hv : vals.length = ms.length) (hl : ∀ v ∈ vals, v.length = losses.length) (best : Bool) :
    ∃ i r, getResults ms losses vals best = .ok r ∧ At ms losses vals i r ∧
      (best = false → i + 1 = losses.length) ∧
      (best = true → C78.firstMain ms = none → ∀ (j : Nat) y, losses[j]? = some y → r.1 ≤ y ∧ (j < i → r.1 < y)) ∧
      (best = true → ∀ k m v, C78.firstMain ms = some k → ms[k]? = some m → vals[k]? = some v → ∃ x, v[i]? = some x ∧
        ∀ (j : Nat) y, v[j]? = some y → if m.lowerBetter then x ≤ y ∧ (j < i → x < y) else y ≤ x ∧ (j < i → y < x)) := by
  have hlen : 0 < losses.length := List.length_pos_iff.mpr hne
  cases best with
  | false =>
    have hi : losses[losses.length - 1]? = some losses[losses.length - 1] := List.getElem?_eq_getElem (by omega)
    refine ⟨losses.length - 1, _, ?_, results_at ms losses vals hv hl _ _ hi, fun _ => by omega, by simp, by simp⟩
    unfold getResults
    simp only [Bool.false_eq_true, if_false, if_neg hne, hi]
  | true =>
    cases hf : C78.firstMain ms with
    | none =>
      obtain ⟨i, m, h1, h2, h3⟩ := argmin_spec losses hne
      refine ⟨i, _, ?_, results_at ms losses vals hv hl i m h2, by simp, fun _ _ => h3, by simp⟩
      unfold getResults mainMetric
      have hf' : ms.findIdx? (·.main) = none := hf
      simp only [if_true, hf']
      by_cases h0 : ms.length > 0
      · simp only [h0, if_true, h1, h2]
      · simp only [h0, if_false, h1, h2]
    | some k =>
      have hf' : ms.findIdx? (·.main) = some k := hf
      have hk : k < ms.length := by
        have := hf'
        rw [List.findIdx?_eq_some_iff_getElem] at this
        exact this.1
      have hm : ms[k]? = some ms[k] := List.getElem?_eq_getElem hk
      have hvk : vals[k]? = some (vals[k]'(by omega)) := List.getElem?_eq_getElem (by omega)
      have hvl := hl _ (List.mem_of_getElem? hvk)
      have hvne : vals[k]'(by omega) ≠ [] := by
        intro h0
        rw [h0] at hvl
        simp at hvl
        omega
      generalize hM : ms[k] = M at hm
      generalize hVV : vals[k]'(by omega) = vv at hvk hvl hvne
      have hfin : ∀ (i : Nat) x, vv[i]? = some x → ∃ l, losses[i]? = some l := by
        intro i x hx
        have := (List.getElem?_eq_some_iff.mp hx).1
        exact ⟨_, List.getElem?_eq_getElem (by omega)⟩
      have run : ∀ (i : Nat) x l, (if M.lowerBetter then argmin vv else argmax vv) = .ok i → vv[i]? = some x → losses[i]? = some l →
          getResults ms losses vals true = .ok (l, List.zipWith (fun m v => (m.name, (v[i]?).getD 0)) ms vals) := by
        intro i x l h1 h2 h3
        unfold getResults mainMetric
        have h0 : ms.length > 0 := by omega
        simp only [if_true, hf', h0, hm, hvk, h1, h3]
      cases hlb : M.lowerBetter with
      | true =>
        obtain ⟨i, m, h1, h2, h3⟩ := argmin_spec vv hvne
        obtain ⟨l, hl'⟩ := hfin i m h2
        refine ⟨i, _, run i m l (by rw [if_pos hlb]; exact h1) h2 hl', results_at ms losses vals hv hl i l hl', by simp, by simp, ?_⟩
        intro _ k' m' v' hk' hm' hv'
        rw [Option.some.injEq] at hk'
        subst hk'
        rw [hm, Option.some.injEq] at hm'
        rw [hvk, Option.some.injEq] at hv'
        subst hm' hv'
        refine ⟨m, h2, fun j y hy => ?_⟩
        rw [if_pos hlb]
        exact h3 j y hy
      | false =>
        obtain ⟨i, m, h1, h2, h3⟩ := argmax_spec vv hvne
        obtain ⟨l, hl'⟩ := hfin i m h2
        refine ⟨i, _, run i m l (by rw [if_neg (by simp [hlb])]; exact h1) h2 hl', results_at ms losses vals hv hl i l hl', by simp, by simp, ?_⟩
        intro _ k' m' v' hk' hm' hv'
        rw [Option.some.injEq] at hk'
        subst hk'
        rw [hm, Option.some.injEq] at hm'
        rw [hvk, Option.some.injEq] at hv'
        subst hm' hv'
        refine ⟨m, h2, fun j y hy => ?_⟩
        rw [if_neg (by simp [hlb])]
        exact h3 j y hy

/-- without any validation epoch there are no results -/
theorem no_epoch_error (ms : List Metric) (vals : List (List ℝ)) (best : Bool) : ∃ e, getResults ms [] vals best = .error e := by
  unfold getResults
  simp only [List.getElem?_nil]
  split
  · exact ⟨_, rfl⟩
  · exact ⟨_, rfl⟩

example : getResults [⟨"m", false, true⟩] [3, 1] [[5, 4]] true = .ok (3, [("m", 5)]) := by
  have h : ¬ ((-4 : ℝ) < -5) := by norm_num
  simp [getResults, mainMetric, argmax, argmin, argminFrom, h]

end C77

end

end Tomopt
