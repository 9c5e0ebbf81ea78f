import Verif.Lemmas.History

/- C120: the history of metrics. -/
namespace Tomopt

noncomputable section

namespace C120

open Fit

variable {W V P C : Type} {E : Env W V P} {k : Nat} {st : W → Hist} {obs : W → Nat → Option ℝ} {ns : List String}
variable {c : Conf} {trn val : Passives V} {w : W} {mkdir : W → Except Err Unit × W} {o : Outer W V P C} {n : Nat}

/-- **C120.** After a fit with validation that ends normally, the history has one validation loss per epoch, and under the name of each metric one value per epoch: what
the metric was at the end of that epoch. Names differ (`ns.Nodup`), and no callback after the logger changes a metric at the end of a validation epoch (`hobs`).
(`obs w i` is the value of the `i`-th metric; `w` is the world once the folder has been made.) -/
theorem history (hH : Holds E k st obs (histStep ns)) (hk : k < o.cbList.length) (hns : ns.Nodup) (hw : mkdir o.w = (.ok (), w))
    (hobs : ∀ i fp w, k < i → fp.mode = .valid → obs (E.cb i .epochEnd fp w).2.2 = obs w) (o' : Outer W V P C)
    (h : fit E c mkdir n trn (some val) o = (.ok (), o')) :
    ∃ (m : Nat) (s : S W V P), m ≤ n ∧ Reached E { c with nCb := o.cbList.length } trn (some val) w o.log m s ∧ (m = n ∨ s.fp.stop = true) ∧
      (lossHistory (st o'.w)).1.2.length = m ∧
      ∀ i name, ns[i]? = some name → ∃ xs, (lossHistory (st o'.w)).2.get? name = some xs ∧ xs.length = m ∧
        ∀ e, e < m → ∃ t, Reached E { c with nCb := o.cbList.length } trn (some val) w o.log (e + 1) t ∧ xs[e]? = some (obs t.w i) ∧ obs t.w i ≠ none := by
  unfold fit at h
  rw [hw] at h
  simp only at h
  obtain ⟨hr, rfl⟩ := Prod.mk.inj h
  simp only
  generalize hb : fitBody E { c with nCb := o.cbList.length } n trn (some val) ⟨initFp .train, w, o.log⟩ = b at hr
  obtain ⟨r, s'⟩ := b
  simp only at hr ⊢
  subst hr
  unfold fitBody at hb
  rw [← seq_assoc] at hb
  obtain ⟨s1, h1, hb⟩ := seq_ok hb
  obtain ⟨s2, h2, h3⟩ := seq_ok hb
  obtain ⟨m, -, m2, -, m3, m4⟩ := reached_of_epochs n 0 s1 s2 (.start h1) (.inl rfl) h2
  obtain ⟨i1, i2, i3⟩ := hist_reached hH (c := { c with nCb := o.cbList.length }) hk hobs m s2 m3
  obtain ⟨d, hd⟩ := hH.told_any .trainEnd (List.range o.cbList.length) (by simpa using hk) List.nodup_range s2 _ h3
  simp only [histStep, logStep, Prod.mk.injEq, true_and] at hd
  refine ⟨m, s2, by omega, m3, by simpa using m4, ?_, fun i name hi => ?_⟩
  · rw [← hd]
    exact i1
  · have hi' : i < (st s2.w).vals.length := by
      rw [i2]
      exact (List.getElem?_eq_some_iff.mp hi).1
    have hxs := List.getElem?_eq_getElem hi'
    obtain ⟨j1, j2⟩ := i3 i _ hxs
    refine ⟨_, ?_, j1, j2⟩
    rw [← hd, ← hxs]
    exact zip_get _ _ i2 hns i name hi []

/-- The losses in the history are those of a logger as in C51. -/
theorem logs (hH : Holds E k st obs (histStep ns)) : Logs E k fun w => (st w).log where
  self e fp w hok := by
    obtain ⟨h1, h2⟩ := hH.self e fp w
    rw [hok] at h1
    rw [h2]
    unfold histStep at h1 ⊢
    rcases hx : logStep e (viewOf fp) (st w).log with x | l
    · rw [hx] at h1
      simp at h1
    · cases e <;> simp only
      all_goals (repeat' split)
      all_goals rfl
  other i e fp w hi := by rw [hH.other i e fp w hi]
  prim a fp w := by rw [hH.prim a fp w]
  pred fp w := by rw [hH.pred fp w]
  loss p w := by rw [hH.loss p w]

/-! ### What does not hold -/

/-- Two metrics with the same name (by default the name of their class): the history has the values of the later one only. -/
theorem names_violated (log : Logger) (a b : List (Option ℝ)) (name : String) :
    (lossHistory ⟨log, [a, b], [name, name]⟩).2.get? name = some b ∧ (lossHistory ⟨log, [a, b], [name, name]⟩).2.length = 1 := by
  constructor <;> simp [lossHistory, Dict.set, Dict.modify, Dict.get?]

/-- **C120 (violated): after an exception.** Until the end of the training nothing that was recorded of metrics is in the history, whatever interjections the logger got. -/
theorem exception_violated (ns : List String) (evs : List (Ev × View × (Nat → Option ℝ))) (h : ∀ x ∈ evs, x.1 ≠ .trainEnd) (v : View) (d : Nat → Option ℝ) (h0 : Hist) :
    (lossHistory (evs.foldl (fun h x => (histStep ns x.1 x.2.1 x.2.2 h).2) (histStep ns .trainBegin v d h0).2)).2 = [] := by
  have key : ∀ h1 : Hist, h1.names = [] → (evs.foldl (fun h x => (histStep ns x.1 x.2.1 x.2.2 h).2) h1).names = [] := by
    induction evs with
    | nil => intro h1 hh; exact hh
    | cons x evs ih =>
      intro h1 hh
      rw [List.foldl_cons]
      refine ih (fun y hy => h y (by simp [hy])) _ ?_
      have hx := h x (by simp)
      obtain ⟨e, v, d⟩ := x
      unfold histStep
      rcases logStep e v h1.log with err | l
      · exact hh
      · simp only at hx ⊢
        cases e <;> simp only <;> first | contradiction | skip
        all_goals (repeat' split)
        all_goals exact hh
  have := key (histStep ns .trainBegin v d h0).2 (by simp [histStep, logStep])
  unfold lossHistory
  rw [this, List.zip_nil_right]
  rfl

/-- **C120 (violated): order.** Every metric is `None` when a training begins (eval_metric.py 36): if one is computed only when a validation epoch ends, by a callback
after the logger, the logger raises at the end of the first validation epoch. -/
theorem order_violated (ns : List String) (v : View) (hv : v.mode = .valid) (d : Nat → Option ℝ) (i : Nat) (hi : i < ns.length) (hd : d i = none) (h : Hist) :
    ∃ x, (histStep ns .epochEnd v d h).1 = .error x := by
  unfold histStep
  rcases logStep .epochEnd v h.log with x | l
  · exact ⟨x, rfl⟩
  · simp only [hv, if_true]
    rw [if_pos (List.any_eq_true.mpr ⟨i, by simpa using hi, by rw [hd]; rfl⟩)]
    exact ⟨_, rfl⟩

/-! ### An instance -/

/-- A world with a logger and the value of a metric -/
structure World where
  hist : Hist
  metric : Option ℝ

/-- The first callback is a metric: at the end of a validation epoch its value is the number of the epoch. The second is the logger. -/
def demo : Env World Unit Unit where
  cb i e fp w :=
    if i = 0 then (.ok (), ⟨fp.pred, fp.stop, fp.skip⟩, match e with
      | .trainBegin => { w with metric := none }
      | .epochEnd => if fp.mode = .valid then { w with metric := some fp.epoch } else w
      | _ => w)
    else if i = 1 then
      let r := histStep ["m"] e (viewOf fp) (fun _ => w.metric) w.hist
      (r.1, ⟨fp.pred, fp.stop, fp.skip⟩, { w with hist := r.2 })
    else (.ok (), ⟨fp.pred, fp.stop, fp.skip⟩, w)
  prim _ _ w := (.ok (), w)
  pred _ w := (.ok (some ()), w)
  loss _ w := (.ok 1, w)
  hasLoss := true

/-- It meets the hypotheses of the theorem. -/
example : Holds demo 1 World.hist (fun w _ => w.metric) (histStep ["m"]) ∧
    (∀ (i : Nat) fp w, 1 < i → fp.mode = Mode.valid → (fun (_ : Nat) => ((demo.cb i .epochEnd fp w).2.2).metric) = fun _ => w.metric) ∧ ["m"].Nodup := by
  refine ⟨⟨fun e fp w => ?_, fun e fp w => ?_, fun i e fp w hi => ?_, fun _ _ _ => rfl, fun _ _ => rfl, fun _ _ => rfl⟩, fun i fp w hi _ => ?_, by simp⟩
  · simp [demo]
  · simp [demo]
  · by_cases h0 : i = 0
    · simp only [demo, h0, if_true]
      cases e <;> simp only
      split <;> rfl
    · simp [demo, h0, hi]
  · have h0 : i ≠ 0 := by omega
    have h1 : i ≠ 1 := by omega
    simp [demo, h0, h1]

/-- The logger raises for this reason, and not because there were no volumes. -/
example : (histStep ["m"] .epochEnd ⟨.valid, 1, none, some 1⟩ (fun _ => none) ⟨⟨[], [], .pinf, .num 1, 1⟩, [[]], []⟩).1 = .error .typeError := by
  simp [histStep, logStep]

end C120

end

end Tomopt
