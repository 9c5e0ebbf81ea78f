import Verif.Lemmas.Holds
import Verif.Lemmas.SaveLoad
import Verif.Model.History

/- What the fitting loop does to the records of metrics. -/
namespace Tomopt

noncomputable section

namespace Fit

open EpochSave

variable {W V P : Type} {E : Env W V P} {k : Nat} {st : W → Hist} {obs : W → Nat → Option ℝ} {ns : List String}
variable {c : Conf} {trn val : Passives V} {w : W} {log : List (Act V)}

/-- losses of validation epochs and what is kept of metrics -/
def HistIs (L : List XF) (Vs : List (List (Option ℝ))) (Ns : List String) (h : Hist) : Prop := h.log.val = L ∧ h.vals = Vs ∧ h.names = Ns

theorem histStep_quiet (e : Ev) (v : View) (d : Nat → Option ℝ) (h : Hist) (he : e ≠ .trainBegin ∧ e ≠ .trainEnd ∧ (e = .epochEnd → v.mode ≠ .valid))
    (L : List XF) (Vs : List (List (Option ℝ))) (Ns : List String) (hh : HistIs L Vs Ns h) : HistIs L Vs Ns (histStep ns e v d h).2 := by
  obtain ⟨h1, h2, h3⟩ := he
  unfold histStep
  have hl : ∀ l, logStep e v h.log = .ok l → l.val = h.log.val := by
    intro l hl
    cases e <;> simp only [logStep] at hl <;> first | contradiction | skip
    all_goals first
      | (rw [if_neg (h3 rfl)] at hl; cases hl; rfl)
      | (split at hl <;> (cases hl; rfl))
      | (cases hl; rfl)
  rcases hx : logStep e v h.log with x | l
  · exact hh
  · have := hl l hx
    obtain ⟨a, b, c⟩ := hh
    cases e <;> simp only <;> first | contradiction | skip
    all_goals first
      | (rw [if_neg (h3 rfl)]; exact ⟨this.trans a, b, c⟩)
      | exact ⟨this.trans a, b, c⟩

theorem hist_told (hH : Holds E k st obs (histStep ns)) (md : Mode) (e : Ev) (he : e ≠ .trainBegin ∧ e ≠ .trainEnd ∧ (e = .epochEnd → md ≠ .valid))
    (L : List XF) (Vs : List (List (Option ℝ))) (Ns : List String) :
    Inv (fun s : S W V P => HistIs L Vs Ns (st s.w) ∧ s.fp.mode = md) (cbs E c e) :=
  inv_each _ _ fun i => hH.cb_inv (HistIs L Vs Ns) md i e fun v d x hv hx => histStep_quiet e v d x ⟨he.1, he.2.1, fun h => hv ▸ he.2.2 h⟩ L Vs Ns hx

theorem hist_scan (hH : Holds E k st obs (histStep ns)) (md : Mode) (L : List XF) (Vs : List (List (Option ℝ))) (Ns : List String) (ps : Passives V) :
    Inv (fun s : S W V P => HistIs L Vs Ns (st s.w) ∧ s.fp.mode = md) (scanVolumes E c ps) :=
  (hH.kept (HistIs L Vs Ns) md fun e he v d x hv hx => histStep_quiet e v d x ⟨he.2.1, he.2.2.2.2.1, fun h => absurd h he.2.2.2.1⟩ L Vs Ns hx).scan _ _ _

theorem hist_epoch (hH : Holds E k st obs (histStep ns)) (hk : k < c.nCb)
    (hobs : ∀ i fp w, k < i → fp.mode = .valid → obs (E.cb i .epochEnd fp w).2.2 = obs w) (s s' : S W V P) (h : fitEpoch E c trn (some val) s = (.ok (), s')) :
    (∃ x, (st s'.w).log.val = (st s.w).log.val ++ [x]) ∧ (st s'.w).vals = (st s.w).vals.mapIdx (fun i xs => xs ++ [obs s'.w i]) ∧ (st s'.w).names = (st s.w).names ∧
      ∀ i, i < ns.length → obs s'.w i ≠ none := by
  unfold fitEpoch at h
  obtain ⟨s1, h1, h⟩ := seq_ok h
  have e1 : s1.w = s.w := by cases h1; rfl
  obtain ⟨s2, h2, h⟩ := seq_ok h
  have e2 : st s2.w = st s1.w := by
    have a : st (call E (.volMode true) s1).2.w = st s1.w := hH.prim _ _ _
    rw [h2] at a
    exact a
  obtain ⟨s3, h3, h⟩ := seq_ok h
  have e3 : s3.w = s2.w ∧ s3.fp.mode = .train := by cases h3; exact ⟨rfl, rfl⟩
  obtain ⟨s4, h4, h⟩ := seq_ok h
  have q3 : HistIs (st s.w).log.val (st s.w).vals (st s.w).names (st s3.w) := by
    rw [e3.1, e2, e1]
    exact ⟨rfl, rfl, rfl⟩
  have q4 : HistIs (st s.w).log.val (st s.w).vals (st s.w).names (st s4.w) := by
    have rest : Inv (fun s' : S W V P => HistIs (st s.w).log.val (st s.w).vals (st s.w).names (st s'.w) ∧ s'.fp.mode = .train) (runEpoch E c trn) :=
      inv_seq (hist_told hH _ _ ⟨by simp, by simp, by simp⟩ _ _ _) (inv_seq (hist_scan hH _ _ _ _ _) (hist_told hH _ _ ⟨by simp, by simp, by simp⟩ _ _ _))
    have := rest s3 ⟨q3, e3.2⟩
    rw [h4] at this
    exact this.1
  simp only at h
  obtain ⟨s5, h5, h⟩ := seq_ok h
  have a : st (call E (.volMode false) s4).2.w = st s4.w := hH.prim _ _ _
  rw [h5] at a
  obtain ⟨s6, h6, h⟩ := seq_ok h
  have e6 : s6.w = s5.w ∧ s6.fp.mode = .valid := by cases h6; exact ⟨rfl, rfl⟩
  have q6 : HistIs (st s.w).log.val (st s.w).vals (st s.w).names (st s6.w) := by
    rw [e6.1]
    exact a.symm ▸ q4
  unfold runEpoch at h
  obtain ⟨s7, h7, h⟩ := seq_ok h
  have q7 := hist_told (c := c) hH .valid .epochBegin ⟨by simp, by simp, by simp⟩ (st s.w).log.val (st s.w).vals (st s.w).names s6 ⟨q6, e6.2⟩
  rw [h7] at q7
  obtain ⟨s8, h8, h⟩ := seq_ok h
  have q8 := hist_scan (c := c) hH .valid (st s.w).log.val (st s.w).vals (st s.w).names val s7 q7
  rw [h8] at q8
  obtain ⟨⟨l1, l2, l3⟩, m8⟩ := q8
  simp only at l1 l2 l3 m8
  obtain ⟨-, -, r⟩ := hH.told .epochEnd (List.range c.nCb) List.pairwise_lt_range s8 s' (fun i fp w hi hm => hobs i fp w hi (hm.trans m8)) h
  rw [if_pos (by simpa using hk)] at r
  unfold histStep at r
  have hv : (viewOf s8.fp).mode = .valid := m8
  rcases hx : logStep .epochEnd (viewOf s8.fp) (st s8.w).log with x | l
  · rw [hx] at r
    simp at r
  · rw [hx] at r
    simp only [hv, if_true] at r
    have hl : ∃ x, l.val = (st s8.w).log.val ++ [x] := by
      simp only [logStep, hv, if_true] at hx
      split at hx
      · cases hx
      · cases hx
        exact ⟨_, rfl⟩
    split at r
    · simp at r
    · rename_i hany
      simp only [Prod.mk.injEq, true_and] at r
      rw [← r]
      refine ⟨?_, by rw [l2], l3, fun i hi hnone => hany ?_⟩
      · rw [← l1]
        exact hl
      · rw [List.any_eq_true]
        exact ⟨i, by simpa using hi, by rw [hnone]; rfl⟩

/-- what is kept after `e` epochs -/
theorem hist_reached (hH : Holds E k st obs (histStep ns)) (hk : k < c.nCb)
    (hobs : ∀ i fp w, k < i → fp.mode = .valid → obs (E.cb i .epochEnd fp w).2.2 = obs w) (e : Nat) (s : S W V P) (h : Reached E c trn (some val) w log e s) :
    (st s.w).log.val.length = e ∧ (st s.w).vals.length = ns.length ∧
      ∀ i xs, (st s.w).vals[i]? = some xs → xs.length = e ∧ ∀ j, j < e → ∃ t, Reached E c trn (some val) w log (j + 1) t ∧ xs[j]? = some (obs t.w i) ∧ obs t.w i ≠ none := by
  induction h with
  | start h =>
    obtain ⟨s1, h1, h2⟩ := seq_ok h
    obtain ⟨d, hd⟩ := hH.told_any .trainBegin (List.range c.nCb) (by simpa using hk) List.nodup_range s1 _ h2
    simp only [histStep, logStep, Prod.mk.injEq, true_and] at hd
    rw [← hd]
    refine ⟨rfl, by simp, fun i xs hxs => ?_⟩
    simp only [List.getElem?_map, Option.map_eq_some_iff] at hxs
    obtain ⟨_, -, rfl⟩ := hxs
    exact ⟨rfl, fun j hj => by omega⟩
  | @next e s s' h hst hf ih =>
    obtain ⟨i1, i2, i3⟩ := ih
    obtain ⟨⟨x, p1⟩, p2, -, p4⟩ := hist_epoch hH hk hobs s s' hf
    have hr' : Reached E c trn (some val) w log (e + 1) s' := .next h hst hf
    refine ⟨by rw [p1]; simp [i1], by rw [p2]; simp [i2], fun i xs hxs => ?_⟩
    rw [p2, List.getElem?_mapIdx, Option.map_eq_some_iff] at hxs
    obtain ⟨ys, hys, rfl⟩ := hxs
    have hi : i < ns.length := by
      rw [← i2]
      exact (List.getElem?_eq_some_iff.mp hys).1
    obtain ⟨j1, j2⟩ := i3 i ys hys
    refine ⟨by simp [j1], fun j hj => ?_⟩
    rcases Nat.lt_succ_iff_lt_or_eq.mp hj with hlt | rfl
    · obtain ⟨t, t1, t2, t3⟩ := j2 j hlt
      exact ⟨t, t1, by rw [List.getElem?_append_left (by omega)]; exact t2, t3⟩
    · exact ⟨s', hr', by rw [List.getElem?_append_right (by omega), j1]; simp, p4 i hi⟩

/-- the entry of a name in a dictionary filled from two lists, if names differ -/
theorem zip_get {α : Type} (vs : List α) (ns : List String) (hl : vs.length = ns.length) (hn : ns.Nodup) (i : Nat) (name : String) (hi : ns[i]? = some name)
    (d : Dict String α) : ((List.zip vs ns).foldl (fun r x => r.set x.2 x.1) d).get? name = vs[i]? := by
  have notin : ∀ (vs : List α) (ns : List String) (d : Dict String α), name ∉ ns →
      ((List.zip vs ns).foldl (fun r x => r.set x.2 x.1) d).get? name = d.get? name := by
    intro vs
    induction vs with
    | nil => intro ns d _; rfl
    | cons v vs ih =>
      intro ns d hnot
      cases ns with
      | nil => rfl
      | cons a ns =>
        simp only [List.mem_cons, not_or] at hnot
        rw [List.zip_cons_cons, List.foldl_cons, ih ns _ hnot.2, SaveLoad.get?_set, if_neg fun h => hnot.1 h.symm]
  induction vs generalizing ns i d with
  | nil =>
    cases ns with
    | nil => simp at hi
    | cons a ns => simp at hl
  | cons v vs ih =>
    cases ns with
    | nil => simp at hl
    | cons a ns =>
      rw [List.nodup_cons] at hn
      rw [List.zip_cons_cons, List.foldl_cons]
      cases i with
      | zero =>
        simp only [List.getElem?_cons_zero, Option.some.injEq] at hi
        subst hi
        rw [notin vs ns _ hn.1, SaveLoad.get?_set, if_pos rfl]
        rfl
      | succ i =>
        simp only [List.getElem?_cons_succ] at hi ⊢
        exact ih ns (by simpa using hl) hn.2 i hi _

end Fit

end

end Tomopt
