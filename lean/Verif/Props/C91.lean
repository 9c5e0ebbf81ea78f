import Verif.Lemmas.Records
import Verif.Props.C40_43
import Mathlib.Tactic.Linarith
import Mathlib.Tactic.FieldSimp
import Mathlib.Tactic.Positivity

/-
C91: records of points of closest approach and of hits, and the layers they are assigned to.
-/
namespace Tomopt

noncomputable section

namespace C91

open Fit Records

/-! ### What is recorded -/

section Loops

variable {W V P α : Type}

/-- **C91, training.** Whatever the environment does and wherever it raises: after a fit the record holds what was inferred from the batches of muons of this fit, in order and
nothing else, one entry for each inference in the log; if the fit raised after the first batch, at most the last entry is missing. -/
theorem fit_record {C : Type} (E : Env W V P) (c : Conf) (k : Nat) (record : W → List α) (obs : W → α) (hist : W → List α) (hW : Records.Keeps E k record obs hist)
    (mkdir : W → Except Err Unit × W) (hmk : ∀ w, hist (mkdir w).2 = hist w) (n : Nat) (trn : Passives V) (val : Option (Passives V)) (o o' : Outer W V P C)
    (hk : k < o.cbList.length) (r : Except Err Unit) (h : fit E c mkdir n trn val o = (r, o')) :
    ∃ new t, o'.log = o.log ++ t ∧ hist o'.w = hist o.w ++ new ∧ (r = .ok () → record o'.w = new ∧ new.length = t.countP isInfer) ∧
      (new ≠ [] → record o'.w = new ∨ ∃ x, new = record o'.w ++ [x]) := by
  unfold Fit.fit at h
  simp only at h
  have hh := hmk o.w
  rcases hm : mkdir o.w with ⟨q, w⟩
  rw [hm] at h hh
  cases q with
  | error e =>
    simp only [Prod.mk.injEq] at h
    obtain ⟨rfl, rfl⟩ := h
    exact ⟨[], [], by simp, by simpa using hh, by simp, by simp⟩
  | ok u =>
    simp only at h
    set c' : Conf := { c with nCb := o.cbList.length } with hc'
    rcases hb : fitBody E c' n trn val ⟨initFp .train, w, o.log⟩ with ⟨q, s'⟩
    rw [hb] at h
    simp only [Prod.mk.injEq] at h
    obtain ⟨rfl, rfl⟩ := h
    unfold fitBody at hb
    have hW' := hW
    obtain ⟨new, t, g1, g2, g3, g4⟩ := run_record hW c' hk .trainBegin (Or.inl rfl) (cbs E c' .setWrapper) _ (grows_cbs hW c' _ (by simp) (by simp) (by simp))
      (fun s r s' h => (cbs_upto hW _ _ List.nodup_range _ _ _ h).choose_spec.2.2.1)
      (fun s r s' h => ⟨_, (cbs_upto hW _ _ List.nodup_range _ _ _ h).choose_spec.1, (cbs_upto hW _ _ List.nodup_range _ _ _ h).choose_spec.2.1⟩)
      (grows_seq (grows_epochs hW c' hk trn val n) (grows_cbs hW c' .trainEnd (by simp) (by simp) (by simp))) _ _ _ hb
    simp only at hh
    exact ⟨new, t, g1, by rw [g2, hh], g3, g4⟩

theorem count_evs (n : Nat) (e : Ev) : (Spec.evs n e : List (Act V)).countP isInfer = 0 := by
  simp [Spec.evs, List.countP_eq_zero, isInfer]

theorem count_mu (n : Nat) : (Spec.mu n : List (Act V)).countP isInfer = 1 := by
  simp only [Spec.mu, List.countP_append, count_evs]
  rfl

theorem count_vol (p : Spec.Scan) (x : V × Spec.Out) : (Spec.vol p x).countP isInfer = p.k := by
  have hk : ∀ k, ((List.replicate k (Spec.mu p.n : List (Act V))).flatten).countP isInfer = k := by
    intro k
    induction k with
    | zero => rfl
    | succ k ih => rw [List.replicate_succ, List.flatten_cons, List.countP_append, ih, count_mu]; omega
  have hl : ((Spec.lossOf p.counted x.2).toList.map (Act.loss : ℝ → Act V)).countP isInfer = 0 := by
    cases Spec.lossOf p.counted x.2 <;> rfl
  simp only [Spec.vol, List.countP_append, count_evs, hk, hl]
  simp [isInfer]

/-- **C91, prediction.** After a prediction the record holds what was inferred from its batches of muons: as many entries as there are whole batches per volume, for each
volume. -/
theorem predict_record {C R : Type} (E : Env W V P) (c : Conf) (k : Nat) (record : W → List α) (obs : W → α) (hist : W → List α) (hW : Records.Keeps E k record obs hist)
    (predCb : C) (getPreds : W → Except Err R) (ps : Passives V) (o o' : Outer W V P C) (hk : k < o.cbList.length) (r : Except Err R)
    (h : predict E c predCb getPreds ps o = (r, o')) :
    ∃ new, hist o'.w = hist o.w ++ new ∧ ((∃ a, r = .ok a) → record o'.w = new ∧ new.length = ps.vols.length * (c.nMu / c.muBs)) ∧
      (new ≠ [] → record o'.w = new ∨ ∃ x, new = record o'.w ++ [x]) := by
  obtain ⟨xs, t', hx, ht, -, hok⟩ := C41.predict_trace E c predCb getPreds ps o
  rw [h] at ht hok
  simp only at ht hok
  unfold Fit.predict at h
  simp only at h
  set c' : Conf := { c with nCb := (o.cbList ++ [predCb]).length } with hc'
  rcases hb : predictBody E c' ps ⟨initFp .test, o.w, o.log⟩ with ⟨q, s'⟩
  rw [hb] at h
  unfold predictBody at hb
  have hk' : k < c'.nCb := by simp [hc']; omega
  rw [← seq_assoc] at hb
  obtain ⟨new, t, g1, g2, g3, g4⟩ := run_record hW c' hk' .predBegin (Or.inr rfl) (cbs E c' .setWrapper ;; call E (.volMode false)) _
    (grows_seq (grows_cbs hW c' _ (by simp) (by simp) (by simp)) (grows_call hW _ rfl))
    (fun s r s' h => by
      unfold seq at h
      rcases h1 : cbs E c' .setWrapper s with ⟨r1, s1⟩
      have e1 := (cbs_upto hW _ _ List.nodup_range _ _ _ h1).choose_spec.2.2.1
      rw [h1] at h
      cases r1 with
      | error e => simp only [Prod.mk.injEq] at h; rw [← h.2, e1]
      | ok u =>
        unfold call seq note at h
        simp only [Prod.mk.injEq] at h
        rw [← h.2, ← e1]
        exact hW.primHist _ _ _ (by simp))
    (fun s r s' h => by
      unfold seq at h
      rcases h1 : cbs E c' .setWrapper s with ⟨r1, s1⟩
      obtain ⟨t, e1, e2, -⟩ := cbs_upto hW _ _ List.nodup_range _ _ _ h1
      rw [h1] at h
      cases r1 with
      | error e => simp only [Prod.mk.injEq] at h; rw [← h.2]; exact ⟨t, e1, e2⟩
      | ok u =>
        unfold call seq note at h
        simp only [Prod.mk.injEq] at h
        rw [← h.2]
        refine ⟨t ++ [.volMode false], by simp [e1], by rw [List.countP_append, e2]; rfl⟩)
    (grows_seq (grows_scanFrom hW c' hk' ps.len ps.vols 0) (grows_cbs hW c' .predEnd (by simp) (by simp) (by simp))) _ _ _ hb
  have ho : o'.log = s'.log ∧ o'.w = s'.w := by
    cases q <;> · simp only [Prod.mk.injEq] at h; rw [← h.2]; exact ⟨rfl, rfl⟩
  rw [ho.2]
  refine ⟨new, g2, ?_, g4⟩
  rintro ⟨a, rfl⟩
  have hq : q = .ok () := by
    cases q with
    | error e => simp at h
    | ok u => rfl
  refine ⟨(g3 hq).1, ?_⟩
  rw [(g3 hq).2]
  have : t = t' := List.append_cancel_left (g1.symm.trans (ho.1.symm.trans ht))
  rw [this, hok ⟨a, rfl⟩]
  have hscan : ∀ (p : Spec.Scan) (xs : List (V × Spec.Out)), (xs.flatMap (Spec.vol p)).countP isInfer = xs.length * p.k := by
    intro p xs
    induction xs with
    | nil => simp
    | cons x xs ih => rw [List.flatMap_cons, List.countP_append, ih, count_vol, List.length_cons]; ring
  have hlen : xs.length = ps.vols.length := by rw [← hx, List.length_map]
  simp only [Spec.predict, Spec.scanTest, List.countP_append, count_evs, hscan, hlen]
  simp [isInfer]

/-- A recorder in a small world: the state is (record, current observation, history), every inference observes the next number. -/
def demo : Env (List Nat × Nat × List Nat) Unit Unit where
  cb i e _ w := (.ok (), ⟨some (), false, false⟩, if i = 0 then (step e w.2.1 w.1, w.2) else w)
  prim a _ w := (.ok (), match a with
    | .inferScatter => (w.1, w.2.1 + 1, w.2.2 ++ [w.2.1 + 1])
    | _ => w)
  pred _ w := (.ok (some ()), w)
  loss _ w := (.ok 0, w)
  hasLoss := true

theorem demo_keeps : Records.Keeps demo 0 (fun w => w.1) (fun w => w.2.1) fun w => w.2.2 where
  self := by intro e fp w _; rfl
  selfErr := by intro e fp w x h; cases h
  other := by intro i e fp w hi; simp [demo, hi]
  cbObs := by intro i e fp w; simp only [demo]; split <;> rfl
  cbHist := by intro i e fp w; simp only [demo]; split <;> rfl
  prim := by intro a fp w; cases a <;> rfl
  infer := by intro fp w _; rfl
  inferErr := by intro fp w x h; cases h
  primHist := by intro a fp w h; cases a <;> first | rfl | exact absurd rfl h
  pred := by intro fp w; exact ⟨rfl, rfl⟩
  loss := by intro p w; exact ⟨rfl, rfl⟩

end Loops

/-- **C91: empty records.** Reading a record without any batch raises; otherwise all its rows are returned in order. -/
theorem get_record {β : Type} (record : List (List β)) : (record = [] ∧ getRecord record = .error .runtimeError) ∨ record ≠ [] ∧ getRecord record = .ok record.flatten := by
  unfold getRecord
  split <;> simp_all

/-! ### Points of closest approach -/

/-- The point is a triple of numbers inside the passive volume. -/
def Inside (lw zr : ℝ × ℝ) (p : XF × XF × XF) (q : ℝ × ℝ × ℝ) : Prop :=
  p = (.num q.1, .num q.2.1, .num q.2.2) ∧ 0 ≤ q.1 ∧ q.1 < lw.1 ∧ 0 ≤ q.2.1 ∧ q.2.1 < lw.2 ∧ zr.1 ≤ q.2.2 ∧ q.2.2 < zr.2

theorem mask_iff (lw zr : ℝ × ℝ) (p : XF × XF × XF) : mask lw zr p = true ↔ Inside lw zr p (val p.1, val p.2.1, val p.2.2) := by
  obtain ⟨x, y, z⟩ := p
  unfold mask Inside
  cases x <;> cases y <;> cases z <;> simp [between, val, and_assoc]

/-- **C91: which points.** The points saved for a batch are those of the muons, in order, whose point of closest approach is inside the passive volume. -/
theorem kept_points (V : Volume) (lw zr : ℝ × ℝ) (hlw : V.lw = .ok lw) (hzr : V.zRange = .ok zr) (pocas : List (XF × XF × XF)) :
    ∃ (rows : List (ℝ × ℝ × ℝ)) (idx : List Nat), kept V pocas = .ok rows ∧ idx.Pairwise (· < ·) ∧ (∀ i, i ∈ idx ↔ ∃ p q, pocas[i]? = some p ∧ Inside lw zr p q) ∧
      List.Forall₂ (fun i q => ∃ p, pocas[i]? = some p ∧ Inside lw zr p q) idx rows := by
  have hk : kept V pocas = .ok ((pocas.filter (mask lw zr)).map fun p => (val p.1, val p.2.1, val p.2.2)) := by
    simp only [kept, hzr, hlw]; rfl
  refine ⟨_, (List.range pocas.length).filter fun i => (pocas[i]?.map (mask lw zr)).getD false, hk, ?_, ?_, ?_⟩
  · exact List.Pairwise.filter _ List.pairwise_lt_range
  · intro i
    simp only [List.mem_filter, List.mem_range]
    constructor
    · rintro ⟨hi, hm⟩
      rw [List.getElem?_eq_getElem hi] at hm
      exact ⟨pocas[i], _, List.getElem?_eq_getElem hi, (mask_iff lw zr _).mp (by simpa using hm)⟩
    · rintro ⟨p, q, hp, hq⟩
      obtain ⟨hi, rfl⟩ := List.getElem?_eq_some_iff.mp hp
      refine ⟨hi, ?_⟩
      rw [hp]
      have : q = (val pocas[i].1, val pocas[i].2.1, val pocas[i].2.2) := by rw [hq.1]; rfl
      rw [this] at hq
      simpa using (mask_iff lw zr _).mpr hq
  · clear hk
    induction pocas using List.reverseRecOn with
    | nil => simp
    | append_singleton l a ih =>
      rw [List.length_append, List.length_singleton, List.range_succ, List.filter_append, List.filter_append, List.map_append]
      have hlt : ∀ i ∈ List.range l.length, (l ++ [a])[i]? = l[i]? := fun i hi => List.getElem?_append_left (by simpa using hi)
      refine List.rel_append ?_ ?_
      · have e : (List.range l.length).filter (fun i => ((l ++ [a])[i]?.map (mask lw zr)).getD false) =
            (List.range l.length).filter fun i => (l[i]?.map (mask lw zr)).getD false := by
          apply List.filter_congr
          intro i hi
          rw [hlt i hi]
        rw [e]
        refine List.Forall₂.imp ?_ ih
        rintro i q ⟨p, hp, hq⟩
        exact ⟨p, by rw [List.getElem?_append_left (List.getElem?_eq_some_iff.mp hp).1, hp], hq⟩
      · have ha : (l ++ [a])[l.length]? = some a := by simp
        by_cases hm : mask lw zr a = true
        · have : (List.filter (fun i => ((l ++ [a])[i]?.map (mask lw zr)).getD false) [l.length]) = [l.length] := by simp [hm]
          rw [this, List.filter_singleton, hm]
          exact List.Forall₂.cons ⟨a, ha, (mask_iff lw zr a).mp hm⟩ List.Forall₂.nil
        · have : (List.filter (fun i => ((l ++ [a])[i]?.map (mask lw zr)).getD false) [l.length]) = [] := by simp [hm]
          rw [this, List.filter_singleton, Bool.eq_false_iff.mpr hm]
          exact List.Forall₂.nil

/-- The passive layers of a volume are `n` slabs of size `s`, from `up` downwards. -/
structure Slabs (V : Volume) (up s : ℝ) : Prop where
  nonempty : V.passives ≠ []
  size : 0 < s
  slab : ∀ (i : Nat) (L : PassiveLayer), V.passives[i]? = some L → L.z = up - i * s ∧ L.size = s

theorem slabs_range {V : Volume} {up s : ℝ} (h : Slabs V up s) : V.zRange = .ok (up - V.passives.length * s, up) := by
  obtain ⟨h0, h1, h2⟩ := h
  unfold Volume.zRange
  have hl : 0 < V.passives.length := List.length_pos_iff.mpr h0
  have e1 := h2 0 _ (List.getElem?_eq_getElem hl)
  have e2 := h2 (V.passives.length - 1) _ (List.getElem?_eq_getElem (by omega))
  rw [List.head?_eq_getElem?, List.getLast?_eq_getElem?, List.getElem?_eq_getElem hl, List.getElem?_eq_getElem (show V.passives.length - 1 < _ by omega)]
  simp only
  rw [e2.1, e2.2, e1.1, Nat.cast_sub (by omega)]
  push_cast
  congr 2
  · ring
  · ring

theorem count_edges (n : Nat) (f : Nat → ℝ) (x : ℝ) (m : Nat) (hm : m ≤ n) (h1 : ∀ k < m, f k < x) (h2 : ∀ k, m ≤ k → k < n → x ≤ f k) :
    ((List.range n).map f).countP (fun e => decide (e < x)) = m := by
  rw [List.countP_map]
  obtain ⟨d, rfl⟩ := Nat.exists_eq_add_of_le hm
  rw [List.range_add, List.countP_append, List.countP_map]
  have a1 : (List.range m).countP ((fun e => decide (e < x)) ∘ f) = m := by
    have := List.countP_eq_length (p := (fun e => decide (e < x)) ∘ f) (l := List.range m)
    rw [this.mpr, List.length_range]
    intro a ha
    simpa using h1 a (by simpa using ha)
  have a2 : (List.range d).countP (((fun e => decide (e < x)) ∘ f) ∘ fun x => m + x) = 0 := by
    rw [List.countP_eq_zero]
    intro a ha
    simp only [Function.comp, decide_eq_true_eq, not_lt]
    exact h2 _ (by omega) (by have := List.mem_range.mp ha; omega)
  rw [a1, a2, Nat.add_zero]

/-- label of a number between the `m`-th and the next edge -/
theorem cut_mid (a s : ℝ) (hs : 0 < s) (n : Nat) (hn : 0 < n) (x : ℝ) (m : Nat) (hm : m < n) (h1 : a + m * s < x) (h2 : x ≤ a + (m + 1) * s) :
    cut (linspace a (a + n * s) n) x = some m := by
  have hn' : (n : ℝ) ≠ 0 := by exact_mod_cast hn.ne'
  have e : ∀ k : Nat, a + k * ((a + n * s - a) / n) = a + k * s := by intro k; field_simp; ring
  have hc : (linspace a (a + n * s) n).countP (fun e => decide (e < x)) = m + 1 := by
    unfold linspace
    refine count_edges _ _ _ _ (by omega) (fun k hk => ?_) fun k hk _ => ?_
    · rw [e]
      have : (k : ℝ) * s ≤ m * s := mul_le_mul_of_nonneg_right (by exact_mod_cast (by omega : k ≤ m)) hs.le
      linarith
    · rw [e]
      have : ((m : ℝ) + 1) * s ≤ k * s := mul_le_mul_of_nonneg_right (by exact_mod_cast hk) hs.le
      linarith
  unfold cut
  rw [hc, if_neg]
  · rfl
  · simp only [linspace, List.length_map, List.length_range]; omega

theorem cut_low (a s : ℝ) (hs : 0 < s) (n : Nat) (hn : 0 < n) (x : ℝ) (h : x ≤ a) : cut (linspace a (a + n * s) n) x = none := by
  have hn' : (n : ℝ) ≠ 0 := by exact_mod_cast hn.ne'
  have e : ∀ k : Nat, a + k * ((a + n * s - a) / n) = a + k * s := by intro k; field_simp; ring
  have hc : (linspace a (a + n * s) n).countP (fun e => decide (e < x)) = 0 := by
    unfold linspace
    refine count_edges _ _ _ _ (by omega) (fun k hk => by omega) fun k _ _ => ?_
    rw [e]
    have : 0 ≤ (k : ℝ) * s := by positivity
    linarith
  unfold cut
  rw [hc, if_pos (Or.inl rfl)]

theorem cut_high (a s : ℝ) (hs : 0 < s) (n : Nat) (hn : 0 < n) (x : ℝ) (h : a + n * s < x) : cut (linspace a (a + n * s) n) x = none := by
  have hn' : (n : ℝ) ≠ 0 := by exact_mod_cast hn.ne'
  have e : ∀ k : Nat, a + k * ((a + n * s - a) / n) = a + k * s := by intro k; field_simp; ring
  have hc : (linspace a (a + n * s) n).countP (fun e => decide (e < x)) = n + 1 := by
    unfold linspace
    refine count_edges _ _ _ _ (by omega) (fun k hk => ?_) fun k _ _ => by omega
    rw [e]
    have : (k : ℝ) * s ≤ n * s := mul_le_mul_of_nonneg_right (by exact_mod_cast (by omega : k ≤ n)) hs.le
    linarith
  unfold cut
  rw [hc, if_pos (Or.inr _)]
  simp [linspace]

theorem layers_eq {V : Volume} {up s h : ℝ} (hV : Slabs V up s) (hh : height V = .ok h) (rows : List (ℝ × ℝ × ℝ)) :
    layers V rows = .ok (rows.map fun p => cut (linspace (up - V.passives.length * s) ((up - V.passives.length * s) + V.passives.length * s) V.passives.length) (h - p.2.2)) := by
  have hn : 0 < V.passives.length := List.length_pos_iff.mpr hV.nonempty
  have : 0 < (V.passives.length : ℝ) * s := mul_pos (by exact_mod_cast hn) hV.size
  have hlt : up - V.passives.length * s < up := by linarith
  unfold layers
  rw [slabs_range hV, hh]
  simp only [bind, Except.bind]
  rw [if_pos hlt, sub_add_cancel]

/-- **C91: labels in general.** If the first layer is `m` voxels higher than the top of the passive layers plus the height of their bottom, a point in the `i`-th passive layer from
the top gets the label `i + m`, or none if there is no such layer. -/
theorem layer_shift (V : Volume) (up s h : ℝ) (hV : Slabs V up s) (hh : height V = .ok h) (m : ℤ) (hm : h = up + (up - V.passives.length * s) + m * s)
    (p : ℝ × ℝ × ℝ) (i : Nat) (L : PassiveLayer) (hi : V.passives[i]? = some L) (h1 : L.z - L.size ≤ p.2.2) (h2 : p.2.2 < L.z) :
    layers V [p] = .ok [if 0 ≤ i + m ∧ i + m < V.passives.length then some (i + m).toNat else none] := by
  rw [layers_eq hV hh]
  obtain ⟨hz, hsz⟩ := hV.slab i L hi
  have hil : i < V.passives.length := (List.getElem?_eq_some_iff.mp hi).1
  have hn : 0 < V.passives.length := by omega
  have hs := hV.size
  rw [hz, hsz] at h1
  rw [hz] at h2
  simp only [List.map_cons, List.map_nil]
  congr 2
  by_cases hr : 0 ≤ i + m ∧ i + m < V.passives.length
  · rw [if_pos hr]
    obtain ⟨j, hj⟩ := Int.eq_ofNat_of_zero_le hr.1
    have hj' : (i : ℝ) + m = j := by exact_mod_cast hj
    rw [hj, Int.toNat_natCast]
    have e : (j : ℝ) * s = i * s + m * s := by rw [← hj']; ring
    refine cut_mid _ _ hs _ hn _ _ (by omega) ?_ ?_
    · rw [hm]; linarith
    · rw [hm]; linarith
  · rw [if_neg hr]
    by_cases h0 : 0 ≤ (i : ℤ) + m
    · have hge : (V.passives.length : ℤ) ≤ i + m := by omega
      have hge' : (V.passives.length : ℝ) ≤ i + m := by exact_mod_cast hge
      have := mul_le_mul_of_nonneg_right hge' hs.le
      refine cut_high _ _ hs _ hn _ ?_
      rw [hm]; linarith
    · have hle : (i : ℤ) + m ≤ -1 := by omega
      have hle' : (i : ℝ) + m ≤ -1 := by exact_mod_cast hle
      have := mul_le_mul_of_nonneg_right hle' hs.le
      refine cut_low _ _ hs _ hn _ ?_
      rw [hm]; linarith

/-- every point inside the passive layers is labelled with the passive layer it is in, counted from the top -/
def Labelled (V : Volume) : Prop :=
  ∀ (p : ℝ × ℝ × ℝ) (i : Nat) (L : PassiveLayer), V.passives[i]? = some L → L.z - L.size ≤ p.2.2 → p.2.2 < L.z → layers V [p] = .ok [some i]

/-- **C91 (violated): layers of points.** The labels are right exactly if the first layer is as high above the passive layers as their bottom is above the ground: detectors of
the same height above and below. -/
theorem layer_iff_violated (V : Volume) (up s h : ℝ) (hV : Slabs V up s) (hh : height V = .ok h) :
    Labelled V ↔ h - up = up - V.passives.length * s := by
  have hn : 0 < V.passives.length := List.length_pos_iff.mpr hV.nonempty
  have hs := hV.size
  constructor
  · intro hl
    rcases lt_trichotomy (h - up) (up - V.passives.length * s) with hc | hc | hc
    · exfalso
      set ε := min s (up - V.passives.length * s - (h - up)) with hε
      have hε0 : 0 < ε := lt_min hs (by linarith)
      have hε1 : ε ≤ s := min_le_left _ _
      have hε2 : ε ≤ up - V.passives.length * s - (h - up) := min_le_right _ _
      obtain ⟨hz, hsz⟩ := hV.slab 0 _ (List.getElem?_eq_getElem hn)
      have := hl (0, 0, up - ε) 0 _ (List.getElem?_eq_getElem hn) (by rw [hz, hsz]; push_cast; linarith) (by rw [hz]; push_cast; linarith)
      rw [layers_eq hV hh] at this
      simp only [List.map_cons, List.map_nil, Except.ok.injEq, List.cons.injEq, and_true] at this
      rw [cut_low _ _ hs _ hn _ (by linarith)] at this
      cases this
    · exact hc
    · exfalso
      have hi : V.passives.length - 1 < V.passives.length := by omega
      obtain ⟨hz, hsz⟩ := hV.slab _ _ (List.getElem?_eq_getElem hi)
      rw [Nat.cast_sub (by omega)] at hz
      push_cast at hz
      have := hl (0, 0, up - V.passives.length * s) _ _ (List.getElem?_eq_getElem hi) (by rw [hz, hsz]; linarith) (by rw [hz]; linarith)
      rw [layers_eq hV hh] at this
      simp only [List.map_cons, List.map_nil, Except.ok.injEq, List.cons.injEq, and_true] at this
      rw [cut_high _ _ hs _ hn _ (by linarith)] at this
      cases this
  · intro hc p i L hi h1 h2
    have hil : i < V.passives.length := (List.getElem?_eq_some_iff.mp hi).1
    rw [layer_shift V up s h hV hh 0 (by push_cast; linarith) p i L hi h1 h2, if_pos (by omega)]
    simp

/-- two passive layers between detectors of the same height, and between detectors of different heights -/
def two (d : ℝ) : Volume :=
  let slab (z : ℝ) : AnyLayer := .passive ⟨(1, 1), z, 1, 0.1, "kuhn", none⟩
  ⟨[.detector ⟨"above", (1, 1), 3 + d, d, []⟩, slab 3, slab 2, .detector ⟨"below", (1, 1), 1, 1, []⟩], none, [], []⟩

example (d : ℝ) : Slabs (two d) 3 1 ∧ height (two d) = .ok (3 + d) := by
  refine ⟨⟨by simp [two, Volume.passives], by norm_num, fun i L h => ?_⟩, rfl⟩
  have e : (two d).passives.length = 2 := rfl
  have hi : i < 2 := by rw [← e]; exact (List.getElem?_eq_some_iff.mp h).1
  match i, hi with
  | 0, _ => cases h; norm_num
  | 1, _ => cases h; norm_num

/-! ### Hits -/

theorem count_lt {l : List ℝ} {x y : ℝ} (hx : x ∈ l) (h : x < y) : l.countP (fun z => decide (z < x)) < l.countP (fun z => decide (z < y)) := by
  induction l with
  | nil => simp at hx
  | cons a l ih =>
    rw [List.countP_cons, List.countP_cons]
    have hmono : l.countP (fun z => decide (z < x)) ≤ l.countP (fun z => decide (z < y)) :=
      List.countP_mono_left fun z _ hz => by simp only [decide_eq_true_eq] at hz ⊢; linarith
    rcases List.mem_cons.mp hx with rfl | hx
    · simp only [lt_irrefl, decide_false, Bool.false_eq_true, if_false, h, decide_true, if_true]
      omega
    · have := ih hx
      have hm : (if decide (a < x) = true then 1 else 0) ≤ (if decide (a < y) = true then 1 else 0) := by
        by_cases ha : a < x
        · simp [ha, ha.trans h]
        · simp [ha]
      omega

theorem code_inj {l : List ℝ} {x y : ℝ} (hx : x ∈ l) (hy : y ∈ l) (h : l.countP (fun z => decide (z < x)) = l.countP (fun z => decide (z < y))) : x = y := by
  rcases lt_trichotomy x y with hc | hc | hc
  · have := count_lt hx hc; omega
  · exact hc
  · have := count_lt hy hc; omega

/-- in an increasing list the code of the `j`-th number is `j` -/
theorem code_sorted {l : List ℝ} (hl : l.Pairwise (· < ·)) (j : Nat) (x : ℝ) (hj : l[j]? = some x) : l.countP (fun z => decide (z < x)) = j := by
  induction l generalizing j with
  | nil => simp at hj
  | cons a l ih =>
    obtain ⟨ha, hl⟩ := List.pairwise_cons.mp hl
    cases j with
    | zero =>
      simp only [List.getElem?_cons_zero, Option.some.injEq] at hj
      subst hj
      rw [List.countP_eq_zero]
      intro z hz
      rcases List.mem_cons.mp hz with rfl | hz
      · simp
      · simp [(ha z hz).le]
    | succ j =>
      rw [List.getElem?_cons_succ] at hj
      have hx : x ∈ l := List.mem_of_getElem? hj
      rw [List.countP_cons, ih hl j hj, if_pos (by simpa using ha x hx)]

/-- the labels say, for every muon, which panel a hit is on: panels are numbered from the top -/
def ByPanel (n : Nat) (hits : List (List ℝ)) (ls : List Nat) : Prop := ls = (List.replicate hits.length (List.range n)).flatten

/-- **C91 (violated): layers of hits.** For muons that each have hits on `n` panels, from the top downwards: hits are labelled with the number of their panel exactly if no panel
moved, that is if all muons have their hits at the same heights. -/
theorem hit_layer_iff_violated (V : Volume) (h : ℝ) (hh : height V = .ok h) (n : Nat) (hits : List (List ℝ)) (hn : ∀ zs ∈ hits, zs.length = n)
    (hs : ∀ zs ∈ hits, zs.Pairwise (· > ·)) :
    ∃ ls, hitLayers V hits = .ok ls ∧ (ByPanel n hits ls ↔ ∀ zs ∈ hits, ∀ zs' ∈ hits, zs = zs') := by
  refine ⟨codes (hits.flatten.map fun z => h - z), by simp only [hitLayers, hh]; rfl, ?_⟩
  obtain ⟨D, hD⟩ : ∃ D, D = (hits.flatten.map fun z => h - z).dedup := ⟨_, rfl⟩
  have hco : codes (hits.flatten.map fun z => h - z) = (hits.map fun zs => zs.map fun z => D.countP fun y => decide (y < h - z)).flatten := by
    unfold codes
    rw [← hD, List.map_map, List.map_flatten]
    rfl
  have hmem : ∀ zs ∈ hits, ∀ z ∈ zs, h - z ∈ D := by
    intro zs hzs z hz
    rw [hD, List.mem_dedup]
    exact List.mem_map.mpr ⟨z, List.mem_flatten.mpr ⟨zs, hzs, hz⟩, rfl⟩
  unfold ByPanel
  rw [hco]
  constructor
  · intro he
    -- every muon's labels are 0, 1, …
    have key : ∀ zs ∈ hits, (zs.map fun z => D.countP fun y => decide (y < h - z)) = List.range n := by
      have gen : ∀ hs : List (List ℝ), (∀ zs ∈ hs, zs.length = n) →
          (hs.map fun zs => zs.map fun z => D.countP fun y => decide (y < h - z)).flatten = (List.replicate hs.length (List.range n)).flatten →
          ∀ zs ∈ hs, (zs.map fun z => D.countP fun y => decide (y < h - z)) = List.range n := by
        intro hs
        induction hs with
        | nil => intro _ _ zs hz; simp at hz
        | cons a hs ih =>
          intro hl he zs hz
          rw [List.map_cons, List.flatten_cons, List.length_cons, List.replicate_succ, List.flatten_cons] at he
          obtain ⟨e1, e2⟩ := List.append_inj he (by simp [hl a])
          rcases List.mem_cons.mp hz with rfl | hz
          · exact e1
          · exact ih (fun zs hz => hl zs (List.mem_cons_of_mem _ hz)) e2 zs hz
      exact gen hits hn he
    intro zs hz zs' hz'
    apply List.ext_getElem (by rw [hn zs hz, hn zs' hz'])
    intro j h1 h2
    have k1 := List.getElem_of_eq (key zs hz) (i := j) (by simpa using h1)
    have k2 := List.getElem_of_eq (key zs' hz') (i := j) (by simpa using h2)
    simp only [List.getElem_map, List.getElem_range] at k1 k2
    have := code_inj (hmem zs hz _ (List.getElem_mem h1)) (hmem zs' hz' _ (List.getElem_mem h2)) (k1.trans k2.symm)
    linarith
  · intro he
    cases hits with
    | nil => rfl
    | cons zs0 rest =>
      -- the distinct values are those of the first muon
      have hall : ∀ zs ∈ zs0 :: rest, zs = zs0 := fun zs hz => he zs hz zs0 (by simp)
      have hperm : D.Perm (zs0.map fun z => h - z) := by
        have hnd : (zs0.map fun z => h - z).Nodup := by
          apply List.Pairwise.map _ _ (hs zs0 (by simp))
          intro a b hab
          have : a > b := hab
          intro hc
          linarith
        refine (List.perm_ext_iff_of_nodup (hD ▸ List.nodup_dedup _) hnd).mpr fun x => ?_
        rw [hD, List.mem_dedup, List.mem_map, List.mem_map]
        constructor
        · rintro ⟨z, hz, rfl⟩
          obtain ⟨zs, hzs, hz⟩ := List.mem_flatten.mp hz
          rw [hall zs hzs] at hz
          exact ⟨z, hz, rfl⟩
        · rintro ⟨z, hz, rfl⟩
          exact ⟨z, List.mem_flatten.mpr ⟨zs0, by simp, hz⟩, rfl⟩
      have hsort : (zs0.map fun z => h - z).Pairwise (· < ·) := by
        apply List.Pairwise.map _ _ (hs zs0 (by simp))
        intro a b hab
        have : a > b := hab
        linarith
      have hrow : (zs0.map fun z => D.countP fun y => decide (y < h - z)) = List.range n := by
        apply List.ext_getElem (by simp [hn zs0])
        intro j h1 h2
        simp only [List.getElem_map, List.getElem_range]
        rw [hperm.countP_eq]
        refine code_sorted hsort j _ ?_
        have hj : j < zs0.length := by simpa using h1
        rw [List.getElem?_map, List.getElem?_eq_getElem hj]
        rfl
      have hrep : (zs0 :: rest).map (fun zs => zs.map fun z => D.countP fun y => decide (y < h - z)) = List.replicate (zs0 :: rest).length (List.range n) := by
        rw [List.eq_replicate_iff]
        refine ⟨by simp, ?_⟩
        intro b hb
        obtain ⟨zs, hz, rfl⟩ := List.mem_map.mp hb
        rw [hall zs hz, hrow]
      rw [hrep]

/-- The upper of two panels moved between two muons: the labels are no longer the numbers of the panels. -/
example (d : ℝ) : ∃ ls, hitLayers (two d) [[3, 1], [2, 1]] = .ok ls ∧ ¬ ByPanel 2 [[3, 1], [2, 1]] ls := by
  obtain ⟨ls, h1, h2⟩ := hit_layer_iff_violated (two d) (3 + d) rfl 2 [[3, 1], [2, 1]] (by simp) (by norm_num)
  refine ⟨ls, h1, fun h => ?_⟩
  have := h2.mp h [3, 1] (by simp) [2, 1] (by simp)
  norm_num at this

example (d : ℝ) : (two d).lw = .ok (1, 1) ∧ (two d).zRange = .ok (1, 3) := by
  refine ⟨rfl, ?_⟩
  simp [two, Volume.zRange, Volume.passives]
  norm_num

end C91

end

end Tomopt
