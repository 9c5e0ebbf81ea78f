import Verif.Model.HeatmapGif
import Verif.Lemmas.Holds
import Verif.Spec.Epochs

/- What the fitting loop does to the recording of heat maps. -/
namespace Tomopt

noncomputable section

namespace Gif

open Fit
open EpochSave hiding act

variable {W V P Img : Type} {E : Env W V P} {k : Nat} {folder : String} {st : W → St Img} {det : W → List (Lay Img)}
variable {c : Conf} {trn : Passives V} {val : Option (Passives V)} {w : W} {log : List (Act V)}

theorem temp_inj {a b : Nat} (h : temp folder a = temp folder b) : a = b := by
  unfold temp at h
  rw [String.append_left_inj, String.append_right_inj] at h
  have h2 : (toString a).toList = (toString b).toList := by rw [h]
  have e : ∀ n : Nat, (toString n).toList = Nat.toDigits 10 n := fun n => Nat.toList_repr
  rw [e, e] at h2
  rw [← Nat.ofDigitChars_toDigits (b := 10) (n := a) (by omega) (by omega), h2, Nat.ofDigitChars_toDigits (by omega) (by omega)]

/-- the recording and the mode stay -/
def Same (st : W → St Img) (G : St Img) (md : Mode) (s : S W V P) : Prop := st s.w = G ∧ s.fp.mode = md

/-- interjections at which nothing is recorded -/
theorem act_quiet (e : Ev) (md : Mode) (h : e ≠ .trainBegin ∧ e ≠ .trainEnd ∧ (e = .epochBegin → md ≠ .train)) (d : List (Lay Img)) (s : St Img) :
    act folder e md d s = (.ok (), s) := by
  unfold act
  split
  · exact absurd rfl h.1
  · exact if_neg (h.2.2 rfl)
  · exact absurd rfl h.2.1
  · rfl

theorem same_cb (hR : Records E k folder st det) (G : St Img) (md : Mode) (i : Nat) (e : Ev)
    (h : e ≠ .trainBegin ∧ e ≠ .trainEnd ∧ (e = .epochBegin → md ≠ .train)) : Inv (Same st G md) (callCb E i e) := by
  refine inv_seq (fun _ h => h) ?_
  rintro s ⟨h1, h2⟩
  refine ⟨?_, h2⟩
  by_cases hi : i = k
  · subst hi
    refine (hR.self e s.fp s.w).2.trans ?_
    rw [h2, act_quiet e md h]
    exact h1
  · exact (hR.other i e _ _ hi).trans h1

theorem same_kept (hR : Records E k folder st det) (G : St Img) (md : Mode) : Kept E (Same st G md : S W V P → Prop) where
  set g hg := by
    rintro s ⟨h1, h2⟩
    exact ⟨h1, (hg _).1.trans h2⟩
  cb i e he := same_cb hR G md i e ⟨he.2.1, he.2.2.2.2.1, fun h => absurd h he.2.2.1⟩
  call a := inv_seq (fun _ h => h) fun s hs => ⟨(hR.prim _ _ _).trans hs.1, hs.2⟩
  pred := by
    refine inv_seq (fun _ h => h) ?_
    rintro s ⟨h1, h2⟩
    have a := hR.pred s.fp s.w
    dsimp only
    rcases h : E.pred s.fp s.w with ⟨r, w⟩
    rw [h] at a
    cases r <;> exact ⟨a.trans h1, h2⟩
  loss := by
    unfold addLoss
    refine inv_dep (m := fun s => _) fun s0 hs0 => ?_
    refine inv_seq (fun _ h => h) ?_
    split
    · cases s0.fp.pred with
      | none => exact inv_nop
      | some p =>
        rintro s ⟨h1, h2⟩
        have a := hR.loss p s.w
        dsimp only
        rcases h : E.loss p s.w with ⟨r, w⟩
        rw [h] at a
        cases r <;> exact ⟨a.trans h1, h2⟩
    · exact inv_nop

/-- one interjection of all callbacks at which something is recorded: what the recording callback does, with the detector as it was before -/
theorem told (hR : Records E k folder st det) (e : Ev) (l : List Nat) (hl : l.Nodup) (s s' : S W V P) (hdet : ∀ i fp w, det (E.cb i e fp w).2.2 = det w)
    (h : each l (fun i => callCb E i e) s = (.ok (), s')) :
    s'.fp.mode = s.fp.mode ∧ s'.fp.epoch = s.fp.epoch ∧ det s'.w = det s.w ∧
      (if k ∈ l then act folder e s.fp.mode (det s.w) (st s.w) = (.ok (), st s'.w) else st s'.w = st s.w) := by
  induction l generalizing s with
  | nil =>
    cases h
    exact ⟨rfl, rfl, rfl, by simp⟩
  | cons i l ih =>
    rw [List.nodup_cons] at hl
    rw [each] at h
    obtain ⟨s1, h1, h2⟩ := seq_ok h
    unfold callCb seq note at h1
    simp only [Prod.mk.injEq] at h1
    obtain ⟨hr, hs1⟩ := h1
    have w1 : s1.w = (E.cb i e s.fp s.w).2.2 := by rw [← hs1]
    have m1 : s1.fp.mode = s.fp.mode := by rw [← hs1]
    have n1 : s1.fp.epoch = s.fp.epoch := by rw [← hs1]
    have d1 : det s1.w = det s.w := by rw [w1]; exact hdet i _ _
    obtain ⟨a1, a2, a3, a4⟩ := ih hl.2 s1 h2
    refine ⟨a1.trans m1, a2.trans n1, a3.trans d1, ?_⟩
    by_cases hi : i = k
    · subst hi
      rw [if_pos (by simp)]
      rw [if_neg hl.1] at a4
      obtain ⟨b1, b2⟩ := hR.self e s.fp s.w
      rw [a4, w1, b2, ← hr, b1]
    · have hs : st s1.w = st s.w := by rw [w1]; exact hR.other i e _ _ hi
      rw [m1, d1, hs] at a4
      by_cases hk : k ∈ l
      · rw [if_pos hk] at a4
        rw [if_pos (by simp [hk])]
        exact a4
      · rw [if_neg hk] at a4
        rw [if_neg (by simp only [List.mem_cons, not_or]; exact ⟨fun h => hi h.symm, hk⟩)]
        exact a4

theorem trainBegin_all (hR : Records E k folder st det) (l : List Nat) (hk : k ∈ l) (hl : l.Nodup) (s s' : S W V P)
    (h : each l (fun i => callCb E i .trainBegin) s = (.ok (), s')) : st s'.w = { st s.w with buffer := [] } := by
  induction l generalizing s with
  | nil => simp at hk
  | cons i l ih =>
    rw [List.nodup_cons] at hl
    rw [each] at h
    obtain ⟨s1, h1, h2⟩ := seq_ok h
    unfold callCb seq note at h1
    simp only [Prod.mk.injEq] at h1
    obtain ⟨hr, hs1⟩ := h1
    have w1 : s1.w = (E.cb i .trainBegin s.fp s.w).2.2 := by rw [← hs1]
    by_cases hi : i = k
    · subst hi
      have keep : Inv (fun t : S W V P => st t.w = st s1.w) (each l fun j => callCb E j .trainBegin) := by
        have : ∀ l' : List Nat, i ∉ l' → Inv (fun t : S W V P => st t.w = st s1.w) (each l' fun j => callCb E j .trainBegin) := by
          intro l' hl'
          induction l' with
          | nil => exact inv_nop
          | cons j l' ihl =>
            simp only [List.mem_cons, not_or] at hl'
            refine inv_seq (inv_seq (fun _ h => h) fun t ht => ?_) (ihl hl'.2)
            exact (hR.other j _ _ _ fun h => hl'.1 h.symm).trans ht
        exact this l hl.1
      have := keep s1 rfl
      rw [h2] at this
      simp only at this
      rw [this, w1, (hR.self _ _ _).2]
      rfl
    · rw [ih ((List.mem_cons.mp hk).resolve_left fun h => hi h.symm) hl.2 s1 h2, w1, hR.other i _ _ _ hi]

/-- one epoch: one picture of the detector as it was before -/
theorem epoch_st (hR : Records E k folder st det) (hS : Still E det) (hk : k < c.nCb) (s s' : S W V P) (h : fitEpoch E c trn val s = (.ok (), s')) :
    plotCurrent folder (det s.w) (st s.w) = (.ok (), st s'.w) := by
  unfold fitEpoch at h
  obtain ⟨s1, h1, h⟩ := seq_ok h
  have e1 : s1.w = s.w := by cases h1; rfl
  obtain ⟨s2, h2, h⟩ := seq_ok h
  have e2 : st s2.w = st s1.w ∧ det s2.w = det s1.w := by
    have a : st (call E (.volMode true) s1).2.w = st s1.w := hR.prim _ _ _
    have b : det (call E (.volMode true) s1).2.w = det s1.w := hS.prim _ _ _
    rw [h2] at a b
    exact ⟨a, b⟩
  obtain ⟨s3, h3, h⟩ := seq_ok h
  have e3 : s3.w = s2.w ∧ s3.fp.mode = .train := by cases h3; exact ⟨rfl, rfl⟩
  obtain ⟨s4, h4, h⟩ := seq_ok h
  have e4 : plotCurrent folder (det s.w) (st s.w) = (.ok (), st s4.w) := by
    unfold runEpoch at h4
    obtain ⟨s5, h5, h4⟩ := seq_ok h4
    obtain ⟨a1, -, -, a4⟩ := told hR .epochBegin (List.range c.nCb) List.nodup_range s3 s5 (fun i fp w => hS.cb i _ fp w (.inl rfl)) h5
    rw [if_pos (by simpa using hk), e3.2, e3.1, e2.1, e2.2, e1] at a4
    have a4' : plotCurrent folder (det s.w) (st s.w) = (.ok (), st s5.w) := a4
    have rest : Inv (Same st (st s5.w) .train) (scanVolumes E c trn ;; cbs E c .epochEnd) :=
      inv_seq ((same_kept hR _ _).scan _ _ _) (inv_each _ _ fun i => same_cb hR _ _ i _ ⟨by simp, by simp, by simp⟩)
    have := rest s5 ⟨rfl, a1.trans e3.2⟩
    rw [h4] at this
    rw [a4', this.1]
  cases val with
  | none =>
    cases h
    exact e4
  | some val =>
    simp only at h
    obtain ⟨s5, h5, h⟩ := seq_ok h
    have a : st (call E (.volMode false) s4).2.w = st s4.w := hR.prim _ _ _
    rw [h5] at a
    obtain ⟨s6, h6, h⟩ := seq_ok h
    have e6 : s6.w = s5.w ∧ s6.fp.mode = .valid := by cases h6; exact ⟨rfl, rfl⟩
    have rest : Inv (Same st (st s6.w) .valid) (runEpoch E c val) :=
      inv_seq (inv_each _ _ fun i => same_cb hR _ _ i _ ⟨by simp, by simp, by simp⟩) (inv_seq ((same_kept hR _ _).scan _ _ _)
        (inv_each _ _ fun i => same_cb hR _ _ i _ ⟨by simp, by simp, by simp⟩))
    have := rest s6 ⟨rfl, e6.2⟩
    rw [h] at this
    rw [e4, this.1, e6.1, a]

theorem readAll_ok (fs : Files Img) (ps : List String) (is : List Img) (h : ps.map fs = is.map some) : readAll fs ps = .ok is := by
  induction ps generalizing is with
  | nil =>
    cases is with
    | nil => rfl
    | cons i is => simp at h
  | cons p ps ih =>
    cases is with
    | nil => simp at h
    | cons i is =>
      simp only [List.map_cons, List.cons.injEq] at h
      rw [readAll, h.1]
      simp only
      rw [ih is h.2]

theorem removed (fs : Files Img) (ps : List String) (q : String) : (ps.foldl remove fs) q = if q ∈ ps then none else fs q := by
  induction ps generalizing fs with
  | nil => simp
  | cons p ps ih =>
    rw [List.foldl_cons, ih]
    by_cases h1 : q ∈ ps
    · simp [h1]
    · by_cases h2 : q = p
      · simp [h2, remove]
      · simp [h1, h2, remove]

/-- what has been recorded after `e` epochs -/
theorem reached_st (hR : Records E k folder st det) (hS : Still E det) (hk : k < c.nCb) (hpic : ∀ e s, Reached E c trn val w log e s → picture (det s.w) ≠ .ok none)
    (e : Nat) (s : S W V P) (h : Reached E c trn val w log e s) :
    ∃ imgs : List Img, imgs.length = e ∧ (∀ i, i < e → ∃ t, Reached E c trn val w log i t ∧ picture (det t.w) = .ok imgs[i]?) ∧
      (st s.w).buffer = (List.range e).map (temp folder) ∧ (∀ i, i < e → (st s.w).files (temp folder i) = imgs[i]?) ∧
      (∀ q, (∀ i, i < e → q ≠ temp folder i) → (st s.w).files q = (st w).files q) ∧ (st s.w).gif = (st w).gif := by
  induction h with
  | start h =>
    obtain ⟨s1, h1, h2⟩ := seq_ok h
    have a := (inv_each (List.range c.nCb) (fun i => callCb E i .setWrapper) fun i => same_cb hR (st w) .train i .setWrapper ⟨by simp, by simp, by simp⟩)
      ⟨initFp .train, w, log⟩ ⟨rfl, rfl⟩
    have h1' : each (List.range c.nCb) (fun i => callCb E i .setWrapper) ⟨initFp .train, w, log⟩ = (.ok (), s1) := h1
    rw [h1'] at a
    have b := trainBegin_all hR (List.range c.nCb) (by simpa using hk) List.nodup_range s1 _ h2
    rw [b, a.1]
    exact ⟨[], rfl, fun i hi => by omega, rfl, fun i hi => by omega, fun _ _ => rfl, rfl⟩
  | @next e s s' h hst hf ih =>
    obtain ⟨imgs, i1, i2, i3, i4, i5, i6⟩ := ih
    have hp := epoch_st hR hS hk s s' hf
    unfold plotCurrent at hp
    rcases hpc : picture (det s.w) with err | (_ | img)
    · rw [hpc] at hp
      simp at hp
    · exact absurd hpc (hpic e s h)
    · rw [hpc] at hp
      simp only [Prod.mk.injEq, true_and] at hp
      have hlen : (st s.w).buffer.length = e := by rw [i3]; simp
      rw [hlen] at hp
      rw [← hp]
      refine ⟨imgs ++ [img], by simp [i1], fun i hi => ?_, ?_, fun i hi => ?_, fun q hq => ?_, i6⟩
      · rcases Nat.lt_succ_iff_lt_or_eq.mp hi with h1 | rfl
        · obtain ⟨t, t1, t2⟩ := i2 i h1
          exact ⟨t, t1, by rw [t2, List.getElem?_append_left (by omega)]⟩
        · exact ⟨s, h, by rw [hpc, List.getElem?_append_right (by omega), i1]; simp⟩
      · simp [i3, List.range_succ]
      · simp only [write]
        rcases Nat.lt_succ_iff_lt_or_eq.mp hi with h1 | rfl
        · rw [if_neg fun heq => by have := temp_inj heq; omega, i4 i h1, List.getElem?_append_left (by omega)]
        · rw [if_pos rfl, List.getElem?_append_right (by omega), i1]
          simp
      · simp only [write]
        rw [if_neg (hq e (by omega)), i5 q fun i hi => hq i (by omega)]

end Gif

end

end Tomopt
