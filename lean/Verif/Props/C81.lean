import Verif.Lemmas.Predict

/- C81: what `predict` returns. C82: the file of predictions. -/
namespace Tomopt

noncomputable section

namespace C81

open Fit Handler

variable {W V P T : Type}

/-- **C81.** If `predict` returns, it returns a new list with one pair per passive volume, in the order of the volumes: the prediction that the inferrer made for the volume, with the
changes made to it by the other callbacks in their order, and the target of that volume. The lists returned by earlier predictions with the same handler are as before. -/
theorem predictions {C : Type} (E : Env W V P) (c : Conf) (predCb : C) (ph : W → PH P T) (vol : W → Except Err T) (targ : V → Except Err T) (hist : W → List (Option P))
    (adj : Nat → Option P → Option P) (ps : Passives V) (o o' : Outer W V P C) (hW : Handles E o.cbList.length ph vol targ hist adj) (a : Nat)
    (h : predict E c predCb (fun w => (ph w).getPreds) ps o = (.ok a, o')) :
    ∃ (new : List (Option P)) (rs : List (P × T)), hist o'.w = hist o.w ++ new ∧ new.length = ps.vols.length ∧ (ph o'.w).cells[a]? = some rs ∧
      rs.map (fun x => some x.1) = new.map (adjusted adj o.cbList.length) ∧ rs.map (fun x => .ok x.2) = ps.vols.map targ ∧
      ∀ b < (ph o.w).cells.length, b ≠ a ∧ (ph o'.w).cells[b]? = (ph o.w).cells[b]? := by
  unfold predict at h
  simp only at h
  set c' : Conf := { c with nCb := (o.cbList ++ [predCb]).length } with hc'
  generalize hr : predictBody E c' ps ⟨initFp .test, o.w, o.log⟩ = q at h
  obtain ⟨q1, q2⟩ := q
  cases q1 with
  | error e => simp at h
  | ok u =>
    simp only [Prod.mk.injEq] at h
    obtain ⟨h1, h2⟩ := h
    have hw : o'.w = q2.w := by rw [← h2]
    have hc : c'.nCb = o.cbList.length + 1 := by simp [hc']
    unfold predictBody at hr
    obtain ⟨s1, e1, hr⟩ := seq_ok hr
    obtain ⟨s2, e2, hr⟩ := seq_ok hr
    obtain ⟨s3, e3, hr⟩ := seq_ok hr
    obtain ⟨s4, e4, e5⟩ := seq_ok hr
    have g1 := still_cbs hW c' _ (by simp) (by simp) _ _ e1
    have g2 := still_call hW _ (by simp) _ _ e2
    obtain ⟨g3m, g3p, g3h⟩ := begin_ok hW c' hc _ _ e3
    have hm : s3.fp.mode = .test := by rw [g3m, g2.mode, g1.mode]; rfl
    have hp3 : ph s3.w = (ph o.w).begin_ := by rw [g3p, g2.ph, g1.ph]
    obtain ⟨new, rs, i1, i2, i3, i4, i5⟩ := scan_ok hW c' hc _ _ _ _ _ hm (ph o.w).cells.length (by rw [hp3]; rfl) e4
    have g5 := still_cbs hW c' _ (by simp) (by simp) _ _ e5
    have hph : ph o'.w = { (ph o.w).begin_ with cells := (ph o.w).begin_.cells.modify (ph o.w).cells.length fun l => l ++ rs } := by
      rw [hw, g5.ph, i5, hp3]
    have ha : a = (ph o.w).cells.length := by
      rw [← hw, hph] at h1
      simp only [PH.getPreds, PH.begin_] at h1
      exact (Except.ok.inj h1).symm
    refine ⟨new, rs, by rw [hw, g5.hist, i2, g3h, g2.hist, g1.hist], ?_, ?_, i3.symm, i4.symm, ?_⟩
    · have := congrArg List.length i3
      have h' := congrArg List.length i4
      simp only [List.length_map] at this h'
      omega
    · rw [hph, ha]
      simp [PH.begin_]
    · intro b hb
      refine ⟨by omega, ?_⟩
      rw [hph]
      simp only [PH.begin_, List.getElem?_modify, if_neg (show ¬ (ph o.w).cells.length = b by omega)]
      rw [List.getElem?_append_left hb]
      simp

/-- In particular `predict` cannot return if a prediction is missing for one of the volumes, for whatever reason (e.g. no muon reached the detectors): the handler raises, and the
predictions of the other volumes are not returned either. -/
theorem missing_raises {C : Type} (E : Env W V P) (c : Conf) (predCb : C) (ph : W → PH P T) (vol : W → Except Err T) (targ : V → Except Err T) (hist : W → List (Option P))
    (ps : Passives V) (o o' : Outer W V P C) (hW : Handles E o.cbList.length ph vol targ hist fun _ p => p) (new : List (Option P)) (hnew : hist o'.w = hist o.w ++ new)
    (hnone : none ∈ new) (a : Nat) : predict E c predCb (fun w => (ph w).getPreds) ps o ≠ (.ok a, o') := by
  intro h
  obtain ⟨new', rs, h1, -, -, h2, -⟩ := predictions E c predCb ph vol targ hist _ ps o o' hW a h
  have : new' = new := List.append_cancel_left (h1.symm.trans hnew)
  subst this
  have hid : ∀ p : Option P, adjusted (fun _ p => p) o.cbList.length p = p := by
    intro p
    unfold adjusted
    induction List.range o.cbList.length with
    | nil => rfl
    | cons a l ih => exact ih
  rw [List.map_congr_left (fun p _ => hid p), List.map_id'] at h2
  rw [← h2, List.mem_map] at hnone
  obtain ⟨x, -, hx⟩ := hnone
  cases hx

/-! A world with one handler: volumes are their targets, the predictions to come are in a queue. -/

structure Demo where
  ph : PH Nat Nat
  vol : Except Err Nat
  hist : List (Option Nat)
  queue : List (Option Nat)

/-- Callback 0 adds one to every prediction, callback 1 is the handler. -/
def demo : Env Demo Nat Nat where
  cb i e fp w :=
    if i = 1 then
      match w.ph.step e fp.mode fp.pred w.vol with
      | .ok h => (.ok (), ⟨fp.pred, fp.stop, fp.skip⟩, { w with ph := h })
      | .error x => (.error x, ⟨fp.pred, fp.stop, fp.skip⟩, w)
    else (.ok (), ⟨if e = .x0PredEnd ∧ i ≠ 1 then fp.pred.map (· + 1) else fp.pred, fp.stop, fp.skip⟩, w)
  prim a _ w := (.ok (), match a with
    | .load v => { w with vol := .ok v }
    | _ => w)
  pred _ w := (.ok (w.queue.headD none), { w with queue := w.queue.tail, hist := w.hist ++ [w.queue.headD none] })
  loss _ w := (.ok 0, w)
  hasLoss := false

theorem demo_handles : Handles demo 1 Demo.ph Demo.vol Except.ok Demo.hist fun _ p => p.map (· + 1) := by
  constructor
  · intro e fp w
    simp only [demo, if_true]
    cases w.ph.step e fp.mode fp.pred w.vol <;> simp
  · intro i e fp w hi
    simp [demo, hi]
  · intro i e fp w
    simp only [demo]
    by_cases hi : i = 1
    · subst hi
      simp only [if_true]
      cases w.ph.step e fp.mode fp.pred w.vol <;> simp
    · simp [hi]
  · intro i e fp w
    simp only [demo]
    split
    · cases w.ph.step e fp.mode fp.pred w.vol <;> simp
    · rfl
  · intro i e fp w
    simp only [demo]
    split
    · cases w.ph.step e fp.mode fp.pred w.vol <;> simp
    · rfl
  · intro v fp w _; rfl
  · intro a fp w ha
    cases a <;> simp_all [demo]
  · intro a fp w
    cases a <;> rfl
  · intro a fp w
    cases a <;> rfl
  · intro fp w; rfl
  · intro fp w; rfl
  · intro fp w p h
    simp only [demo] at h ⊢
    rw [Except.ok.inj h]

/-- the outcome of a prediction after an earlier one that returned the list [(1, 2)] -/
def demoRun (vols : List Nat) (queue : List (Option Nat)) := predict demo ⟨0, 1, 0, 1⟩ "handler" (fun w => w.ph.getPreds) ⟨vols, vols.length⟩
  ⟨none, ⟨⟨[[(1, 2)]], some 0⟩, .ok 0, [], queue⟩, [], ["other"], true⟩

example : (demoRun [30, 40] [some 3, some 5]).1 = .ok 1 ∧ (demoRun [30, 40] [some 3, some 5]).2.w.ph.cells = [[(1, 2)], [(4, 30), (6, 40)]] := by
  simp [demoRun, predict, predictBody, cbs, each, callCb, call, note, seq, scanVolumes, scanFrom, oneVolume, scanVolume, batchBegin, setFp, getPred, addLoss, nop, demo,
    List.range_succ, PH.step, PH.take, PH.begin_, PH.getPreds, initFp, List.modify]

/-- a missing prediction -/
example : (demoRun [30] [none]).1 = .error .attributeError := by
  simp [demoRun, predict, predictBody, cbs, each, callCb, call, note, seq, scanVolumes, scanFrom, oneVolume, scanVolume, batchBegin, setFp, getPred, addLoss, nop, demo,
    List.range_succ, PH.step, PH.take, PH.begin_, initFp, List.modify]

end C81

namespace C82

open Fit Handler

/-- h5py stores an array of the right shape as it is. -/
def Sane (L : H5) : Prop := ∀ a : Arr, L.put a.shape a = .ok a.data

/-- what a file holds: the predictions and the targets -/
def rowsP (f : Option File) : List (List ℝ) := ((f.bind (·.preds)).map (·.rows)).getD []
def rowsT (f : Option File) : List (List ℝ) := ((f.bind (·.targs)).map (·.rows)).getD []

/-- the file, if there is one, is for predictions of shape `sp` and targets of shape `st` -/
def Fits (sp st : List Nat) (f : Option File) : Prop := ∀ d, f = some d → (∀ p, d.preds = some p → p.shape = sp) ∧ ∀ t, d.targs = some t → t.shape = st

theorem write_ok (L : H5) (hL : Sane L) (d : Option Ds) (a : Arr) (hd : ∀ p, d = some p → p.shape = a.shape) :
    Ds.write L d a = (.ok (), some ⟨a.shape, (d.map (·.rows)).getD [] ++ [a.data.map L.f32]⟩) := by
  unfold Ds.write
  cases d with
  | none => rfl
  | some d =>
    have hs := hd d rfl
    have := hL ⟨a.shape, a.data.map L.f32⟩
    simp only at this
    simp only [hs, this, Option.map_some, Option.getD_some]

theorem take_rows (L : H5) (hL : Sane L) (sp st : List Nat) (f : Option File) (hf : Fits sp st f) (p t : Arr) (hp : p.shape = sp) (ht : t.shape = st) :
    (File.take L .test (some p) (.ok t) f).1 = .ok () ∧ Fits sp st (File.take L .test (some p) (.ok t) f).2 ∧
      rowsP (File.take L .test (some p) (.ok t) f).2 = rowsP f ++ [p.data.map L.f32] ∧ rowsT (File.take L .test (some p) (.ok t) f).2 = rowsT f ++ [t.data.map L.f32] := by
  have h1 : ∀ q, (f.getD ⟨none, none⟩).preds = some q → q.shape = p.shape := by
    intro q hq
    cases f with
    | none => cases hq
    | some d => rw [hp]; exact (hf d rfl).1 q hq
  have h2 : ∀ q, (f.getD ⟨none, none⟩).targs = some q → q.shape = t.shape := by
    intro q hq
    cases f with
    | none => cases hq
    | some d => rw [ht]; exact (hf d rfl).2 q hq
  unfold File.take
  rw [if_pos rfl]
  simp only [File.write, write_ok L hL _ p h1, write_ok L hL _ t h2]
  refine ⟨trivial, ?_, ?_, ?_⟩
  · rintro d hd
    cases hd
    exact ⟨by rintro q hq; cases hq; exact hp, by rintro q hq; cases hq; exact ht⟩
  · cases f <;> simp [rowsP]
  · cases f <;> simp [rowsT]

/-- **C82.** Over any number of predictions, the file gets one row per volume in both datasets, in the order of the volumes, after the rows that were there before (none if the handler was made
with `overwrite`), with the values in single precision, provided that the shapes are those of the file. -/
theorem appended (L : H5) (hL : Sane L) (sp st : List Nat) (overwrite : Bool) (disk : Option File) (hf : Fits sp st (File.init overwrite disk)) (xs : List (Arr × Arr))
    (hx : ∀ x ∈ xs, x.1.shape = sp ∧ x.2.shape = st) :
    let old := if overwrite then none else disk
    let new := File.runs L (File.init overwrite disk) (xs.map fun x => (.test, some x.1, .ok x.2))
    rowsP new = rowsP old ++ xs.map (fun x => x.1.data.map L.f32) ∧ rowsT new = rowsT old ++ xs.map fun x => x.2.data.map L.f32 := by
  have key : ∀ (xs : List (Arr × Arr)) (f : Option File), Fits sp st f → (∀ x ∈ xs, x.1.shape = sp ∧ x.2.shape = st) →
      rowsP (File.runs L f (xs.map fun x => (.test, some x.1, .ok x.2))) = rowsP f ++ xs.map (fun x => x.1.data.map L.f32) ∧
      rowsT (File.runs L f (xs.map fun x => (.test, some x.1, .ok x.2))) = rowsT f ++ xs.map fun x => x.2.data.map L.f32 := by
    intro xs
    induction xs with
    | nil => intro f _ _; simp [File.runs]
    | cons x xs ih =>
      intro f hf hx
      obtain ⟨-, h1, h2, h3⟩ := take_rows L hL sp st f hf x.1 x.2 (hx x (by simp)).1 (hx x (by simp)).2
      obtain ⟨i1, i2⟩ := ih _ h1 fun y hy => hx y (by simp [hy])
      rw [List.map_cons, File.runs]
      simp only
      rw [i1, i2, h2, h3]
      simp
  exact key xs _ hf hx

/-- Whatever is written, whether it raises or not and in whatever order, the first rows of both datasets stay. -/
theorem old_rows_stay (L : H5) (disk : Option File) (xs : List (Mode × Option Arr × Except Err Arr)) :
    rowsP disk <+: rowsP (File.runs L disk xs) ∧ rowsT disk <+: rowsT (File.runs L disk xs) := by
  have hw : ∀ (d : Option Ds) (a : Arr), (d.map (·.rows)).getD [] <+: ((Ds.write L d a).2.map (·.rows)).getD [] := by
    intro d a
    unfold Ds.write
    cases d with
    | none => simp
    | some d => cases hc : L.put d.shape ⟨a.shape, a.data.map L.f32⟩ <;> simp [hc]
  induction xs generalizing disk with
  | nil => exact ⟨List.prefix_rfl, List.prefix_rfl⟩
  | cons x xs ih =>
    obtain ⟨m, p, t⟩ := x
    have h : rowsP disk <+: rowsP (File.take L m p t disk).2 ∧ rowsT disk <+: rowsT (File.take L m p t disk).2 := by
      unfold File.take
      split
      · cases t with
        | error e => exact ⟨List.prefix_rfl, List.prefix_rfl⟩
        | ok t =>
          cases p with
          | none => exact ⟨List.prefix_rfl, List.prefix_rfl⟩
          | some p =>
            have hp := hw (disk.getD ⟨none, none⟩).preds p
            have ht := hw (disk.getD ⟨none, none⟩).targs t
            have e1 : rowsP disk = ((disk.getD ⟨none, none⟩).preds.map (·.rows)).getD [] := by cases disk <;> rfl
            have e2 : rowsT disk = ((disk.getD ⟨none, none⟩).targs.map (·.rows)).getD [] := by cases disk <;> rfl
            rw [e1, e2]
            simp only [File.write]
            rcases hr : Ds.write L (disk.getD ⟨none, none⟩).preds p with ⟨r, d⟩
            rw [hr] at hp
            cases r with
            | error e => exact ⟨hp, List.prefix_rfl⟩
            | ok u => exact ⟨hp, ht⟩
      · exact ⟨List.prefix_rfl, List.prefix_rfl⟩
    obtain ⟨i1, i2⟩ := ih (File.take L m p t disk).2
    rw [File.runs]
    exact ⟨h.1.trans i1, h.2.trans i2⟩

/-- As long as nothing raises there are as many predictions as targets, for arrays of all shapes. -/
theorem paired_partial (L : H5) (disk : Option File) (hd : (rowsP disk).length = (rowsT disk).length) (m : Mode) (p : Option Arr) (t : Except Err Arr)
    (h : (File.take L m p t disk).1 = .ok ()) : (rowsP (File.take L m p t disk).2).length = (rowsT (File.take L m p t disk).2).length := by
  have hw : ∀ (d : Option Ds) (a : Arr), (((Ds.write L d a).2.map (·.rows)).getD []).length = ((d.map (·.rows)).getD []).length + 1 := by
    intro d a
    unfold Ds.write
    cases d with
    | none => simp
    | some d => cases hc : L.put d.shape ⟨a.shape, a.data.map L.f32⟩ <;> simp [hc]
  have e1 : rowsP disk = ((disk.getD ⟨none, none⟩).preds.map (·.rows)).getD [] := by cases disk <;> rfl
  have e2 : rowsT disk = ((disk.getD ⟨none, none⟩).targs.map (·.rows)).getD [] := by cases disk <;> rfl
  unfold File.take at h ⊢
  split at h
  · rename_i hm
    rw [if_pos hm]
    cases t with
    | error e => cases h
    | ok t =>
      cases p with
      | none => cases h
      | some p =>
        have hp := hw (disk.getD ⟨none, none⟩).preds p
        have ht := hw (disk.getD ⟨none, none⟩).targs t
        rw [← e1, hd, e2, ← ht] at hp
        simp only [File.write] at h ⊢
        rcases hr : Ds.write L (disk.getD ⟨none, none⟩).preds p with ⟨r, d⟩
        rw [hr] at hp h
        cases r with
        | error e => cases h
        | ok u => exact hp
  · rename_i hm
    rw [if_neg hm]
    exact hd

/-- The two datasets are not written together: when the shape of a prediction is refused, the handler raises but leaves a row of zeros among the predictions, with no target. From then on every
prediction is one row further than its target. -/
theorem torn_violated (L : H5) (hL : Sane L) (sp st : List Nat) (dp dt : Ds) (hp : dp.shape = sp) (ht : dt.shape = st) (hn : dp.rows.length = dt.rows.length) (bad : Arr) (e : Err)
    (hbad : L.put sp ⟨bad.shape, bad.data.map L.f32⟩ = .error e) (u p t : Arr) (hps : p.shape = sp) (hts : t.shape = st) :
    let r := File.take L .test (some bad) (.ok u) (some ⟨some dp, some dt⟩)
    r.1 = .error e ∧ rowsP r.2 = dp.rows ++ [List.replicate sp.prod 0] ∧ rowsT r.2 = dt.rows ∧
      let r' := (File.take L .test (some p) (.ok t) r.2).2
      (rowsP r')[dp.rows.length + 1]? = some (p.data.map L.f32) ∧ (rowsT r')[dp.rows.length]? = some (t.data.map L.f32) ∧ (rowsT r').length = dp.rows.length + 1 := by
  subst hp
  subst ht
  have h0 : File.take L .test (some bad) (.ok u) (some ⟨some dp, some dt⟩) =
      (.error e, some ⟨some { dp with rows := dp.rows ++ [List.replicate dp.shape.prod 0] }, some dt⟩) := by
    simp [File.take, File.write, Ds.write, hbad]
  simp only [h0]
  obtain ⟨-, -, h1, h2⟩ := take_rows L hL dp.shape dt.shape (some ⟨some { dp with rows := dp.rows ++ [List.replicate dp.shape.prod 0] }, some dt⟩)
    (by rintro d hd; cases hd; exact ⟨by rintro q hq; cases hq; rfl, by rintro q hq; cases hq; rfl⟩) p t hps hts
  refine ⟨trivial, rfl, rfl, ?_, ?_, ?_⟩
  · rw [h1]
    simp only [rowsP, Option.bind_some, Option.map_some, Option.getD_some]
    rw [List.getElem?_append_right (by simp)]
    simp
  · rw [h2]
    simp only [rowsT, Option.bind_some, Option.map_some, Option.getD_some]
    rw [hn, List.getElem?_append_right le_rfl]
    simp
  · rw [h2]
    simp [rowsT, hn]

/-- a library that refuses arrays of other sizes and does not round -/
def lib : H5 := ⟨fun s a => if s = a.shape then .ok a.data else .error .typeError, id⟩

example : Sane lib := fun a => by simp [lib]
example : Fits [2] [1] (some ⟨some ⟨[2], [[1, 2]]⟩, some ⟨[1], [[3]]⟩⟩) := by
  rintro d hd
  cases hd
  exact ⟨by rintro q hq; cases hq; rfl, by rintro q hq; cases hq; rfl⟩
example : lib.put [2] ⟨[3], [0, 0, 0].map lib.f32⟩ = .error .typeError := by simp [lib]

end C82

end

end Tomopt
