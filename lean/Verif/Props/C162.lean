import Verif.Lemmas.Onlookers
import Verif.Model.Records

/- C162: callbacks that only look on change nothing.  Property theorems; what looking on means is in Spec/Onlookers.lean. -/
namespace Tomopt

noncomputable section
open Fit

namespace C162

open Onlookers

variable {W W' V P C C' D : Type} {E : Env W V P} {E' : Env W' V P} {no : Nat → Option Nat} {part : W → D} {part' : W' → D}

/-- **C162: fits.** Take callbacks of any kind away from a fit that only look on, from any places among the other callbacks. The fit ends as before, normally or with the same error; detectors, optimisers, random numbers and the other
callbacks are as before; and the calls made, in their order, are those of before without the ones to onlookers. -/
theorem fitting (hE : LookOn E E' no part part') (c : Conf) (mkdir : W → Except Err Unit × W) (mkdir' : W' → Except Err Unit × W') (hm : ∀ w w', part w = part' w' → (mkdir w).1 = (mkdir' w').1 ∧ part (mkdir w).2 = part' (mkdir' w').2)
    (n : Nat) (trn : Passives V) (val : Option (Passives V)) (o : Outer W V P C) (o' : Outer W' V P C') (hn : (List.range o.cbList.length).filterMap no = List.range o'.cbList.length) (hw : part o.w = part' o'.w)
    (hl : o.log.filterMap (without no) = o'.log) :
    let r := fit E c mkdir n trn val o
    let r' := fit E' c mkdir' n trn val o'
    r.1 = r'.1 ∧ part r.2.w = part' r'.2.w ∧ r.2.log.filterMap (without no) = r'.2.log ∧ r.2.fp = r'.2.fp := by
  obtain ⟨h1, h2⟩ := hm o.w o'.w hw
  simp only [fit]
  rcases e : mkdir o.w with ⟨x, w⟩
  rcases e' : mkdir' o'.w with ⟨x', w'⟩
  rw [e, e'] at h1 h2
  simp only at h1 h2
  subst h1
  cases x with
  | error x => exact ⟨rfl, h2, hl, rfl⟩
  | ok x =>
    obtain ⟨a, b⟩ := T.fitBody hE (c := { c with nCb := o.cbList.length }) (c' := { c with nCb := o'.cbList.length }) ⟨hn, rfl, rfl, rfl⟩ n trn val ⟨initFp .train, w, o.log⟩ ⟨initFp .train, w', o'.log⟩ ⟨rfl, h2, hl⟩
    exact ⟨a, b.2.1, b.2.2, rfl⟩

/-- **C162: predictions.** The same of predictions, with the same handler of predictions: the result is the same. -/
theorem predicting {Z : Type} (hE : LookOn E E' no part part') (c : Conf) (predCb : C) (predCb' : C') (getPreds : W → Except Err Z) (getPreds' : W' → Except Err Z) (hg : ∀ w w', part w = part' w' → getPreds w = getPreds' w')
    (ps : Passives V) (o : Outer W V P C) (o' : Outer W' V P C') (hn : (List.range (o.cbList.length + 1)).filterMap no = List.range (o'.cbList.length + 1)) (hw : part o.w = part' o'.w) (hl : o.log.filterMap (without no) = o'.log) :
    let r := predict E c predCb getPreds ps o
    let r' := predict E' c predCb' getPreds' ps o'
    r.1 = r'.1 ∧ part r.2.w = part' r'.2.w ∧ r.2.log.filterMap (without no) = r'.2.log := by
  obtain ⟨a, b⟩ := T.predictBody hE (c := { c with nCb := (o.cbList ++ [predCb]).length }) (c' := { c with nCb := (o'.cbList ++ [predCb']).length }) ⟨by simpa using hn, rfl, rfl, rfl⟩ ps ⟨initFp .test, o.w, o.log⟩ ⟨initFp .test, o'.w, o'.log⟩
    ⟨rfl, hw, hl⟩
  simp only [predict]
  rw [← a]
  rcases (predictBody E { c with nCb := (o.cbList ++ [predCb]).length } ps ⟨initFp .test, o.w, o.log⟩).1 with x | x
  · exact ⟨rfl, b.2.1, b.2.2⟩
  · exact ⟨hg _ _ b.2.1, b.2.1, b.2.2⟩

/-! ### Recorders -/

/-- the callbacks but for number `k` -/
def skipping (k i : Nat) : Option Nat := if i < k then some i else if i = k then none else some (i - 1)

theorem skipping_range (k n : Nat) (h : k ≤ n) : (List.range (n + 1)).filterMap (skipping k) = List.range n := by
  induction n with
  | zero =>
    obtain rfl : k = 0 := by omega
    simp [skipping, List.range_succ]
  | succ n ih =>
    rw [List.range_succ, List.filterMap_append]
    rcases Nat.lt_or_ge n k with hk | hk
    · obtain rfl : k = n + 1 := by omega
      have : (List.range (n + 1)).filterMap (skipping (n + 1)) = (List.range (n + 1)).filterMap some := List.filterMap_congr fun i hi => by simp [skipping, List.mem_range.1 hi]
      rw [this, List.filterMap_some]
      simp [skipping]
    · rw [ih hk]
      have h1 : ¬ n + 1 < k := by omega
      have h2 : n + 1 ≠ k := by omega
      simp [skipping, h1, h2, List.range_succ]

/-- any environment, with a `ScatterRecord` or `HitRecord` (diagnostic_callbacks.py 18-132) at place `k` of the list of callbacks. `obs` is what it saves of the current batch of muons. -/
def recording {α : Type} (E : Env W V P) (k : Nat) (obs : W → α) : Env (W × List α) V P where
  cb i e f w :=
    if i = k then (.ok (), ⟨f.pred, f.stop, f.skip⟩, (w.1, Records.step e (obs w.1) w.2))
    else ((E.cb ((skipping k i).getD 0) e f w.1).1, (E.cb ((skipping k i).getD 0) e f w.1).2.1, ((E.cb ((skipping k i).getD 0) e f w.1).2.2, w.2))
  prim a f w := ((E.prim a f w.1).1, ((E.prim a f w.1).2, w.2))
  pred f w := ((E.pred f w.1).1, ((E.pred f w.1).2, w.2))
  loss p w := ((E.loss p w.1).1, ((E.loss p w.1).2, w.2))
  hasLoss := E.hasLoss

theorem recording_looks {α : Type} (E : Env W V P) (k : Nat) (obs : W → α) : LookOn (recording E k obs) E (skipping k) Prod.fst id where
  onlooker i e f w h := by
    have : i = k := by
      simp only [skipping] at h
      split at h
      · simp at h
      · split at h
        · assumption
        · simp at h
    simp [recording, this]
  other i j e f w w' h hw := by
    change w.1 = w' at hw
    subst hw
    have : i ≠ k := by
      rintro rfl
      simp [skipping] at h
    simp [recording, this, h]
  prim a f w w' h := by change w.1 = w' at h; subst h; exact ⟨rfl, rfl⟩
  pred f w w' h := by change w.1 = w' at h; subst h; exact ⟨rfl, rfl⟩
  loss p w w' h := by change w.1 = w' at h; subst h; exact ⟨rfl, rfl⟩
  hasLoss := rfl

/-- **C162: recorders.** A recorder of hits or of points of closest approach, at any place among the callbacks, changes nothing in any fit: it ends in the same way, calls the same things in the same order and leaves the same world but for the record. -/
theorem recorders {α : Type} (E : Env W V P) (k : Nat) (obs : W → α) (c : Conf) (mkdir : W → Except Err Unit × W) (n : Nat) (trn : Passives V) (val : Option (Passives V)) (w : W) (rec : List α) (x : C) (cbList : List C) (hk : k ≤ cbList.length) :
    let r := fit (recording E k obs) c (fun w => ((mkdir w.1).1, (mkdir w.1).2, w.2)) n trn val ⟨none, (w, rec), [], cbList.insertIdx k x, false⟩
    let r' := fit E c mkdir n trn val ⟨none, w, [], cbList, false⟩
    r.1 = r'.1 ∧ r.2.w.1 = r'.2.w ∧ r.2.log.filterMap (without (skipping k)) = r'.2.log :=
  have h := fitting (recording_looks E k obs) c (fun w => ((mkdir w.1).1, (mkdir w.1).2, w.2)) mkdir (fun w w' h => by change w.1 = w' at h; subst h; exact ⟨rfl, rfl⟩) n trn val
    (⟨none, (w, rec), [], cbList.insertIdx k x, false⟩ : Outer (W × List α) V P C) (⟨none, w, [], cbList, false⟩ : Outer W V P C)
    (by simp only [List.length_insertIdx, hk, if_true]; exact skipping_range k _ hk) rfl rfl
  ⟨h.1, h.2.1, h.2.2.1⟩

/-- **C162: recorders in predictions.** The same of predictions: what is returned, and the world but for the record, are the same with and without a recorder. The handler of predictions is put behind all callbacks. -/
theorem recorders_predict {α Z : Type} (E : Env W V P) (k : Nat) (obs : W → α) (c : Conf) (predCb : C) (getPreds : W → Except Err Z) (ps : Passives V) (w : W) (rec : List α) (x : C) (cbList : List C) (shuffle : Bool) (hk : k ≤ cbList.length) :
    let r := predict (recording E k obs) c predCb (fun w => getPreds w.1) ps ⟨none, (w, rec), [], cbList.insertIdx k x, shuffle⟩
    let r' := predict E c predCb getPreds ps ⟨none, w, [], cbList, shuffle⟩
    r.1 = r'.1 ∧ r.2.w.1 = r'.2.w ∧ r.2.log.filterMap (without (skipping k)) = r'.2.log :=
  predicting (recording_looks E k obs) c predCb predCb (fun w => getPreds w.1) getPreds (fun w w' h => by change w.1 = w' at h; subst h; rfl) ps
    (⟨none, (w, rec), [], cbList.insertIdx k x, shuffle⟩ : Outer (W × List α) V P C) (⟨none, w, [], cbList, shuffle⟩ : Outer W V P C)
    (by simp only [List.length_insertIdx, hk, if_true]; exact skipping_range k _ (by omega)) rfl rfl

/-! ### Examples -/

/-- any environment, with one more callback in front that counts its calls -/
def counting (E : Env W V P) : Env (W × Nat) V P where
  cb i e f w := match i with
    | 0 => (.ok (), ⟨f.pred, f.stop, f.skip⟩, (w.1, w.2 + 1))
    | i + 1 => ((E.cb i e f w.1).1, (E.cb i e f w.1).2.1, ((E.cb i e f w.1).2.2, w.2))
  prim a f w := ((E.prim a f w.1).1, ((E.prim a f w.1).2, w.2))
  pred f w := ((E.pred f w.1).1, ((E.pred f w.1).2, w.2))
  loss p w := ((E.loss p w.1).1, ((E.loss p w.1).2, w.2))
  hasLoss := E.hasLoss

/-- the callbacks but for the first -/
def later : Nat → Option Nat
  | 0 => none
  | i + 1 => some i

theorem later_range (n : Nat) : (List.range (n + 1)).filterMap later = List.range n := by
  rw [List.range_succ_eq_map, List.filterMap_cons_none rfl, List.filterMap_map]
  exact List.filterMap_some

theorem counting_looks (E : Env W V P) : LookOn (counting E) E later Prod.fst id where
  onlooker i e f w h := by
    cases i with
    | zero => exact ⟨rfl, rfl, rfl⟩
    | succ i => simp [later] at h
  other i j e f w w' h hw := by
    cases i with
    | zero => simp [later] at h
    | succ i =>
      simp only [later, Option.some.injEq] at h
      subst h
      change w.1 = w' at hw
      subst hw
      exact ⟨rfl, rfl, rfl⟩
  prim a f w w' h := by change w.1 = w' at h; subst h; exact ⟨rfl, rfl⟩
  pred f w w' h := by change w.1 = w' at h; subst h; exact ⟨rfl, rfl⟩
  loss p w w' h := by change w.1 = w' at h; subst h; exact ⟨rfl, rfl⟩
  hasLoss := rfl

/-- In particular a counter changes no fit at all. -/
example (E : Env W V P) (c : Conf) (mkdir : W → Except Err Unit × W) (n : Nat) (trn : Passives V) (val : Option (Passives V)) (w : W) (cbList : List C) (x : C) :
    (fit (counting E) c (fun w => ((mkdir w.1).1, (mkdir w.1).2, w.2)) n trn val ⟨none, (w, 0), [], x :: cbList, false⟩).1 = (fit E c mkdir n trn val ⟨none, w, [], cbList, false⟩).1 ∧
    (fit (counting E) c (fun w => ((mkdir w.1).1, (mkdir w.1).2, w.2)) n trn val ⟨none, (w, 0), [], x :: cbList, false⟩).2.w.1 = (fit E c mkdir n trn val ⟨none, w, [], cbList, false⟩).2.w := by
  obtain ⟨h1, h2, -⟩ := fitting (counting_looks E) c (fun w => ((mkdir w.1).1, (mkdir w.1).2, w.2)) mkdir (fun w w' h => by change w.1 = w' at h; subst h; exact ⟨rfl, rfl⟩) n trn val
    (⟨none, (w, 0), [], x :: cbList, false⟩ : Outer (W × Nat) V P C) (⟨none, w, [], cbList, false⟩ : Outer W V P C) (later_range _) rfl rfl
  exact ⟨h1, h2⟩

/-- A recorder between two other callbacks. The second of them is called as third in the list. -/
example (E : Env W V P) (w : W) (rec : List Nat) : (fit (recording E 1 fun _ => 7) ⟨0, 1, 1, 1⟩ (fun w => (.ok (), w)) 0 ⟨[], 0⟩ none ⟨none, (w, rec), [], ["first", "recorder", "second"], false⟩).1 = (fit E ⟨0, 1, 1, 1⟩ (fun w => (.ok (), w)) 0 ⟨[], 0⟩ none ⟨none, w, [], ["first", "second"], false⟩).1 ∧
    (skipping 1 0, skipping 1 1, skipping 1 2) = (some 0, none, some 1) :=
  ⟨(recorders E 1 (fun _ => 7) ⟨0, 1, 1, 1⟩ (fun w => (.ok (), w)) 0 ⟨[], 0⟩ none w rec "recorder" ["first", "second"] (by decide)).1, rfl⟩

example (E : Env W V P) (w : W) (rec : List Nat) (ps : Passives V) : (predict (recording E 1 fun _ => 7) ⟨0, 1, 1, 1⟩ "handler" (fun _ => .ok 5) ps ⟨none, (w, rec), [], ["first", "recorder", "second"], true⟩).1 = (predict E ⟨0, 1, 1, 1⟩ "handler" (fun _ => .ok 5) ps ⟨none, w, [], ["first", "second"], true⟩).1 :=
  (recorders_predict E 1 (fun _ => 7) ⟨0, 1, 1, 1⟩ "handler" (fun _ => .ok 5) ps w rec "recorder" ["first", "second"] true (by decide)).1

/-- The counter itself sees the fit: its three calls when no epoch is asked for are not in the fit without it. -/
example (E : Env W V P) (w : W) : (fit (counting E) ⟨0, 1, 1, 1⟩ (fun w => (.ok (), w)) 0 ⟨[], 0⟩ none ⟨none, (w, 0), [], [()], false⟩).2.w.2 = 3 ∧
    (fit E ⟨0, 1, 1, 1⟩ (fun w => (.ok (), w)) 0 ⟨[], 0⟩ none ⟨none, w, [], ([] : List Unit), false⟩).2.log = [] := by
  constructor <;> simp [fit, fitBody, epochs, cbs, each, callCb, note, seq, nop, counting, List.range_succ]

end C162

end

end Tomopt
