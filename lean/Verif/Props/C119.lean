import Verif.Lemmas.HeatmapGif

/- C119: recording heat maps. -/
namespace Tomopt

noncomputable section

namespace C119

open Fit Gif
open EpochSave hiding act

variable {W V P Img C : Type} {E : Env W V P} {k : Nat} {folder : String} {st : W → St Img} {det : W → List (Lay Img)}
variable {c : Conf} {trn : Passives V} {val : Option (Passives V)} {w : W} {mkdir : W → Except Err Unit × W} {o : Outer W V P C} {n : Nat}

/-- **C119.** A fit that ends normally leaves an animation with one picture more than there were epochs: the `i`-th shows the first heat map as it was after `i` epochs. The
temporary pictures are gone, and no other picture in the folder has changed. (`w` is the world once the folder has been made; the first detector layer has a panel.) -/
theorem frames (hR : Records E k folder st det) (hS : Still E det) (hk : k < o.cbList.length) (hw : mkdir o.w = (.ok (), w))
    (hpic : ∀ e s, Reached E { c with nCb := o.cbList.length } trn val w o.log e s → picture (det s.w) ≠ .ok none) (o' : Outer W V P C)
    (h : fit E c mkdir n trn val o = (.ok (), o')) :
    ∃ (m : Nat) (imgs : List Img) (s : S W V P), m ≤ n ∧ Reached E { c with nCb := o.cbList.length } trn val w o.log m s ∧ (m = n ∨ s.fp.stop = true) ∧
      imgs.length = m + 1 ∧ (st o'.w).gif = some imgs ∧
      (∀ i, i ≤ m → ∃ t, Reached E { c with nCb := o.cbList.length } trn val w o.log i t ∧ picture (det t.w) = .ok imgs[i]?) ∧
      (∀ i, i ≤ m → (st o'.w).files (temp folder i) = none) ∧
      ∀ q, (∀ i, i ≤ m → q ≠ temp folder i) → (st o'.w).files q = (st w).files q := by
  unfold fit at h
  rw [hw] at h
  simp only at h
  obtain ⟨hr, rfl⟩ := Prod.mk.inj h
  simp only
  generalize hb : fitBody E { c with nCb := o.cbList.length } n trn val ⟨initFp .train, w, o.log⟩ = b at hr
  obtain ⟨r, s'⟩ := b
  simp only at hr ⊢
  subst hr
  unfold fitBody at hb
  rw [← seq_assoc] at hb
  obtain ⟨s1, h1, hb⟩ := seq_ok hb
  obtain ⟨s2, h2, h3⟩ := seq_ok hb
  obtain ⟨m, -, m2, -, m3, m4⟩ := reached_of_epochs n 0 s1 s2 (.start h1) (.inl rfl) h2
  obtain ⟨imgs, i1, i2, i3, i4, i5, -⟩ := reached_st hR hS (c := { c with nCb := o.cbList.length }) hk hpic m s2 m3
  obtain ⟨-, -, -, a4⟩ := told hR .trainEnd (List.range o.cbList.length) List.nodup_range s2 s' (fun i fp w => hS.cb i _ fp w (.inr rfl)) h3
  rw [if_pos (by simpa using hk)] at a4
  unfold act plotCurrent at a4
  simp only at a4
  rcases hpc : picture (det s2.w) with err | (_ | img)
  · rw [hpc] at a4
    simp at a4
  · exact absurd hpc (hpic m s2 m3)
  · rw [hpc] at a4
    have hlen : (st s2.w).buffer.length = m := by rw [i3]; simp
    simp only [hlen] at a4
    have hbuf : (st s2.w).buffer ++ [temp folder m] = (List.range (m + 1)).map (temp folder) := by simp [i3, List.range_succ]
    have hfs : ∀ i, i ≤ m → write (st s2.w).files (temp folder m) img (temp folder i) = (imgs ++ [img])[i]? := by
      intro i hi
      unfold write
      rcases Nat.lt_or_eq_of_le hi with h1 | rfl
      · rw [if_neg fun heq => by have := temp_inj heq; omega, i4 i h1, List.getElem?_append_left (by omega)]
      · rw [if_pos rfl, List.getElem?_append_right (by omega), i1]
        simp
    have hread : readAll (write (st s2.w).files (temp folder m) img) ((st s2.w).buffer ++ [temp folder m]) = .ok (imgs ++ [img]) := by
      refine readAll_ok _ _ _ ?_
      rw [hbuf]
      refine List.ext_getElem? fun i => ?_
      rw [List.getElem?_map, List.getElem?_map, List.getElem?_map]
      rcases Nat.lt_or_ge i (m + 1) with hi | hi
      · rw [List.getElem?_range hi]
        simp only [Option.map_some]
        rw [hfs i (by omega), List.getElem?_eq_getElem (by simp; omega)]
        rfl
      · rw [List.getElem?_eq_none (by simpa using hi), List.getElem?_eq_none (by simp; omega)]
        rfl
    unfold createGif at a4
    rw [hread] at a4
    simp only [Prod.mk.injEq, true_and] at a4
    refine ⟨m, imgs ++ [img], s2, by omega, m3, by simpa using m4, by simp [i1], by rw [← a4], fun i hi => ?_, fun i hi => ?_, fun q hq => ?_⟩
    · rcases Nat.lt_or_eq_of_le hi with h1 | rfl
      · obtain ⟨t, t1, t2⟩ := i2 i h1
        exact ⟨t, t1, by rw [t2, List.getElem?_append_left (by omega)]⟩
      · exact ⟨s2, m3, by rw [hpc, List.getElem?_append_right (by omega), i1]; simp⟩
    · rw [← a4]
      simp only
      rw [removed, if_pos]
      rw [hbuf]
      exact List.mem_map.mpr ⟨i, by simp; omega, rfl⟩
    · rw [← a4]
      simp only
      rw [removed, if_neg, write, if_neg (hq m (le_refl _)), i5 q fun i hi => hq i (by omega)]
      rw [hbuf]
      intro hmem
      obtain ⟨i, hi, rfl⟩ := List.mem_map.mp hmem
      exact hq i (by simpa [Nat.lt_succ_iff] using hi) rfl

/-- **C119.** What is shown is the first panel of the first layer; it is an error if that layer has no heat maps, whatever comes after it. -/
theorem shown (l : Lay Img) (ls : List (Lay Img)) (i : Img) (is : List Img) :
    picture (⟨true, i :: is⟩ :: ls) = .ok (some i) ∧ (l.heat = false → ∃ e, picture (l :: ls) = .error e) ∧
      (picture (l :: ls) = .ok (some i) → l.heat = true ∧ ∃ js, l.panels = i :: js) := by
  refine ⟨rfl, fun h => ⟨_, by simp [picture, h]; rfl⟩, fun h => ?_⟩
  simp only [picture] at h
  split at h
  · rename_i hh
    refine ⟨hh, ?_⟩
    simp only [Except.ok.injEq] at h
    cases hp : l.panels with
    | nil => rw [hp] at h; simp at h
    | cons j js => rw [hp] at h; simp at h; exact ⟨js, by rw [h]⟩
  · simp at h

theorem readAll_missing {fs : Files Img} {p : String} (hp : fs p = none) : ∀ (ps : List String), p ∈ ps → ∃ e, readAll fs ps = .error e := by
  intro ps
  induction ps with
  | nil => simp
  | cons q ps ih =>
    intro hm
    unfold readAll
    rcases hq : fs q with _ | i
    · exact ⟨_, rfl⟩
    · rcases List.mem_cons.mp hm with rfl | hm
      · rw [hp] at hq; simp at hq
      · obtain ⟨e, he⟩ := ih hm
        exact ⟨e, by simp [he]⟩

/-! ### What does not hold -/

/-- **C119 (violated): a detector without panels.** If there is nothing to show, no exception tells so when a picture is due; but its name is kept, and the end of the fit
raises because there is no such file, and there is no animation of the other pictures. -/
theorem nothing_violated (folder : String) (d : List (Lay Img)) (s : St Img) (hd : d = [] ∨ ∃ ls, d = ⟨true, []⟩ :: ls) (hf : s.files (temp folder s.buffer.length) = none) :
    (act folder .epochBegin .train d s).1 = .ok () ∧ (∃ e, (act folder .trainEnd .train d s).1 = .error e) ∧ (act folder .trainEnd .train d s).2.gif = s.gif ∧
      ∃ e, (act folder .trainEnd .train d (act folder .epochBegin .train d s).2).1 = .error e := by
  have hp : picture d = .ok none := by
    rcases hd with rfl | ⟨ls, rfl⟩ <;> rfl
  have key : ∀ t : St Img, t.files = s.files → temp folder s.buffer.length ∈ t.buffer ++ [temp folder t.buffer.length] →
      ∃ e, act folder .trainEnd .train d t = (.error e, { t with buffer := t.buffer ++ [temp folder t.buffer.length] }) := by
    intro t ht hm
    obtain ⟨e, he⟩ := readAll_missing (hf) _ hm
    refine ⟨e, ?_⟩
    simp [act, plotCurrent, hp, createGif, ht, he]
  obtain ⟨e, he⟩ := key s rfl (by simp)
  refine ⟨by simp [act, plotCurrent, hp], ⟨e, by rw [he]⟩, by rw [he], ?_⟩
  obtain ⟨e, he⟩ := key (act folder .epochBegin .train d s).2 (by simp [act, plotCurrent, hp]) (by simp [act, plotCurrent, hp])
  exact ⟨e, by rw [he]⟩

example : ∃ (d : List (Lay Nat)) (s : St Nat), d = [] ∧ s.files (temp "out" s.buffer.length) = none ∧ s.buffer ≠ [] := ⟨[], ⟨["a"], fun _ => none, none⟩, rfl, rfl, by simp⟩

/-- A world with a heat map, shown as a number, and two recording callbacks, each with its own animation, that share the folder. -/
structure World where
  map : Nat
  files : Files Nat
  buf : Nat → List String
  gif : Nat → Option (List Nat)

/-- what callback `i` works on -/
def stOf (i : Nat) (w : World) : St Nat := ⟨w.buf i, w.files, w.gif i⟩

/-- the one detector layer -/
def detOf (w : World) : List (Lay Nat) := [⟨true, [w.map]⟩]

/-- The first `recs` callbacks record; updates change the map; with `fails`, the callback after them raises when the second epoch begins. -/
def demo (recs : Nat) (fails : Bool) : Env World Unit Unit where
  cb i e fp w :=
    if i < recs then
      let r := act "out" e fp.mode (detOf w) (stOf i w)
      (r.1, ⟨fp.pred, fp.stop, fp.skip⟩, ⟨w.map, r.2.files, fun j => if j = i then r.2.buffer else w.buf j, fun j => if j = i then r.2.gif else w.gif j⟩)
    else (if fails = true ∧ e = .epochBegin ∧ fp.epoch = 2 then .error .runtimeError else .ok (), ⟨fp.pred, fp.stop, fp.skip⟩, w)
  prim a _ w := (.ok (), match a with
    | .conform => { w with map := w.map + 1 }
    | _ => w)
  pred _ w := (.ok (some ()), w)
  loss _ w := (.ok 1, w)
  hasLoss := false

theorem demo_records (fails : Bool) : Records (demo 1 fails) 0 "out" (stOf 0) detOf where
  self e fp w := by simp [demo, stOf]
  keeps e fp w := by simp [demo, detOf]
  other i e fp w h := by
    simp [demo, h]
  prim a fp w := by cases a <;> rfl
  pred _ _ := rfl
  loss _ _ := rfl

theorem demo_still (fails : Bool) : Still (demo 1 fails) detOf where
  prim _ _ _ := rfl
  cb i e fp w _ := by
    by_cases h : i = 0 <;> simp [demo, h, detOf]

/-- an empty folder -/
def empty : World := ⟨0, fun _ => none, fun _ => [], fun _ => none⟩

/-- a fit of two epochs of one volume each -/
def demoFit (recs : Nat) (fails : Bool) : Except Err Unit × Outer World Unit Unit Unit :=
  fit (demo recs fails) ⟨0, 1, 0, 1⟩ (fun w => (.ok (), w)) 2 ⟨[()], 1⟩ (some ⟨[()], 1⟩) ⟨none, empty, [], [(), ()], false⟩

/-- Two epochs with an update each: three pictures, of the heat map at the start, after one and after two epochs. -/
example : (demoFit 1 false).1.isOk = true ∧ (demoFit 1 false).2.w.gif 0 = some [0, 1, 2] ∧ (demoFit 1 false).2.w.files "out/temp_heatmap_0.png" = none := by
  decide +kernel

/-- The theorem applies to it. -/
example : ∃ imgs, (stOf 0 (demoFit 1 false).2.w).gif = some imgs := by
  have hr : (demoFit 1 false).1 = .ok () := by
    have : (demoFit 1 false).1.isOk = true := by decide +kernel
    cases h : (demoFit 1 false).1 with
    | ok u => rfl
    | error e => rw [h] at this; simp [Except.isOk, Except.toBool] at this
  revert hr
  unfold demoFit
  generalize hf : fit (demo 1 false) _ _ _ _ _ _ = f
  intro hr
  obtain ⟨r, o'⟩ := f
  simp only at hr
  subst hr
  have hw' : (fun w => (.ok (), w) : World → Except Err Unit × World) empty = (.ok (), empty) := rfl
  obtain ⟨-, imgs, -, -, -, -, -, h3, -⟩ := frames (demo_records false) (demo_still false) (by simp) hw' (fun e s _ => by simp [picture, detOf]) _ hf
  exact ⟨imgs, h3⟩

/-- **C119 (violated): cleaning up.** After an exception the temporary pictures stay in the folder and there is no animation. -/
theorem leftover_violated : (demoFit 1 true).1.isOk = false ∧ (demoFit 1 true).2.w.gif 0 = none ∧ (demoFit 1 true).2.w.files "out/temp_heatmap_0.png" = some 0 ∧
    (demoFit 1 true).2.w.files "out/temp_heatmap_1.png" = some 1 := by
  decide +kernel

/-- **C119 (violated): two recorders.** Two recording callbacks use the same temporary files: the first removes those of the second, and the fit raises at its end. -/
theorem two_violated : (demoFit 2 false).1.isOk = false ∧ (demoFit 2 false).2.w.gif 0 = some [0, 1, 2] ∧ (demoFit 2 false).2.w.gif 1 = none := by
  decide +kernel

end C119

end

end Tomopt
