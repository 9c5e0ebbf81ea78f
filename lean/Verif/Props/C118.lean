import Verif.Lemmas.EpochSave
import Verif.Spec.Epochs
import Verif.Props.C44

/- C118: states saved at the ends of epochs. -/
namespace Tomopt

noncomputable section

namespace C118

open Fit EpochSave

variable {W V P D : Type} {E : Env W V P} {k : Nat} {folder : String} {files : W → Files D} {snap : W → D}
variable {c : Conf} {trn : Passives V} {val : Option (Passives V)} {w : W} {log : List (Act V)}

theorem unique {e : Nat} {s t : S W V P} (h1 : Reached E c trn val w log e s) (h2 : Reached E c trn val w log e t) : s = t := by
  induction h1 generalizing t with
  | start h =>
    cases h2 with
    | start h' =>
      rw [h] at h'
      exact (Prod.mk.inj h').2
  | next h hs he ih =>
    cases h2 with
    | next h' hs' he' =>
      cases ih h'
      rw [he] at he'
      exact (Prod.mk.inj he').2

theorem before {j : Nat} {t : S W V P} (h : Reached E c trn val w log j t) (e : Nat) (he : e < j) :
    ∃ s s', Reached E c trn val w log e s ∧ (e = 0 ∨ s.fp.stop = false) ∧ fitEpoch E c trn val s = (.ok (), s') ∧ Reached E c trn val w log (e + 1) s' := by
  induction h with
  | start h => omega
  | @next j s s' h hs hf ih =>
    rcases Nat.lt_succ_iff_lt_or_eq.mp he with h1 | rfl
    · exact ih h1
    · exact ⟨s, s', h, hs, hf, .next h hs hf⟩

theorem epochs_files (hS : Saves E k folder files snap) (hC : Calm E k snap) (hk : k < c.nCb) (n e : Nat) (s : S W V P) (hR : Reached E c trn val w log e s)
    (hep : s.fp.epoch = e) (hst : e = 0 ∨ s.fp.stop = false) (r : Except Err Unit) (s' : S W V P) (h : epochs E c trn val n s = (r, s')) :
    (∀ j t, e < j → j ≤ e + n → Reached E c trn val w log j t → files s'.w (path folder j) = some (snap t.w)) ∧
    (∀ q, (∀ j t, e ≤ j → j < e + n → Reached E c trn val w log j t → (j = 0 ∨ t.fp.stop = false) → q ≠ path folder (j + 1)) → files s'.w q = files s.w q) ∧
    (r = .ok () → ∃ m, e ≤ m ∧ m ≤ e + n ∧ (n ≠ 0 → e < m) ∧ Reached E c trn val w log m s' ∧ (m = e + n ∨ s'.fp.stop = true)) := by
  induction n generalizing e s with
  | zero =>
    cases h
    exact ⟨fun j t h1 h2 => by omega, fun _ _ => rfl, fun _ => ⟨e, le_refl _, le_refl _, fun h => absurd rfl h, hR, .inl rfl⟩⟩
  | succ n ih =>
    rw [epochs] at h
    rcases seq_cases _ _ _ _ _ h with ⟨x, h1, rfl⟩ | ⟨s1, h1, h⟩
    · obtain ⟨a1, -⟩ := fitEpoch_files hS hC hk trn val s s' _ h1
      refine ⟨fun j t hj _ ht => ?_, fun q hq => a1 q ?_, fun h => by simp at h⟩
      · obtain ⟨s2, s3, b1, -, b3, -⟩ := before ht e hj
        rw [← unique hR b1, h1] at b3
        simp at b3
      · rw [hep]
        exact hq e s (le_refl _) (by omega) hR hst
    obtain ⟨a1, a2⟩ := fitEpoch_files hS hC hk trn val s s1 _ h1
    obtain ⟨a2, a3⟩ := a2 rfl
    rw [hep] at a1 a2 a3
    have hR1 : Reached E c trn val w log (e + 1) s1 := .next hR hst h1
    cases hstop : s1.fp.stop with
    | true =>
      simp only [hstop, if_true] at h
      cases h
      refine ⟨fun j t hj _ ht => ?_, fun q hq => a1 q (hq e s (le_refl _) (by omega) hR hst), fun _ => ⟨e + 1, by omega, by omega, fun _ => by omega, hR1, .inr hstop⟩⟩
      rcases Nat.lt_or_ge (e + 1) j with h2 | h2
      · obtain ⟨s2, s3, b1, b2, -, -⟩ := before ht (e + 1) h2
        rw [← unique hR1 b1, hstop] at b2
        simp at b2
      · obtain rfl : j = e + 1 := by omega
        rw [← unique hR1 ht]
        exact a3
    | false =>
      simp only [hstop, Bool.false_eq_true, if_false] at h
      obtain ⟨b1, b2, b3⟩ := ih (e + 1) s1 hR1 a2 (.inr hstop) h
      refine ⟨fun j t hj hj2 ht => ?_, fun q hq => ?_, fun hr => ?_⟩
      · rcases Nat.lt_or_ge (e + 1) j with h2 | h2
        · exact b1 j t h2 (by omega) ht
        · obtain rfl : j = e + 1 := by omega
          rw [← unique hR1 ht, b2, a3]
          intro i t' hi _ _ _ heq
          have := path_inj heq
          omega
      · rw [b2 q fun j t hj hj2 => hq j t (by omega) (by omega), a1 q (hq e s (le_refl _) (by omega) hR hst)]
      · obtain ⟨m, d1, d2, -, d4, d5⟩ := b3 hr
        refine ⟨m, by omega, by omega, fun _ => by omega, d4, ?_⟩
        rcases d5 with d5 | d5
        · exact .inl (by omega)
        · exact .inr d5

theorem quiet_cbs (hS : Saves E k folder files snap) (e : Ev) (he : e ≠ .epochEnd) (s : S W V P) :
    files (cbs E c e s).2.w = files s.w ∧ (cbs E c e s).2.fp.epoch = s.fp.epoch := by
  have : Inv (fun s' : S W V P => files s'.w = files s.w ∧ s'.fp.epoch = s.fp.epoch) (cbs E c e) := by
    refine inv_each _ _ fun i => inv_seq (fun _ h => h) ?_
    rintro s' ⟨h1, h2⟩
    refine ⟨?_, h2⟩
    rw [← h1]
    by_cases hi : i = k
    · subst hi
      funext q
      exact hS.fails e _ _ q fun h => absurd h he
    · exact hS.other i e _ _ hi
  exact this s ⟨rfl, rfl⟩

theorem calm_cbs (hC : Calm E k snap) (s : S W V P) : snap (cbs E c .trainEnd s).2.w = snap s.w := by
  have : Inv (fun s' : S W V P => snap s'.w = snap s.w) (cbs E c .trainEnd) := by
    refine inv_each _ _ fun i => inv_seq (fun _ h => h) ?_
    intro s' h1
    rw [← h1]
    exact hC.cb i _ _ _ (.inr (.inl rfl))
  exact this s rfl

variable {C : Type} {mkdir : W → Except Err Unit × W} {o : Outer W V P C} {n : Nat}

theorem body_files (hS : Saves E k folder files snap) (hC : Calm E k snap) (hk : k < c.nCb) (r : Except Err Unit) (s' : S W V P)
    (h : fitBody E c n trn val ⟨initFp .train, w, log⟩ = (r, s')) :
    (∀ e s, 1 ≤ e → e ≤ n → Reached E c trn val w log e s → files s'.w (path folder e) = some (snap s.w)) ∧
    (∀ q, (∀ e s, e < n → Reached E c trn val w log e s → (e = 0 ∨ s.fp.stop = false) → q ≠ path folder (e + 1)) → files s'.w q = files w q) ∧
    (r = .ok () → ∃ m s, m ≤ n ∧ (n ≠ 0 → 1 ≤ m) ∧ Reached E c trn val w log m s ∧ (m = n ∨ s.fp.stop = true) ∧ snap s'.w = snap s.w) := by
  unfold fitBody at h
  rw [← seq_assoc] at h
  have hb : ∀ r0 s0, (cbs E c .setWrapper ;; cbs E c .trainBegin) ⟨initFp .train, w, log⟩ = (r0, s0) → files s0.w = files w ∧ (s0.fp.epoch = 0) := by
    intro r0 s0 h0
    rcases seq_cases _ _ _ _ _ h0 with ⟨x, h1, -⟩ | ⟨s1, h1, h2⟩
    · have := quiet_cbs (c := c) hS .setWrapper (by simp) (⟨initFp .train, w, log⟩ : S W V P)
      rw [h1] at this
      exact this
    · have a := quiet_cbs (c := c) hS .setWrapper (by simp) (⟨initFp .train, w, log⟩ : S W V P)
      rw [h1] at a
      have b := quiet_cbs (c := c) hS .trainBegin (by simp) s1
      rw [h2] at b
      exact ⟨b.1.trans a.1, b.2.trans a.2⟩
  rcases seq_cases _ _ _ _ _ h with ⟨x, h1, rfl⟩ | ⟨s1, h1, h⟩
  · refine ⟨fun e s he _ hR => ?_, fun q _ => by rw [(hb _ _ h1).1], fun h => by simp at h⟩
    obtain ⟨s2, s3, b1, -⟩ := before hR 0 (by omega)
    cases b1 with
    | start h2 =>
      rw [h1] at h2
      simp at h2
  obtain ⟨f1, e1⟩ := hb _ _ h1
  have hR : Reached E c trn val w log 0 s1 := .start h1
  rcases seq_cases _ _ _ _ _ h with ⟨x, h2, rfl⟩ | ⟨s2, h2, h⟩
  · obtain ⟨a1, a2, -⟩ := epochs_files hS hC hk n 0 s1 hR e1 (.inl rfl) _ _ h2
    refine ⟨fun e s he hen => a1 e s (by omega) (by omega), fun q hq => ?_, fun h => by simp at h⟩
    rw [a2 q fun j t _ hj => hq j t (by omega), f1]
  · obtain ⟨a1, a2, a3⟩ := epochs_files hS hC hk n 0 s1 hR e1 (.inl rfl) _ _ h2
    have b := quiet_cbs (c := c) hS .trainEnd (by simp) s2
    have d := calm_cbs (c := c) hC s2
    rw [h] at b d
    simp only at b d
    rw [b.1, d]
    refine ⟨fun e s he hen => a1 e s (by omega) (by omega), fun q hq => ?_, fun _ => ?_⟩
    · rw [a2 q fun j t _ hj => hq j t (by omega), f1]
    · obtain ⟨m, -, d2, d3, d4, d5⟩ := a3 rfl
      exact ⟨m, s2, by omega, fun h => d3 h, d4, by simpa using d5, rfl⟩

/-- **C118.** Whether the fit ends or raises, and wherever it does: the file of every epoch that was completed holds the wrapper as it was at the end of that epoch, and
no file changes except those of epochs that were begun. (`w` is the world once the folder has been made.) -/
theorem saved (hS : Saves E k folder files snap) (hC : Calm E k snap) (hk : k < o.cbList.length) (hw : mkdir o.w = (.ok (), w)) (r : Except Err Unit)
    (o' : Outer W V P C) (h : fit E c mkdir n trn val o = (r, o')) :
    (∀ e s, 1 ≤ e → e ≤ n → Reached E { c with nCb := o.cbList.length } trn val w o.log e s → files o'.w (folder ++ "/volume_state_" ++ toString e ++ ".pt") = some (snap s.w)) ∧
    ∀ q, (∀ e s, e < n → Reached E { c with nCb := o.cbList.length } trn val w o.log e s → (e = 0 ∨ s.fp.stop = false) → q ≠ folder ++ "/volume_state_" ++ toString (e + 1) ++ ".pt") →
      files o'.w q = files w q := by
  unfold fit at h
  rw [hw] at h
  simp only at h
  obtain ⟨rfl, rfl⟩ := Prod.mk.inj h
  have := body_files (n := n) (trn := trn) (val := val) (w := w) (log := o.log) hS hC (c := { c with nCb := o.cbList.length }) hk _ _ rfl
  exact ⟨this.1, this.2.1⟩

/-- **C118.** A fit of at least one epoch that ends normally leaves a file for its last epoch that holds the wrapper as it is now. -/
theorem latest (hS : Saves E k folder files snap) (hC : Calm E k snap) (hk : k < o.cbList.length) (hn : 1 ≤ n) (o' : Outer W V P C)
    (h : fit E c mkdir n trn val o = (.ok (), o')) :
    ∃ w m s, mkdir o.w = (.ok (), w) ∧ 1 ≤ m ∧ m ≤ n ∧ Reached E { c with nCb := o.cbList.length } trn val w o.log m s ∧ (m = n ∨ s.fp.stop = true) ∧
      files o'.w (folder ++ "/volume_state_" ++ toString m ++ ".pt") = some (snap o'.w) := by
  unfold fit at h
  rcases hw : mkdir o.w with ⟨r, w⟩
  rw [hw] at h
  cases r with
  | error e => simp at h
  | ok u =>
    simp only at h
    obtain ⟨hr, rfl⟩ := Prod.mk.inj h
    obtain ⟨a1, -, a3⟩ := body_files (n := n) (trn := trn) (val := val) (w := w) (log := o.log) hS hC (c := { c with nCb := o.cbList.length }) hk _ _ rfl
    obtain ⟨m, s, b1, b2, b3, b4, b5⟩ := a3 hr
    have hm := b2 (by omega)
    refine ⟨w, m, s, rfl, hm, b1, b3, b4, ?_⟩
    have := a1 m s hm b1 b3
    rw [← b5] at this
    exact this

/-- **C118.** Loading that file, into any wrapper with optimisers of the names that contain `_opt`, gives back the parameters and these optimisers as they are at the end of the fit. -/
theorem resume {Pm Sc Os : Type} (wrapOf : W → SaveLoad.Wrap Pm Sc Os) {files : W → Files (Dict String (SaveLoad.Blob Pm Os))}
    (hS : Saves E k folder files fun w => SaveLoad.save (wrapOf w)) (hC : Calm E k fun w => SaveLoad.save (wrapOf w)) (hk : k < o.cbList.length) (hn : 1 ≤ n)
    (o' : Outer W V P C) (h : fit E c mkdir n trn val o = (.ok (), o')) (hnd : ((wrapOf o'.w).opts.map (·.1)).Nodup)
    (hvol : (wrapOf o'.w).opts.get? "volume" = none) (assign : Pm → Sc) (v : SaveLoad.Wrap Pm Sc Os)
    (hsame : ∀ k, "_opt".toList <:+: k.toList → ((wrapOf o'.w).opts.get? k).isSome → (v.opts.get? k).isSome) :
    ∃ m f v', 1 ≤ m ∧ m ≤ n ∧ files o'.w (folder ++ "/volume_state_" ++ toString m ++ ".pt") = some f ∧ SaveLoad.load assign f v = (.ok (), v') ∧ v'.params = (wrapOf o'.w).params ∧
      ∀ k, "_opt".toList <:+: k.toList → ((wrapOf o'.w).opts.get? k).isSome → v'.opts.get? k = (wrapOf o'.w).opts.get? k := by
  obtain ⟨-, m, -, -, h1, h2, -, -, h3⟩ := latest hS hC hk hn o' h
  obtain ⟨v', a1, a2, a3⟩ := C44.roundtrip_partial assign (wrapOf o'.w) v hnd hvol hsame
  refine ⟨m, _, v', h1, h2, h3, a1, a2, fun k hk1 hk2 => ?_⟩
  rw [a3 k, if_pos ⟨hk1, hk2⟩]

/-! ### What does not hold -/

/-- An environment whose wrapper is a number, increased by every update. Callback 0 saves; with `late`, the other callbacks change the wrapper at the ends of training epochs. -/
def demo (late : Bool) : Env (Nat × Files Nat) Unit Unit where
  cb i e fp w := (.ok (), ⟨fp.pred, fp.stop, fp.skip⟩,
    if i = 0 then (w.1, act "out" e (viewOf fp) w.1 w.2)
    else if late = true ∧ e = .epochEnd ∧ fp.mode = .train then (w.1 + 10, w.2) else w)
  prim a _ w := (.ok (), match a with
    | .conform => (w.1 + 1, w.2)
    | _ => w)
  pred _ w := (.ok (some ()), w)
  loss _ w := (.ok 1, w)
  hasLoss := false

theorem demo_saves (late : Bool) : Saves (demo late) 0 "out" (·.2) (·.1) where
  self e fp w _ := rfl
  fails e fp w q h := by
    simp only [demo, if_true]
    unfold act
    split
    · split
      · rename_i hm
        exact if_neg (h rfl hm)
      · rfl
    · rfl
  keeps e fp w := rfl
  other i e fp w h := by
    simp only [demo, if_neg h]
    split <;> rfl
  prim a fp w := by cases a <;> rfl
  pred _ _ := rfl
  loss _ _ := rfl

theorem demo_calm : Calm (demo false) 0 (·.1) where
  prim a fp w _ h := by
    cases a <;> first | rfl | exact absurd rfl h
  pred _ _ := rfl
  loss _ _ := rfl
  cb i e fp w _ := by
    simp only [demo, Bool.false_eq_true, false_and, if_false]
    split <;> rfl

/-- a fit of `n` epochs of one volume, with `cbs` callbacks, started with the given world -/
def demoFit (late : Bool) (cbs : List Unit) (n : Nat) (w : Nat × Files Nat) : Except Err Unit × Outer (Nat × Files Nat) Unit Unit Unit :=
  fit (demo late) ⟨0, 1, 0, 1⟩ (fun w => (.ok (), w)) n ⟨[()], 1⟩ (some ⟨[()], 1⟩) ⟨none, w, [], cbs, false⟩

/-- Two epochs make two updates and write two files. -/
example : let r := demoFit false [()] 2 (0, fun _ => none)
    r.1.isOk = true ∧ r.2.w.1 = 2 ∧ r.2.w.2 "out/volume_state_1.pt" = some 1 ∧ r.2.w.2 "out/volume_state_2.pt" = some 2 ∧ r.2.w.2 "out/volume_state_3.pt" = none := by
  decide +kernel

/-- The theorems apply to it. -/
example : ∃ m, 1 ≤ m ∧ m ≤ 2 ∧ (demoFit false [()] 2 (0, fun _ => none)).2.w.2 (path "out" m) = some (demoFit false [()] 2 (0, fun _ => none)).2.w.1 := by
  have hr : (demoFit false [()] 2 (0, fun _ => none)).1 = .ok () := by
    have : (demoFit false [()] 2 (0, fun _ => none)).1.isOk = true := by decide +kernel
    cases h : (demoFit false [()] 2 (0, fun _ => none)).1 with
    | ok u => rfl
    | error e => rw [h] at this; simp [Except.isOk, Except.toBool] at this
  revert hr
  unfold demoFit
  generalize hf : fit (demo false) _ _ _ _ _ _ = f
  intro hr
  obtain ⟨r, o'⟩ := f
  simp only at hr
  subst hr
  obtain ⟨-, m, -, -, h1, h2, -, -, h3⟩ := latest (demo_saves false) demo_calm (by simp) (by omega) _ hf
  exact ⟨m, h1, h2, h3⟩

/-- **C118 (violated): unique files.** A second fit into the same folder numbers its epochs from one again: the file of the first fit is replaced, and what it held is in no file any more. -/
theorem unique_violated : ∃ w1 w2 : Nat × Files Nat, w1 = (demoFit false [()] 1 (0, fun _ => none)).2.w ∧ w2 = (demoFit false [()] 1 w1).2.w ∧
    w1.2 (path "out" 1) = some 1 ∧ w2.2 (path "out" 1) = some 2 ∧ ∀ q, w2.2 q ≠ some 1 := by
  refine ⟨_, _, rfl, rfl, by decide +kernel, by decide +kernel, fun q => ?_⟩
  have hw : (demoFit false [()] 1 (demoFit false [()] 1 (0, fun _ => none)).2.w).2.w.2 (path "out" 1) = some 2 := by decide +kernel
  by_cases hq : q = path "out" 1
  · rw [hq, hw]
    simp
  have keep : ∀ w : Nat × Files Nat, (demoFit false [()] 1 w).2.w.2 q = w.2 q := by
    intro w
    unfold demoFit
    generalize hf : fit (demo false) _ _ _ _ _ _ = f
    obtain ⟨r, o'⟩ := f
    have hw' : (fun w => (.ok (), w) : Nat × Files Nat → Except Err Unit × (Nat × Files Nat)) w = (.ok (), w) := rfl
    exact (saved (demo_saves false) demo_calm (by simp) hw' r o' hf).2 q fun e s he _ _ => by
        obtain rfl : e = 0 := by omega
        exact hq
  rw [keep, keep]
  simp

/-- **C118 (violated): the highest number.** A shorter fit leaves the later files of the fit before: the file with the highest number is not the latest. -/
theorem stale_violated : ∃ w1 w2 : Nat × Files Nat, w1 = (demoFit false [()] 2 (0, fun _ => none)).2.w ∧ w2 = (demoFit false [()] 1 w1).2.w ∧
    w2.1 = 3 ∧ w2.2 (path "out" 1) = some 3 ∧ w2.2 (path "out" 2) = some 2 :=
  ⟨_, _, rfl, rfl, by decide +kernel, by decide +kernel, by decide +kernel⟩

/-- **C118 (violated): order of callbacks.** What a callback later in the list changes at the end of a training epoch (a warm-up resets learning rates there) is not in the file. -/
theorem order_violated : ∃ w : Nat × Files Nat, w = (demoFit true [(), ()] 1 (0, fun _ => none)).2.w ∧ w.1 = 11 ∧ w.2 (path "out" 1) = some 1 :=
  ⟨_, rfl, by decide +kernel, by decide +kernel⟩

end C118

end

end Tomopt
