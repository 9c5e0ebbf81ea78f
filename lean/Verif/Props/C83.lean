import Verif.Lemmas.WarmupLoop
import Verif.Props.C40_43
import Verif.Props.C45_46

/- C83: warm-ups inside of a fit. -/
namespace Tomopt

noncomputable section

open Fit Warmup

namespace C83

variable {W V P : Type}

theorem steps_eq (t : List (Act V)) : t.countP isStep = steps t := by
  unfold steps
  apply List.countP_congr
  intro a _
  cases a <;> simp [isStep]

theorem backs_eq (t : List (Act V)) : t.countP isBack = (backs t).length := by
  induction t with
  | nil => rfl
  | cons a t ih =>
    rw [List.countP_cons, ih]
    cases a <;> simp [isBack, backs]

/-- **C83.** A whole fit with any list of callbacks, any volumes, and any behaviour of detector, inferrer, loss and the other callbacks: in the first `Σ nᵢ` training epochs (and the
validations between them) no optimiser makes a step, though gradients are computed; from then on there is a step for every backward pass. The epochs are complete (C41). -/
theorem frozen {C : Type} (E : Env W V P) (cs : List Cb) (ws : W → List Wu) (hW : Warms E cs ws) (c : Conf) (mkdir : W → Except Err Unit × W)
    (hmk : ∀ w, ws (mkdir w).2 = ws w) (n : Nat) (trn : Passives V) (val : Option (Passives V)) (htrn : trn.len = trn.vols.length)
    (hval : ∀ v, val = some v → v.len = v.vols.length) (o o' : Outer W V P C) (hn : o.cbList.length = cs.length) (hl : Listed cs (ws o.w))
    (h : fit E c mkdir n trn val o = (.ok (), o')) :
    ∃ ts : List (List (Act V)), ts.length ≤ n ∧
      o'.log = o.log ++ (Spec.evs cs.length .setWrapper ++ Spec.evs cs.length .trainBegin ++ ts.flatten ++ Spec.evs cs.length .trainEnd) ∧
      ∀ e t, ts[e]? = some t →
        (∃ r, Spec.About trn.vols (val.map (·.vols)) r ∧ t = Spec.epoch ⟨cs.length, c.nMu / c.muBs, c.bs, E.hasLoss, true⟩ val.isSome r) ∧
        (e < totalWarm (ws o.w) → steps t = 0) ∧ (totalWarm (ws o.w) ≤ e → steps t = (backs t).length) := by
  unfold fit at h
  rcases hm : mkdir o.w with ⟨r, w⟩
  rw [hm] at h
  cases r with
  | error e => simp at h
  | ok u =>
    simp only [Prod.mk.injEq] at h
    obtain ⟨h4, h5⟩ := h
    have hw : ws w = ws o.w := by have := hmk o.w; rwa [hm] at this
    set c' : Conf := { c with nCb := o.cbList.length } with hc'
    have hc : c'.nCb = cs.length := hn
    generalize hr : fitBody E c' n trn val ⟨initFp .train, w, o.log⟩ = q at h4 h5
    obtain ⟨q1, q2⟩ := q
    simp only at h4 h5
    subst h4
    have hlog' : o'.log = q2.log := by rw [← h5]
    unfold fitBody at hr
    obtain ⟨s1, e1, hr⟩ := seq_ok hr
    obtain ⟨s2, e2, hr⟩ := seq_ok hr
    obtain ⟨s3, e3, e4⟩ := seq_ok hr
    have fixed : ∀ (e : Ev) (s s' : S W V P), cbs E c' e s = (.ok (), s') → s'.log = s.log ++ Spec.evs cs.length e := by
      intro e s s' h
      have := fixed_cbs E c' e s
      unfold Emits at this
      rw [h] at this
      obtain ⟨t, h1, rfl, -⟩ := this
      rw [h1, hc]
    obtain ⟨a1, a2, -⟩ := cbs_all hW c' hc _ _ _ e1
    rw [all_quiet _ _ (by simp)] at a1
    obtain ⟨b1, -⟩ := cbs_all hW c' hc _ _ _ e2
    have hm1 : s1.fp.mode = .train := a2
    rw [hm1, a1] at b1
    have hst : stOf ws (⟨initFp .train, w, o.log⟩ : S W V P) = ⟨ws o.w, false⟩ := by
      show (⟨ws w, false⟩ : St) = _
      rw [hw]
    rw [hst, ← before_zero_all] at b1
    obtain ⟨ts, d1, d2, d3⟩ := epochs_count hW c' hc trn val htrn hval (ws o.w) n 0 s2 s3 b1 e3
    refine ⟨ts, d2, ?_, ?_⟩
    · rw [hlog', fixed _ _ _ e4, d1, fixed _ _ _ e2, fixed _ _ _ e1]
      simp [List.append_assoc]
    · intro e t ht
      obtain ⟨⟨r, f1, f2⟩, f3⟩ := d3 e t ht
      rw [Nat.zero_add, steps_eq, backs_eq] at f3
      refine ⟨⟨r, f1, ?_⟩, ?_, ?_⟩
      · rw [f2]
        unfold fitScan
        rw [hc]
      · intro he
        rw [f3, if_pos ((C45.freeze cs (ws o.w) hl e).mpr he)]
      · intro he
        rw [f3, if_neg]
        intro hcon
        exact absurd ((C45.freeze cs (ws o.w) hl e).mp hcon) (by omega)

/-! A world with two warm-ups, an observer in between and a callback that waits; every volume is predicted, the loss is 2. -/

def demoCs : List Cb := [.warm 0, .other, .warm 1, .post false]

def demo : Env (List Wu) Nat Unit where
  cb i e fp w :=
    let s := cbStep fp.mode e (demoCs.getD i .other) ⟨w, fp.skip⟩
    (.ok (), ⟨fp.pred, fp.stop, s.skip⟩, s.ws)
  prim _ _ w := (.ok (), w)
  pred _ w := (.ok (some ()), w)
  loss _ w := (.ok 2, w)
  hasLoss := true

theorem demo_warms : Warms demo demoCs id := by
  refine ⟨?_, fun _ _ _ => rfl, fun _ _ => rfl, fun _ _ => rfl⟩
  intro i b hb e fp w _
  simp only [demo, id, List.getD_eq_getElem?_getD, hb, Option.getD_some]

theorem demo_noRaise : C41.NoRaise demo := ⟨fun _ _ _ _ => rfl, fun _ _ _ => rfl, fun _ _ => ⟨some (), rfl⟩, fun _ _ => ⟨2, rfl⟩⟩

/-- five epochs, the second warm-up as left by an earlier fit -/
def demoOuter : Outer (List Wu) Nat Unit String := ⟨none, [⟨2, 0, false⟩, ⟨1, 7, true⟩], [], ["a", "b", "c", "d"], true⟩

def demoFit := fit demo ⟨0, 2, 10, 5⟩ (fun w => (.ok (), w)) 5 ⟨[7, 8, 9], 3⟩ none demoOuter

theorem demo_ends : demoFit = (.ok (), demoFit.2) :=
  Prod.ext (C41.fit_ends demo demo_noRaise ⟨0, 2, 10, 5⟩ (by decide) (by decide) _ (fun _ => rfl) _ _ _ _) rfl

example : ∃ ts : List (List (Act Nat)), (∀ e t, ts[e]? = some t → (e < 3 → steps t = 0) ∧ (3 ≤ e → steps t = (backs t).length)) ∧
    demoFit.2.log = Spec.evs 4 .setWrapper ++ Spec.evs 4 .trainBegin ++ ts.flatten ++ Spec.evs 4 .trainEnd := by
  have hl : Listed demoCs (id demoOuter.w) := by unfold Listed; decide
  have hn : demoOuter.cbList.length = demoCs.length := rfl
  obtain ⟨ts, h1, h2, h3⟩ := frozen demo demoCs id demo_warms ⟨0, 2, 10, 5⟩ (fun w => (.ok (), w)) (fun _ => rfl) 5 ⟨[7, 8, 9], 3⟩ none rfl (by simp) demoOuter demoFit.2
    hn hl demo_ends
  exact ⟨ts, fun e t ht => (h3 e t ht).2, h2⟩

end C83

end

end Tomopt
