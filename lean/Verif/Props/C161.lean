import Verif.Lemmas.Separate
import Verif.Lemmas.Frozen
import Verif.Props.C81
import Verif.Props.C160

/- C161: volumes are predicted separately.  Property theorems; what predicting may look at is in Spec/Separate.lean. -/
namespace Tomopt

noncomputable section
open Fit

namespace C161

open Separate

variable {W V P A L I C R : Type} {E : Env W V P} {core : W → A} {vol : W → L} {inf : W → I} {hist : W → List (Option P)} {losses : W → List ℝ} {adj : Nat → Ev → Option P → Option P} {ready : A → Prop}

/-! ### Helper lemmas -/

/-- a prediction that returns, taken apart: the state in which scanning begins, and the one in which it ends -/
theorem parts (hE : Only E core vol inf hist losses adj ready) (c : Conf) (predCb : C) (getPreds : W → Except Err R) (ps : Passives V) (o o' : Outer W V P C) (r : R) (h : predict E c predCb getPreds ps o = (.ok r, o')) :
    ∃ s t : S W V P, scanFrom E { c with nCb := (o.cbList ++ [predCb]).length } ps.len 0 ps.vols s = (.ok (), t) ∧
      (∀ (ps' : Passives V) (o'' : Outer W V P C) (r' : R), predict E c predCb getPreds ps' o = (.ok r', o'') →
        ∃ t', scanFrom E { c with nCb := (o.cbList ++ [predCb]).length } ps'.len 0 ps'.vols s = (.ok (), t') ∧ core o''.w = core t'.w ∧ hist o''.w = hist t'.w) ∧
      s.fp.mode = .test ∧ hist s.w = hist o.w ∧ ready (core s.w) ∧ (∃ f w, core w = core o.w ∧ (E.prim (.volMode false) f w).1 = .ok () ∧ core s.w = core (E.prim (.volMode false) f w).2) ∧ core o'.w = core t.w ∧ hist o'.w = hist t.w ∧ o'.cbList = o.cbList := by
  have quiet : ∀ (c : Conf) (e : Ev) (s t : S W V P), cbs E c e s = (.ok (), t) → t.fp.mode = s.fp.mode ∧ core t.w = core s.w ∧ hist t.w = hist s.w := by
    intro c e s t h
    unfold cbs at h
    generalize List.range c.nCb = l at h
    induction l generalizing s with
    | nil =>
      simp only [each, nop, Prod.mk.injEq, true_and] at h
      subst h
      exact ⟨rfl, rfl, rfl⟩
    | cons i l ih =>
      obtain ⟨u, e1, e2⟩ := Separate.seq_ok h
      obtain ⟨i1, i2, i3⟩ := ih u e2
      obtain ⟨u0, e0, e1⟩ := Separate.seq_ok e1
      simp only [note, Prod.mk.injEq, true_and] at e0 e1
      obtain ⟨-, rfl⟩ := e1
      subst e0
      obtain ⟨c1, -, -, c4, -⟩ := hE.cb i e s.fp s.w
      exact ⟨i1, i2.trans c1, i3.trans c4⟩
  have split : ∀ (ps : Passives V) (o' : Outer W V P C) (r : R), predict E c predCb getPreds ps o = (.ok r, o') →
      ∃ s t u : S W V P, (cbs E { c with nCb := (o.cbList ++ [predCb]).length } .setWrapper ;; call E (.volMode false) ;; cbs E { c with nCb := (o.cbList ++ [predCb]).length } .predBegin) ⟨initFp .test, o.w, o.log⟩ = (.ok (), s) ∧
        scanFrom E { c with nCb := (o.cbList ++ [predCb]).length } ps.len 0 ps.vols s = (.ok (), t) ∧ core o'.w = core t.w ∧ hist o'.w = hist t.w ∧ o'.cbList = o.cbList ∧ u = t := by
    intro ps o' r h
    simp only [predict] at h
    rcases e : predictBody E { c with nCb := (o.cbList ++ [predCb]).length } ps ⟨initFp .test, o.w, o.log⟩ with ⟨q, z⟩
    rw [e] at h
    cases q with
    | error x => simp at h
    | ok x =>
      simp only [Prod.mk.injEq] at h
      obtain ⟨-, h⟩ := h
      obtain ⟨s1, e1, e⟩ := Separate.seq_ok e
      obtain ⟨s2, e2, e⟩ := Separate.seq_ok e
      obtain ⟨s3, e3, e⟩ := Separate.seq_ok e
      obtain ⟨s4, e4, e5⟩ := Separate.seq_ok e
      obtain ⟨-, q2, q3⟩ := quiet _ _ _ _ e5
      refine ⟨s3, s4, s4, ?_, e4, ?_, ?_, ?_, rfl⟩
      · simp only [Fit.seq, e1, e2, e3]
      · rw [← h]; exact q2
      · rw [← h]; exact q3
      · rw [← h]; simp
  obtain ⟨s, t, -, h1, h2, h3, h4, h5, -⟩ := split ps o' r h
  obtain ⟨s1, e1, h1'⟩ := Separate.seq_ok h1
  obtain ⟨s2, e2, e3⟩ := Separate.seq_ok h1'
  obtain ⟨m1, k1, l1⟩ := quiet _ _ _ _ e1
  obtain ⟨m3, k3, l3⟩ := quiet _ _ _ _ e3
  obtain ⟨u0, e0, e2⟩ := Separate.seq_ok e2
  simp only [note, Prod.mk.injEq, true_and] at e0 e2
  obtain ⟨x2, rfl⟩ := e2
  subst e0
  refine ⟨s, t, h2, ?_, m3.trans m1, ?_, ?_, ⟨s1.fp, s1.w, k1, x2, k3⟩, h3, h4, h5⟩
  · intro ps' o'' r' h'
    obtain ⟨s', t', -, g1, g2, g3, g4, -, -⟩ := split ps' o'' r' h'
    rw [h1] at g1
    simp only [Prod.mk.injEq, true_and] at g1
    subst g1
    exact ⟨t', g2, g3, g4⟩
  · exact l3.trans ((hE.primHist _ _ _).1.trans l1)
  · rw [k3]; exact hE.readyEval _ _

theorem scan_append (c : Conf) (len : Nat) (us : List V) : ∀ (vs : List V) (i : Nat) (s : S W V P), s.fp.mode = .test →
    scanFrom E c len i (vs ++ us) s = (scanFrom E c len i vs ;; scanFrom E c len (i + vs.length) us) s
  | [], i, s, _ => by simp only [List.nil_append, List.length_nil, Nat.add_zero, Fit.seq, scanFrom, nop]
  | v :: vs, i, s, hm => by
    have hF : Frozen.OnlyUpdates (fun _ : W => ()) E := ⟨fun _ _ _ _ => rfl, fun _ _ _ _ _ => rfl, fun _ _ => rfl, fun _ _ => rfl⟩
    have pre : Frozen.K (fun _ : W => ()) ((setFp fun f => { f with volumeId := some i }) ;; batchBegin E c i ;; oneVolume E c v) :=
      (Frozen.K.set (by intro; rfl)).seq <| (Frozen.K.batchBegin c hF i).seq <| Frozen.K.oneVolume c hF v
    have assoc : ∀ a b d : Prog W V P, a ;; b ;; d = (a ;; b) ;; d := by
      intro a b d
      funext s
      simp only [Fit.seq]
      rcases a s with ⟨r, s'⟩
      cases r <;> rfl
    obtain ⟨-, p2⟩ := pre s
    have ok : ∀ (m k : Prog W V P) (s s' : S W V P), m s = (.ok (), s') → (m ;; k) s = k s' := by
      intro m k s s' h
      simp only [Fit.seq, h]
    have bad : ∀ (m k : Prog W V P) (s s' : S W V P) (x : Err), m s = (.error x, s') → (m ;; k) s = (.error x, s') := by
      intro m k s s' x h
      simp only [Fit.seq, h]
    have body : ∀ xs : List V, scanFrom E c len i (v :: xs) s = (((setFp fun f => { f with volumeId := some i }) ;; batchBegin E c i ;; oneVolume E c v) ;; scanFrom E c len (i + 1) xs) s := by
      intro xs
      rw [scanFrom, assoc (batchBegin E c i), assoc]
      rcases e : ((setFp fun f => { f with volumeId := some i }) ;; batchBegin E c i ;; oneVolume E c v) s with ⟨r, s'⟩
      rw [e] at p2
      cases r with
      | error x => rw [bad _ _ _ _ _ e, bad _ _ _ _ _ e]
      | ok x =>
        simp only at p2
        rw [ok _ _ _ _ e, ok _ _ _ _ e]
        simp only [p2, hm, ne_eq, not_true_eq_false, false_and, if_false]
    rw [List.cons_append, body]
    rcases e : ((setFp fun f => { f with volumeId := some i }) ;; batchBegin E c i ;; oneVolume E c v) s with ⟨r, s'⟩
    rw [e] at p2
    cases r with
    | error x =>
      rw [bad _ _ _ _ _ e, bad _ _ s s' x]
      rw [body, bad _ _ _ _ _ e]
    | ok x =>
      simp only at p2
      rw [ok _ _ _ _ e, scan_append c len us vs (i + 1) _ (p2.trans hm), List.length_cons, Nat.add_assoc, Nat.add_comm 1]
      simp only [Fit.seq]
      rw [body, ok _ _ _ _ e]

/-! ### Properties -/

/-- **C161: nothing left over.** Two worlds alike in detectors, muon generator and random numbers, but whatever else happened before: other volumes loaded and predicted, inferrers filled, predictions recorded. Predicting the same volumes with the same callbacks
in both gives, if it returns in both, the same predictions, and leaves detectors and random numbers alike. -/
theorem forgets (hE : Only E core vol inf hist losses adj ready) (c : Conf) (predCb : C) (getPreds : W → Except Err R) (ps : Passives V) (o1 o2 o1' o2' : Outer W V P C) (r1 r2 : R)
    (hc : core o1.w = core o2.w) (hl : o1.cbList.length = o2.cbList.length) (h1 : predict E c predCb getPreds ps o1 = (.ok r1, o1')) (h2 : predict E c predCb getPreds ps o2 = (.ok r2, o2')) :
    ∃ new, hist o1'.w = hist o1.w ++ new ∧ hist o2'.w = hist o2.w ++ new ∧ core o1'.w = core o2'.w := by
  obtain ⟨s, t, e, -, m, b, y, ⟨f, w, k1, z, k2⟩, d, g, -⟩ := parts hE c predCb getPreds ps o1 o1' r1 h1
  obtain ⟨s', t', e', -, m', b', y', ⟨f', w', k1', z', k2'⟩, d', g', -⟩ := parts hE c predCb getPreds ps o2 o2' r2 h2
  have hn : (o1.cbList ++ [predCb]).length = (o2.cbList ++ [predCb]).length := by simp [hl]
  rw [hn] at e
  have hs : core s.w = core s'.w := by rw [k2, k2', hE.eval f f' w w' (by rw [k1, k1', hc]) z z']
  obtain ⟨new, _, a⟩ := Brings.scan hE rfl _ ps.len ps.len ps.vols 0 0 (hist o1.w) (hist o2.w) (losses s.w) (losses s'.w) [] [] s s' t t'
    ⟨m, m', hs, fun h => absurd h (by omega), fun h => absurd h (by omega), by simp [b], by simp [b'], by simp, by simp, fun h => absurd h (by omega), y⟩ e e'
  exact ⟨new, g.trans a.hh, g'.trans a.hh', by rw [d, d', a.hcore]⟩

/-- **C161: one after the other.** Predicting some volumes together gives the predictions of predicting the first of them, and then, in what is left of the random numbers, the others. -/
theorem separately (hE : Only E core vol inf hist losses adj ready) (c : Conf) (predCb : C) (getPreds : W → Except Err R) (vs us : List V) (n n1 n2 : Nat) (o o' o1 o2 : Outer W V P C) (r r1 r2 : R)
    (h : predict E c predCb getPreds ⟨vs ++ us, n⟩ o = (.ok r, o')) (h1 : predict E c predCb getPreds ⟨vs, n1⟩ o = (.ok r1, o1)) (h2 : predict E c predCb getPreds ⟨us, n2⟩ o1 = (.ok r2, o2)) :
    ∃ new1 new2, hist o1.w = hist o.w ++ new1 ∧ hist o2.w = hist o1.w ++ new2 ∧ hist o'.w = hist o.w ++ (new1 ++ new2) ∧ core o'.w = core o2.w := by
  obtain ⟨s, t, e, hs, m, b, y, -, d, g, -⟩ := parts hE c predCb getPreds _ o o' r h
  obtain ⟨t1, e1, d1, g1⟩ := hs _ _ _ h1
  obtain ⟨s2, t2, e2, -, m2, b2, y2, ⟨f2, w2, k1, -, k2⟩, d2, g2, l2⟩ := parts hE c predCb getPreds _ o1 o2 r2 h2
  rw [scan_append _ _ _ _ _ _ m] at e
  obtain ⟨u, eu, e⟩ := Separate.seq_ok e
  obtain ⟨new1, _, a1⟩ := Brings.scan hE rfl _ _ _ vs 0 0 (hist o.w) (hist o.w) (losses s.w) (losses s.w) [] [] s s u t1 ⟨m, m, rfl, fun _ => rfl, fun _ => rfl, by simp [b], by simp [b], by simp, by simp, fun _ => rfl, y⟩ eu e1
  have hcb : o1.cbList = o.cbList := by
    simp only [predict] at h1
    split at h1
    · simp at h1
    · simp only [Prod.mk.injEq] at h1
      rw [← h1.2]; simp
  rw [hcb] at e2
  have hw : ready (core w2) := by rw [k1, d1, ← a1.hcore]; exact a1.hready
  have hcs : core u.w = core s2.w := by rw [k2, hE.readyStay f2 w2 hw, k1, d1, a1.hcore]
  obtain ⟨new2, _, a2⟩ := Brings.scan hE rfl _ _ _ us _ 0 (hist u.w) (hist o1.w) (losses u.w) (losses s2.w) [] [] u s2 t t2
    ⟨a1.mode, m2, hcs, fun h => absurd h (by omega), fun h => absurd h (by omega), by simp, by simp [b2], by simp, by simp, fun h => absurd h (by omega), a1.hready⟩ e e2
  exact ⟨new1, new2, g1.trans a1.hh', g2.trans a2.hh', by rw [g, a2.hh, a1.hh, List.append_assoc], by rw [d, d2, a2.hcore]⟩

/-- **C161: what is returned.** With a handler that records predictions (as in C81) the two lists returned are the same, predictions and targets. -/
theorem returned {T : Type} (hE : Only E core vol inf hist losses adj ready) (c : Conf) (predCb : C) (ph : W → Handler.PH P T) (tv : W → Except Err T) (targ : V → Except Err T) (adj' : Nat → Option P → Option P) (ps : Passives V)
    (o1 o2 o1' o2' : Outer W V P C) (a1 a2 : Nat) (hW : Handler.Handles E o1.cbList.length ph tv targ hist adj')
    (hc : core o1.w = core o2.w) (hl : o1.cbList.length = o2.cbList.length) (h1 : predict E c predCb (fun w => (ph w).getPreds) ps o1 = (.ok a1, o1')) (h2 : predict E c predCb (fun w => (ph w).getPreds) ps o2 = (.ok a2, o2')) :
    ∃ rs, (ph o1'.w).cells[a1]? = some rs ∧ (ph o2'.w).cells[a2]? = some rs ∧ rs.length = ps.vols.length := by
  obtain ⟨new, e1, e2, -⟩ := forgets hE c predCb _ ps o1 o2 o1' o2' a1 a2 hc hl h1 h2
  obtain ⟨n1, rs1, b1, len1, c1, d1, t1, -⟩ := C81.predictions E c predCb ph tv targ hist adj' ps o1 o1' hW a1 h1
  obtain ⟨n2, rs2, b2, len2, c2, d2, t2, -⟩ := C81.predictions E c predCb ph tv targ hist adj' ps o2 o2' (hl ▸ hW) a2 h2
  have f1 : n1 = new := List.append_cancel_left (b1.symm.trans e1)
  have f2 : n2 = new := List.append_cancel_left (b2.symm.trans e2)
  subst f1
  subst f2
  rw [hl] at d1
  have hp := d1.trans d2.symm
  have ht := t1.trans t2.symm
  have : rs1 = rs2 := by
    have l1 : rs1.length = rs2.length := by simpa using congrArg List.length hp
    apply List.ext_getElem l1
    intro i hi hi'
    have g1 := congrArg (fun l => l[i]?) hp
    have g2 := congrArg (fun l => l[i]?) ht
    simp only [List.getElem?_map, List.getElem?_eq_getElem hi, List.getElem?_eq_getElem hi', Option.map_some, Option.some.injEq, Except.ok.injEq] at g1 g2
    exact Prod.ext g1 g2
  subst this
  exact ⟨rs1, c1, c2, by simpa using congrArg List.length t1⟩

/-- **C161: validation.** The same of the validation in an epoch of a fit (volume_wrapper.py 531-537): in two fits alike in detectors, muon generator and random numbers at the end of the training part of an epoch, the volumes for validation get the same predictions and
losses, whatever else happened in the fits so far. -/
theorem validated (hE : Only E core vol inf hist losses adj ready) (c : Conf) (ps : Passives V) (s s' t t' : S W V P) (hc : core s.w = core s'.w)
    (h : (call E (.volMode false) ;; setFp (fun f => { f with mode := .valid }) ;; runEpoch E c ps) s = (.ok (), t)) (h' : (call E (.volMode false) ;; setFp (fun f => { f with mode := .valid }) ;; runEpoch E c ps) s' = (.ok (), t')) :
    ∃ preds new, hist t.w = hist s.w ++ preds ∧ hist t'.w = hist s'.w ++ preds ∧ losses t.w = losses s.w ++ new ∧ losses t'.w = losses s'.w ++ new ∧ core t.w = core t'.w := by
  obtain ⟨u, e1, e2⟩ := Separate.seq_ok h
  obtain ⟨u', e1', e2'⟩ := Separate.seq_ok h'
  obtain ⟨v, e3, e4⟩ := Separate.seq_ok e2
  obtain ⟨v', e3', e4'⟩ := Separate.seq_ok e2'
  obtain ⟨z, e5, e6⟩ := Separate.seq_ok e1
  obtain ⟨z', e5', e6'⟩ := Separate.seq_ok e1'
  simp only [note, setFp, Prod.mk.injEq, true_and] at e3 e3' e5 e5' e6 e6'
  obtain ⟨x, rfl⟩ := e6
  obtain ⟨x', rfl⟩ := e6'
  subst e5 e5' e3 e3'
  have a0 : Agree core vol inf hist losses ready .valid (hist s.w) (hist s'.w) (losses s.w) (losses s'.w) 0 [] []
      (⟨{ s.fp with mode := .valid }, (E.prim (.volMode false) s.fp s.w).2, s.log ++ [.volMode false]⟩ : S W V P) ⟨{ s'.fp with mode := .valid }, (E.prim (.volMode false) s'.fp s'.w).2, s'.log ++ [.volMode false]⟩ :=
    ⟨rfl, rfl, hE.eval _ _ _ _ hc x x', fun h => absurd h (by omega), fun h => absurd h (by omega), by simp [hE.primHist], by simp [hE.primHist], by simp [hE.primHist], by simp [hE.primHist], fun h => absurd h (by omega), hE.readyEval _ _⟩
  obtain ⟨d, g, a⟩ := ((Brings.cbs hE c _).seq <| (Brings.scanValid hE rfl c ps.len ps.vols 0).seq <| Brings.cbs hE c _) _ _ _ _ _ _ _ _ _ _ a0 e4 e4'
  exact ⟨d, g, a.hh, a.hh', a.hl, a.hl', a.hcore⟩

/-- **C161: loading.** Loading passive configurations is as required: two volumes that differ only in what is loaded are the same after a load. -/
theorem loading {τ : Type} (s s' : Load.St τ) (f : Passives.Layout) (t : Option τ) (hs : s.volume.layers.map Load.shape = s'.volume.layers.map Load.shape)
    (hv : { s.volume with layers := [] } = { s'.volume with layers := [] }) (h : (Load.load s f t).2 = .ok ()) : Load.load s f t = Load.load s' f t := by
  obtain ⟨i1, i2⟩ := C160.loop_congr f _ _ hs
  simp only [Volume.mk.injEq, true_and] at hv
  obtain ⟨k1, k2, k3⟩ := hv
  simp only [Load.load, i1, i2 h, k1, k2, k3]

example : Load.load C160.two C160.all (some 3) = Load.load C160.bare C160.all (some 3) := loading _ _ _ _ rfl rfl rfl

/-! ### A world in which all this holds -/

structure World where
  ph : Handler.PH Nat Nat
  hist : List (Option Nat)
  eval : Bool
  random : Nat
  vol : Except Err Nat
  inf : List Nat
  losses : List ℝ

/-- Passive volumes are numbers; every scatter is the number loaded plus a random number; the prediction is the sum of the scatters. -/
def env : Env World Nat Nat where
  cb i e fp w :=
    if i ≠ 0 then (.ok (), ⟨fp.pred, fp.stop, fp.skip⟩, w) else
    match w.ph.step e fp.mode fp.pred w.vol with
    | .ok h => (.ok (), ⟨fp.pred, fp.stop, fp.skip⟩, { w with ph := h })
    | .error x => (.error x, ⟨fp.pred, fp.stop, fp.skip⟩, w)
  prim a _ w := (.ok (), match a with
    | .load v => { w with vol := .ok v }
    | .volMode b => { w with eval := !b }
    | .newInferrer => { w with inf := [] }
    | .makeMuons => { w with random := w.random + 1 }
    | .addScatters => { w with inf := w.inf ++ [(match w.vol with | .ok v => v | .error _ => 0) + w.random] }
    | _ => w)
  pred _ w := (.ok (some w.inf.sum), { w with hist := w.hist ++ [some w.inf.sum] })
  loss p w := (.ok p, { w with losses := w.losses ++ [(p : ℝ)] })
  hasLoss := true

theorem env_only : Only env (fun w => (w.eval, w.random)) World.vol World.inf World.hist World.losses (fun _ _ p => p) (fun a => a.1 = true) where
  cb i e f w := by
    simp only [env]
    split
    · exact ⟨rfl, rfl, rfl, rfl, rfl⟩
    · cases w.ph.step e f.mode f.pred w.vol <;> simp
  cbPred i e f w := by
    simp only [env]
    split
    · rfl
    · cases w.ph.step e f.mode f.pred w.vol <;> simp
  load v f f' w w' h _ _ := by simpa [env] using h
  make f f' w w' h h' _ _ := by simp only [Prod.mk.injEq] at h; simp [env, h, h']
  prim a f f' w w' h h' h'' _ _ := by
    simp only [Prod.mk.injEq] at h
    cases a <;> simp [env, h, h', h'']
  eval f f' w w' h _ _ := by simp only [Prod.mk.injEq] at h; simp [env, h]
  primHist a f w := by cases a <;> exact ⟨rfl, rfl⟩
  pred f f' w w' p p' h h' h'' e e' := by
    simp only [env, Except.ok.injEq] at e e'
    subst e e'
    exact ⟨by rw [h''], h, h', h''⟩
  predHist f w p e := by
    simp only [env, Except.ok.injEq] at e
    subst e
    exact ⟨rfl, rfl⟩
  loss p w w' x x' h h' h'' e e' := by
    simp only [env, Except.ok.injEq] at e e'
    exact ⟨e.symm.trans e', h, h', h''⟩
  lossHist p w x e := by
    simp only [env, Except.ok.injEq] at e
    subst e
    exact ⟨rfl, rfl⟩
  readyEval f w := rfl
  readyStay f w h := by simp only at h; simp [env, h]
  readyPrim a f w h h' := by
    cases a with
    | volMode b => cases b <;> simp_all [env]
    | _ => exact h'
  readyPred f w h := h
  readyLoss p w h := h

theorem env_handles : Handler.Handles env 0 World.ph World.vol Except.ok World.hist fun _ p => p := by
  constructor
  · intro e fp w
    simp only [env, ne_eq, not_true_eq_false, if_false]
    cases w.ph.step e fp.mode fp.pred w.vol <;> simp
  · intro i e fp w hi
    simp [env, hi]
  · intro i e fp w
    simp only [env]
    split
    · simp
    · cases w.ph.step e fp.mode fp.pred w.vol <;> simp
  · intro i e fp w
    simp only [env]
    split
    · rfl
    · cases w.ph.step e fp.mode fp.pred w.vol <;> simp
  · intro i e fp w
    simp only [env]
    split
    · rfl
    · cases w.ph.step e fp.mode fp.pred w.vol <;> simp
  · intro v fp w _; rfl
  · intro a fp w ha
    cases a <;> simp_all [env]
  · intro a fp w
    cases a <;> rfl
  · intro a fp w
    cases a <;> rfl
  · intro fp w; rfl
  · intro fp w; rfl
  · intro fp w p h
    simp only [env, Except.ok.injEq] at h
    subst h
    rfl

/-- before anything was done -/
def start : Outer World Nat Nat Unit := ⟨none, ⟨⟨[], none⟩, [], false, 0, .error .valueError, [], []⟩, [], [], true⟩

/-- after something else was done, with the same random numbers -/
def later : Outer World Nat Nat Unit := ⟨none, ⟨⟨[], none⟩, [some 9, none], false, 0, .ok 77, [5, 6], [3]⟩, [], [], true⟩

/-- Both predictions return, and what was there before does not show. -/
example : (predict env ⟨0, 1, 1, 1⟩ () (fun w => w.ph.getPreds) ⟨[10], 1⟩ start).1 = .ok 0 ∧ (predict env ⟨0, 1, 1, 1⟩ () (fun w => w.ph.getPreds) ⟨[10], 1⟩ start).2.w.hist = [some 11] := by
  constructor <;>
    simp [start, predict, predictBody, cbs, each, callCb, call, note, seq, scanVolumes, scanFrom, oneVolume, scanVolume, muBatch, batchBegin, addLoss, setFp, getPred, nop, env, List.range_succ, Handler.PH.step, Handler.PH.take,
      Handler.PH.begin_, Handler.PH.getPreds, initFp, List.modify]

example : (predict env ⟨0, 1, 1, 1⟩ () (fun w => w.ph.getPreds) ⟨[10], 1⟩ later).1 = .ok 0 ∧ (predict env ⟨0, 1, 1, 1⟩ () (fun w => w.ph.getPreds) ⟨[10], 1⟩ later).2.w.hist = [some 9, none, some 11] := by
  constructor <;>
    simp [later, predict, predictBody, cbs, each, callCb, call, note, seq, scanVolumes, scanFrom, oneVolume, scanVolume, muBatch, batchBegin, addLoss, setFp, getPred, nop, env, List.range_succ, Handler.PH.step, Handler.PH.take,
      Handler.PH.begin_, Handler.PH.getPreds, initFp, List.modify]

/-- A validation that ends well. -/
example : (((call env (.volMode false) ;; setFp (fun f => { f with mode := .valid }) ;; runEpoch env ⟨1, 1, 1, 1⟩ ⟨[10], 1⟩) : Prog World Nat Nat) ⟨initFp .train, later.w, []⟩).1 = .ok () ∧
    (((call env (.volMode false) ;; setFp (fun f => { f with mode := .valid }) ;; runEpoch env ⟨1, 1, 1, 1⟩ ⟨[10], 1⟩) : Prog World Nat Nat) ⟨initFp .train, later.w, []⟩).2.w.losses = [3, 11] := by
  constructor <;>
    simp [later, runEpoch, cbs, each, callCb, call, note, seq, scanVolumes, scanFrom, oneVolume, scanVolume, muBatch, batchBegin, batchEnd, setMean, addLoss, setFp, getPred, nop, env, List.range_succ, Handler.PH.step, Handler.PH.take,
      initFp]

end C161

end

end Tomopt
