import Verif.Spec.Separate

/- Lemmas for C161: two runs of the prediction loop side by side. -/
namespace Tomopt

noncomputable section
open Fit

namespace Separate

variable {W V P A L I : Type} {E : Env W V P} {core : W → A} {vol : W → L} {inf : W → I} {hist : W → List (Option P)} {losses : W → List ℝ} {adj : Nat → Ev → Option P → Option P} {ready : A → Prop} {md : Mode}

theorem seq_ok {m k : Prog W V P} {s t : S W V P} (h : (m ;; k) s = (.ok (), t)) : ∃ u, m s = (.ok (), u) ∧ k u = (.ok (), t) := by
  simp only [Fit.seq] at h
  rcases e : m s with ⟨r, u⟩
  rw [e] at h
  cases r with
  | error x => simp at h
  | ok x => exact ⟨u, rfl, h⟩

/-- two states agree, up to a level: 0 in the core, 1 also in the loaded volume, 2 also in the inferrer, 3 also in the prediction; since `h` and `h'` the same predictions `d` were made, and since `q` and `q'` the same losses `g` -/
structure Agree (core : W → A) (vol : W → L) (inf : W → I) (hist : W → List (Option P)) (losses : W → List ℝ) (ready : A → Prop) (md : Mode) (h h' : List (Option P)) (q q' : List ℝ) (k : Nat) (d : List (Option P)) (g : List ℝ) (s s' : S W V P) : Prop where
  mode : s.fp.mode = md
  mode' : s'.fp.mode = md
  hcore : core s.w = core s'.w
  hvol : 1 ≤ k → vol s.w = vol s'.w
  hinf : 2 ≤ k → inf s.w = inf s'.w
  hh : hist s.w = h ++ d
  hh' : hist s'.w = h' ++ d
  hl : losses s.w = q ++ g
  hl' : losses s'.w = q' ++ g
  hpred : 3 ≤ k → s.fp.pred = s'.fp.pred
  hready : ready (core s.w)

/-- two programs that end well bring states that agree to level `k` to states that agree to level `l` -/
def Brings (core : W → A) (vol : W → L) (inf : W → I) (hist : W → List (Option P)) (losses : W → List ℝ) (ready : A → Prop) (md : Mode) (k l : Nat) (m m' : Prog W V P) : Prop :=
  ∀ h h' q q' d g s s' t t', Agree core vol inf hist losses ready md h h' q q' k d g s s' → m s = (.ok (), t) → m' s' = (.ok (), t') → ∃ d' g', Agree core vol inf hist losses ready md h h' q q' l d' g' t t'

local notation "Br" => Brings core vol inf hist losses ready md

theorem Brings.seq {k l j : Nat} {m m' n n' : Prog W V P} (h1 : Br k l m m') (h2 : Br l j n n') : Br k j (m ;; n) (m' ;; n') := by
  intro h h' q q' d g s s' t t' a e e'
  obtain ⟨u, e1, e2⟩ := seq_ok e
  obtain ⟨u', e1', e2'⟩ := seq_ok e'
  obtain ⟨d1, g1, a1⟩ := h1 _ _ _ _ _ _ _ _ _ _ a e1 e1'
  exact h2 _ _ _ _ _ _ _ _ _ _ a1 e2 e2'

theorem Brings.nop {k : Nat} : Br k k (nop : Prog W V P) nop := by
  intro h h' q q' d g s s' t t' a e e'
  simp only [Fit.nop, Prod.mk.injEq, true_and] at e e'
  subst e e'
  exact ⟨d, g, a⟩

theorem Brings.raise {k : Nat} {x x' : Err} : Br k k (raise x : Prog W V P) (raise x') := by
  intro h h' q q' d g s s' t t' a e
  simp [Fit.raise] at e

theorem Brings.each {α : Type} {k : Nat} {f f' : α → Prog W V P} (hf : ∀ a, Br k k (f a) (f' a)) : ∀ l : List α, Br k k (each l f) (each l f')
  | [] => Brings.nop
  | a :: l => (hf a).seq (Brings.each hf l)

theorem Brings.setFp {k : Nat} (hk : k ≤ 2) {u u' : FP P → FP P} (hu : ∀ f, (u f).mode = f.mode) (hu' : ∀ f, (u' f).mode = f.mode) : Br k k (setFp u : Prog W V P) (setFp u') := by
  intro h h' q q' d g s s' t t' a e e'
  simp only [Fit.setFp, Prod.mk.injEq, true_and] at e e'
  subst e e'
  exact ⟨d, g, (hu _).trans a.mode, (hu' _).trans a.mode', a.hcore, a.hvol, a.hinf, a.hh, a.hh', a.hl, a.hl', fun h3 => absurd h3 (by omega), a.hready⟩

theorem Brings.note {k : Nat} {a a' : Act V} : Br k k (note a) (note a') := by
  intro h h' q q' d g s s' t t' a e e'
  simp only [Fit.note, Prod.mk.injEq, true_and] at e e'
  subst e e'
  exact ⟨d, g, a.mode, a.mode', a.hcore, a.hvol, a.hinf, a.hh, a.hh', a.hl, a.hl', a.hpred, a.hready⟩

variable (hE : Only E core vol inf hist losses adj ready)
include hE

theorem Brings.cb {k : Nat} (i : Nat) (e : Ev) : Br k k (callCb E i e) (callCb E i e) := by
  refine Brings.note.seq ?_
  intro h h' q q' d g s s' t t' a x x'
  simp only [Prod.mk.injEq] at x x'
  obtain ⟨x, rfl⟩ := x
  obtain ⟨x', rfl⟩ := x'
  obtain ⟨c1, c2, c3, c4, c5⟩ := hE.cb i e s.fp s.w
  obtain ⟨c1', c2', c3', c4', c5'⟩ := hE.cb i e s'.fp s'.w
  exact ⟨d, g, a.mode, a.mode', c1.trans (a.hcore.trans c1'.symm), fun hk => c2.trans ((a.hvol hk).trans c2'.symm), fun hk => c3.trans ((a.hinf hk).trans c3'.symm), c4.trans a.hh, c4'.trans a.hh', c5.trans a.hl, c5'.trans a.hl', fun hk => by simp only [hE.cbPred, a.hpred hk], by
    simp only [c1]; exact a.hready⟩

theorem Brings.cbs {k : Nat} (c : Conf) (e : Ev) : Br k k (cbs E c e) (cbs E c e) := Brings.each (fun i => Brings.cb hE i e) _

theorem Brings.load (v : V) : Br 0 1 (call E (.load v)) (call E (.load v)) := by
  refine Brings.note.seq ?_
  intro h h' q q' d g s s' t t' a x x'
  simp only [Prod.mk.injEq] at x x'
  obtain ⟨x, rfl⟩ := x
  obtain ⟨x', rfl⟩ := x'
  obtain ⟨c1, c2⟩ := hE.load v s.fp s'.fp s.w s'.w a.hcore x x'
  exact ⟨d, g, a.mode, a.mode', c1, fun _ => c2, fun hk => absurd hk (by omega), (hE.primHist _ _ _).1.trans a.hh, (hE.primHist _ _ _).1.trans a.hh', (hE.primHist _ _ _).2.trans a.hl, (hE.primHist _ _ _).2.trans a.hl', fun hk => absurd hk (by omega), hE.readyPrim _ _ _ (by simp) a.hready⟩

theorem Brings.make : Br 1 2 (call E .newInferrer) (call E .newInferrer) := by
  refine Brings.note.seq ?_
  intro h h' q q' d g s s' t t' a x x'
  simp only [Prod.mk.injEq] at x x'
  obtain ⟨x, rfl⟩ := x
  obtain ⟨x', rfl⟩ := x'
  obtain ⟨c1, c2, c3⟩ := hE.make s.fp s'.fp s.w s'.w a.hcore (a.hvol le_rfl) x x'
  exact ⟨d, g, a.mode, a.mode', c1, fun _ => c2, fun _ => c3, (hE.primHist _ _ _).1.trans a.hh, (hE.primHist _ _ _).1.trans a.hh', (hE.primHist _ _ _).2.trans a.hl, (hE.primHist _ _ _).2.trans a.hl', fun hk => absurd hk (by omega), hE.readyPrim _ _ _ (by simp) a.hready⟩

theorem Brings.call (b : Act V) (hb : b ≠ .volMode true) : Br 2 2 (call E b) (call E b) := by
  refine Brings.note.seq ?_
  intro h h' q q' d g s s' t t' a x x'
  simp only [Prod.mk.injEq] at x x'
  obtain ⟨x, rfl⟩ := x
  obtain ⟨x', rfl⟩ := x'
  obtain ⟨c1, c2, c3⟩ := hE.prim b s.fp s'.fp s.w s'.w a.hcore (a.hvol (by omega)) (a.hinf le_rfl) x x'
  exact ⟨d, g, a.mode, a.mode', c1, fun _ => c2, fun _ => c3, (hE.primHist _ _ _).1.trans a.hh, (hE.primHist _ _ _).1.trans a.hh', (hE.primHist _ _ _).2.trans a.hl, (hE.primHist _ _ _).2.trans a.hl', fun hk => absurd hk (by omega), hE.readyPrim _ _ _ hb a.hready⟩

theorem Brings.getPred : Br 2 3 (getPred E) (getPred E) := by
  refine Brings.note.seq ?_
  intro h h' q q' d g s s' t t' a x x'
  rcases r : E.pred s.fp s.w with ⟨y, w⟩
  rcases r' : E.pred s'.fp s'.w with ⟨y', w'⟩
  cases y with
  | error y => simp [r] at x
  | ok p =>
    cases y' with
    | error y => simp [r'] at x'
    | ok p' =>
      simp only [r, r', Prod.mk.injEq, true_and] at x x'
      subst x x'
      obtain ⟨rfl, c1, c2, c3⟩ := hE.pred s.fp s'.fp s.w s'.w p p' a.hcore (a.hvol (by omega)) (a.hinf le_rfl) (by rw [r]) (by rw [r'])
      obtain ⟨h1, l1⟩ := hE.predHist s.fp s.w p (by rw [r])
      obtain ⟨h1', l1'⟩ := hE.predHist s'.fp s'.w p (by rw [r'])
      have h2 := hE.readyPred s.fp s.w a.hready
      rw [r] at h1 h2 l1
      rw [r'] at h1' l1'
      rw [r, r'] at c1 c2 c3
      refine ⟨d ++ [p], g, a.mode, a.mode', c1, fun _ => c2, fun _ => c3, ?_, ?_, l1.trans a.hl, l1'.trans a.hl', fun _ => rfl, h2⟩
      · exact h1.trans (by rw [a.hh, List.append_assoc])
      · exact h1'.trans (by rw [a.hh', List.append_assoc])

theorem Brings.addLoss : Br 3 3 (addLoss E) (addLoss E) := by
  intro h h' q q' d g s s' t t' a x x'
  unfold Fit.addLoss at x x'
  by_cases hc : md ≠ .test ∧ E.hasLoss = true
  · rw [if_pos (by rw [a.mode]; exact hc)] at x
    rw [if_pos (by rw [a.mode']; exact hc)] at x'
    rw [← a.hpred le_rfl] at x'
    cases hp : s.fp.pred with
    | none =>
      rw [hp] at x x'
      exact (Brings.note.seq Brings.nop) h h' q q' d g s s' t t' a x x'
    | some p =>
      rw [hp] at x x'
      refine (Brings.note.seq ?_) h h' q q' d g s s' t t' a x x'
      intro h h' q q' d g s s' t t' a x x'
      rcases r : E.loss p s.w with ⟨y, w⟩
      rcases r' : E.loss p s'.w with ⟨y', w'⟩
      cases y with
      | error z => simp [r] at x
      | ok z =>
        cases y' with
        | error z' => simp [r'] at x'
        | ok z' =>
          simp only [r, r', Prod.mk.injEq, true_and] at x x'
          subst x x'
          obtain ⟨rfl, c1, c2, c3⟩ := hE.loss p s.w s'.w z z' a.hcore (a.hvol (by omega)) (a.hinf (by omega)) (by rw [r]) (by rw [r'])
          obtain ⟨h1, l1⟩ := hE.lossHist p s.w z (by rw [r])
          obtain ⟨h1', l1'⟩ := hE.lossHist p s'.w z (by rw [r'])
          have h2 := hE.readyLoss p s.w a.hready
          rw [r] at h1 h2 l1
          rw [r'] at h1' l1'
          rw [r, r'] at c1 c2 c3
          exact ⟨d, g ++ [z], a.mode, a.mode', c1, fun _ => c2, fun _ => c3, h1.trans a.hh, h1'.trans a.hh', l1.trans (by rw [a.hl, List.append_assoc]), l1'.trans (by rw [a.hl', List.append_assoc]), a.hpred, h2⟩
  · rw [if_neg (by rw [a.mode]; exact hc)] at x
    rw [if_neg (by rw [a.mode']; exact hc)] at x'
    exact (Brings.note.seq Brings.nop) h h' q q' d g s s' t t' a x x'

theorem Brings.oneVolume (c : Conf) (v : V) : Br 0 3 (oneVolume E c v) (oneVolume E c v) := by
  have hmu : Br 2 2 (muBatch E c) (muBatch E c) :=
    (Brings.call hE _ (by simp)).seq <| (Brings.cbs hE c _).seq <| (Brings.call hE _ (by simp)).seq <| (Brings.call hE _ (by simp)).seq <| (Brings.cbs hE c _).seq <|
      (Brings.call hE _ (by simp)).seq <| Brings.cbs hE c _
  refine (Brings.load hE v).seq <| (Brings.cbs hE c _).seq <| Brings.seq (l := 3) ?_ <| Brings.cbs hE c _
  unfold scanVolume
  refine Brings.seq (l := 1) (Brings.setFp (by omega) (fun _ => rfl) fun _ => rfl) <| Brings.seq (l := 1) ?_ <| (Brings.make hE).seq <| (Brings.each (fun _ => hmu) _).seq <| (Brings.cbs hE c _).seq <| (Brings.getPred hE).seq <|
    (Brings.cbs hE c _).seq (Brings.addLoss hE)
  split
  · exact Brings.raise
  · exact Brings.nop

omit hE in
theorem Brings.down {k l j : Nat} {m m' : Prog W V P} (hj : j ≤ l) (h : Br k l m m') : Br k j m m' := by
  intro h1 h1' q q' d g s s' t t' a e e'
  obtain ⟨d', g', b⟩ := h _ _ _ _ _ _ _ _ _ _ a e e'
  exact ⟨d', g', b.mode, b.mode', b.hcore, fun hk => b.hvol (hk.trans hj), fun hk => b.hinf (hk.trans hj), b.hh, b.hh', b.hl, b.hl', fun hk => b.hpred (hk.trans hj), b.hready⟩

/-- in a prediction the numbers of volumes do not matter -/
theorem Brings.scan (hmd : md = .test) (c : Conf) (len len' : Nat) : ∀ (vs : List V) (i i' : Nat), Br 0 0 (scanFrom E c len i vs) (scanFrom E c len' i' vs)
  | [], _, _ => Brings.nop
  | v :: vs, i, i' => by
    unfold scanFrom
    refine Brings.seq (l := 0) (Brings.setFp (by omega) (fun _ => rfl) fun _ => rfl) <| Brings.seq (l := 0) ?_ <| Brings.seq (l := 0) ((Brings.oneVolume hE c v).down (by omega)) ?_
    · intro h h' q q' d g s s' t t' a x x'
      simp only [batchBegin, a.mode, a.mode', hmd, if_true] at x x'
      exact Brings.nop h h' q q' d g s s' t t' a x x'
    · intro h h' q q' d g s s' t t' a x x'
      simp only [a.mode, a.mode', hmd, ne_eq, not_true_eq_false, false_and, if_false] at x x'
      exact Brings.scan hmd c len len' vs _ _ h h' q q' d g s s' t t' a x x'

/-- scanning without updates -/
theorem Brings.scanValid (hmd : md = .valid) (c : Conf) (len : Nat) : ∀ (vs : List V) (i : Nat), Br 0 0 (scanFrom E c len i vs) (scanFrom E c len i vs)
  | [], _ => Brings.nop
  | v :: vs, i => by
    unfold scanFrom
    refine Brings.seq (l := 0) (Brings.setFp (by omega) (fun _ => rfl) fun _ => rfl) <| Brings.seq (l := 0) ?_ <| Brings.seq (l := 0) ((Brings.oneVolume hE c v).down (by omega)) ?_
    · intro h h' q q' d g s s' t t' a x x'
      have hb : Br 0 0 (if c.bs = 0 then Fit.raise .zeroDivision else if i % c.bs = 0 then Fit.setFp (fun f => { f with lossVal := none }) ;; Fit.cbs E c .volBatchBegin else Fit.nop)
          (if c.bs = 0 then Fit.raise .zeroDivision else if i % c.bs = 0 then Fit.setFp (fun f => { f with lossVal := none }) ;; Fit.cbs E c .volBatchBegin else Fit.nop) := by
        split
        · exact Brings.raise
        · split
          · exact Brings.seq (l := 0) (Brings.setFp (by omega) (fun _ => rfl) fun _ => rfl) (Brings.cbs hE c _)
          · exact Brings.nop
      simp only [batchBegin, a.mode, a.mode', hmd, reduceCtorEq, if_false] at x x'
      exact hb h h' q q' d g s s' t t' a x x'
    · intro h h' q q' d g s s' t t' a x x'
      have hend : Br 0 0 (batchEnd E c) (batchEnd E c) := by
        refine Brings.seq (l := 0) (Brings.setFp (by omega) (fun _ => rfl) fun _ => rfl) <| (Brings.cbs hE c _).seq ?_
        intro h h' q q' d g s s' t t' a x x'
        simp only [a.mode, a.mode', hmd, reduceCtorEq, if_false] at x x'
        exact Brings.nop h h' q q' d g s s' t t' a x x'
      have hb : Br 0 0 (if md ≠ .test ∧ (i + 1) % c.bs = 0 then batchEnd E c ;; if len < c.bs + (i + 1) then Fit.nop else scanFrom E c len (i + 1) vs else scanFrom E c len (i + 1) vs)
          (if md ≠ .test ∧ (i + 1) % c.bs = 0 then batchEnd E c ;; if len < c.bs + (i + 1) then Fit.nop else scanFrom E c len (i + 1) vs else scanFrom E c len (i + 1) vs) := by
        split
        · refine hend.seq ?_
          split
          · exact Brings.nop
          · exact Brings.scanValid hmd c len vs _
        · exact Brings.scanValid hmd c len vs _
      simp only [a.mode, a.mode'] at x x'
      exact hb h h' q q' d g s s' t t' a x x'

end Separate

end

end Tomopt
