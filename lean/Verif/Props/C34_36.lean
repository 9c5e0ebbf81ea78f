import Verif.Lemmas.Infer

/- C34-C36: efficiencies, combination of batches and histories of an inferrer. -/
namespace Tomopt

noncomputable section

open Infer

namespace C34

/-- **C34.** With at least two panels the efficiency of a group of panels is the probability that at least two of them fire. -/
theorem group (effs : List ℝ) (h : 2 ≤ effs.length) : groupEff effs = .ok (probTwoOrMore effs) := by
  rw [probTwoOrMore_eq]; exact groupEff_eq effs h

theorem too_few (effs : List ℝ) (h : effs.length < 2) : ∃ e, groupEff effs = .error e := by
  unfold groupEff
  by_cases h0 : effs.length = 0
  · exact ⟨_, by rw [if_pos h0]⟩
  · exact ⟨_, by rw [if_neg h0, if_pos (by omega)]⟩

/-- It lies between 0 and 1. -/
theorem bounds (effs : List ℝ) (h : ∀ e ∈ effs, 0 ≤ e ∧ e ≤ 1) : 0 ≤ probTwoOrMore effs ∧ probTwoOrMore effs ≤ 1 := by
  rw [probTwoOrMore_eq]
  obtain ⟨h1, h2⟩ := pTwo_mem effs h
  exact ⟨h1, by linarith [(pNone_mem effs h).1]⟩

theorem mono (effs effs' : List ℝ) (h : List.Forall₂ (fun a b => 0 ≤ a ∧ a ≤ b ∧ b ≤ 1) effs effs') : probTwoOrMore effs ≤ probTwoOrMore effs' := by
  rw [probTwoOrMore_eq, probTwoOrMore_eq]; exact pTwo_mono _ _ h

theorem mapE_ok {β γ : Type} (f : β → Except Err γ) (g : β → γ) : ∀ l : List β, (∀ x ∈ l, f x = .ok (g x)) → mapE f l = .ok (l.map g)
  | [], _ => rfl
  | x :: l, h => by
    simp [mapE, h x (by simp), mapE_ok f g l fun y hy => h y (by simp [hy])]

/-- **C34, a batch.** Every muon gets the product of the two probabilities. -/
theorem batch (s : ScVars) (ha : ∀ r ∈ s.effAbove, 2 ≤ r.length) (hb : ∀ r ∈ s.effBelow, 2 ≤ r.length) :
    ∃ es, panelEff s = .ok es ∧ ∀ (i : Nat) (a b : List ℝ), s.effAbove[i]? = some a → s.effBelow[i]? = some b →
      es[i]? = some (probTwoOrMore a * probTwoOrMore b) := by
  refine ⟨List.zipWith (· * ·) (s.effAbove.map probTwoOrMore) (s.effBelow.map probTwoOrMore), ?_, ?_⟩
  · unfold panelEff
    rw [mapE_ok groupEff probTwoOrMore s.effAbove fun r hr => group r (ha r hr), mapE_ok groupEff probTwoOrMore s.effBelow fun r hr => group r (hb r hr)]
    rfl
  · intro i a b h1 h2
    simp [List.getElem?_zipWith, h1, h2]

/-- Three panels of efficiencies 1/2 each: four of the eight patterns have two or more hits. -/
example : groupEff [1 / 2, 1 / 2, 1 / 2] = .ok (1 / 2) := by
  rw [groupEff_eq _ (by simp)]
  norm_num [pTwo, pNone]

end C34

namespace C36

/-- one entry per muon of all batches -/
def idx (l : List (ScVars × Nat × List ℝ)) : List ((ScVars × List ℝ) × Nat) := l.flatMap fun x => (List.range x.2.1).map fun i => ((x.1, x.2.2), i)

theorem allMuons_idx : ∀ l, allMuons l = (idx l).map fun x => muonRec x.1.1 x.1.2 x.2
  | [] => rfl
  | (b, n, es) :: l => by simp [allMuons, allMuons_idx l, idx, List.flatMap_cons, List.map_map, Function.comp_def]

theorem rows_eq (t : List (List XF)) (n : Nat) (h : t.length = n) : t = (List.range n).map (rowAt t) := by
  subst h
  apply List.ext_getElem
  · simp
  · intro i h1 h2
    simp [rowAt, h1]

theorem effs_eq (t : List ℝ) (n : Nat) (h : t.length = n) : t = (List.range n).map (fun i => t.getD i 0) := by
  subst h
  apply List.ext_getElem
  · simp
  · intro i h1 h2
    simp [h1]

/-- each batch with its number of muons and its efficiencies -/
def Good (eff : ScVars → Except Err (List ℝ)) (l : List (ScVars × Nat × List ℝ)) : Prop :=
  ∀ x ∈ l, BatchOf x.2.1 x.1 ∧ eff x.1 = .ok x.2.2 ∧ x.2.2.length = x.2.1

theorem flat_idx {β : Type} (f : ScVars → List β) (g : ScVars × List ℝ → Nat → β) : ∀ l : List (ScVars × Nat × List ℝ),
    (∀ x ∈ l, f x.1 = (List.range x.2.1).map (g (x.1, x.2.2))) → (l.map (·.1)).flatMap f = (idx l).map fun x => g x.1 x.2
  | [], _ => rfl
  | (b, n, es) :: l, h => by
    have h0 := h (b, n, es) (by simp)
    have ih := flat_idx f g l fun x hx => h x (by simp [hx])
    simp only [List.map_cons, List.flatMap_cons, idx, List.map_append, List.map_map] at ih ⊢
    rw [ih, h0]
    rfl

theorem catVals_idx {eff} (l) (h : Good eff l) (v : Var) : catVals v (l.map (·.1)) = (idx l).map fun x => rowAt (x.1.1.vals v) x.2 := by
  unfold catVals
  exact flat_idx _ (fun b i => rowAt (b.1.vals v) i) l fun x hx => rows_eq _ _ ((h x hx).1.vals v)

theorem catUncs_idx {eff} (l) (h : Good eff l) (v : Var) (hv : v ≠ .mom) : catUncs v (l.map (·.1)) = (idx l).map fun x => rowAt (x.1.1.uncs v) x.2 := by
  have := flat_idx (fun s => s.uncs v) (fun b i => rowAt (b.1.uncs v) i) l fun x hx => rows_eq _ _ ((h x hx).1.uncs v)
  cases v <;> first | exact this | exact absurd rfl hv

theorem catUncs_mom {eff} (l) (h : Good eff l) :
    catUncs .mom (l.map (·.1)) = (idx l).map fun x => (rowAt (x.1.1.vals .mom) x.2).map fun _ => .num 0 := by
  simp [catUncs, catVals_idx l h, List.map_map, Function.comp_def]

theorem zip_idx {α β γ δ : Type} (g : β → γ → δ) (f : α → β) (f' : α → γ) (l : List α) :
    List.zipWith g (l.map f) (l.map f') = l.map fun x => g (f x) (f' x) := by
  induction l with
  | nil => rfl
  | cons a l ih => simp [ih]

theorem pick_filter {α β : Type} (p : α → Bool) (f : α → β) : ∀ l : List α, pick (l.map p) (l.map f) = (l.filter p).map f
  | [] => rfl
  | a :: l => by
    cases h : p a <;> simp [h, pick_filter p f l]

theorem mask_idx {eff} (l) (h : Good eff l) : combineMask (l.map (·.1)) = (idx l).map fun x => (muonRec x.1.1 x.1.2 x.2).finite := by
  unfold combineMask
  simp only [varOrder, List.foldl_cons, List.foldl_nil, finiteRows, catVals_idx l h, catUncs_idx l h _ (by decide : Var.poca ≠ .mom),
    catUncs_idx l h _ (by decide : Var.totScatter ≠ .mom), catUncs_idx l h _ (by decide : Var.thetaIn ≠ .mom),
    catUncs_idx l h _ (by decide : Var.thetaOut ≠ .mom), catUncs_mom l h, List.length_map, List.map_map]
  rw [show List.replicate (idx l).length true = (idx l).map fun _ => true by simp]
  simp only [zip_idx]
  apply List.map_congr_left
  intro x _
  simp only [muonRec, MuonRec.finite, List.all_append, Function.comp, Bool.true_and]
  generalize List.all (rowAt (x.1.1.vals .poca) x.2) _ = a
  generalize List.all (rowAt (x.1.1.vals .totScatter) x.2) _ = b
  generalize List.all (rowAt (x.1.1.vals .thetaIn) x.2) _ = c
  generalize List.all (rowAt (x.1.1.vals .thetaOut) x.2) _ = d
  generalize List.all (rowAt (x.1.1.vals .mom) x.2) _ = e
  generalize List.all (rowAt (x.1.1.uncs .poca) x.2) _ = a'
  generalize List.all (rowAt (x.1.1.uncs .totScatter) x.2) _ = b'
  generalize List.all (rowAt (x.1.1.uncs .thetaIn) x.2) _ = c'
  generalize List.all (rowAt (x.1.1.uncs .thetaOut) x.2) _ = d'
  generalize List.all (List.map _ _) _ = e'
  revert a b c d e a' b' c' d' e'
  decide

theorem mapE_flatten {eff} : ∀ (l), Good eff l → mapE eff (l.map (·.1)) = .ok (l.map (·.2.2))
  | [], _ => rfl
  | x :: l, h => by
    simp [mapE, (h x (by simp)).2.1, mapE_flatten l fun y hy => h y (by simp [hy])]

/-- **C36.** Whatever values are NaN or infinite: the combined tensors are those of exactly the muons all of whose values and uncertainties are finite, in
order; values, uncertainties and efficiencies keep the same muons. -/
theorem kept_muons (eff : ScVars → Except Err (List ℝ)) (l : List (ScVars × Nat × List ℝ)) (h : Good eff l) :
    let kept := (allMuons l).filter MuonRec.finite
    combineVars (l.map (·.1)) = (kept.map (·.vals), kept.map (·.uncs)) ∧ combineEff eff (l.map (·.1)) = .ok (kept.map (·.eff)) := by
  simp only
  have hm := mask_idx l h
  have hf : (allMuons l).filter MuonRec.finite = ((idx l).filter fun x => (muonRec x.1.1 x.1.2 x.2).finite).map fun x => muonRec x.1.1 x.1.2 x.2 := by
    rw [allMuons_idx, List.filter_map]; rfl
  refine ⟨?_, ?_⟩
  · unfold combineVars
    simp only [varOrder, List.map_cons, List.map_nil, catCols, List.foldl_cons, List.foldl_nil, hm, catVals_idx l h,
      catUncs_idx l h _ (by decide : Var.poca ≠ .mom), catUncs_idx l h _ (by decide : Var.totScatter ≠ .mom),
      catUncs_idx l h _ (by decide : Var.thetaIn ≠ .mom), catUncs_idx l h _ (by decide : Var.thetaOut ≠ .mom), catUncs_mom l h, pick_filter, zip_idx, hf,
      List.map_map]
    rfl
  · unfold combineEff
    rw [mapE_flatten l h, hm]
    have he : (l.map (·.2.2)).flatten = (idx l).map fun x => x.1.2.getD x.2 0 := by
      have := fun x hx => effs_eq x.2.2 x.2.1 (h x hx).2.2
      clear hm hf h
      induction l with
      | nil => rfl
      | cons x l ih =>
        simp only [List.map_cons, List.flatten_cons, idx, List.flatMap_cons, List.map_append, List.map_map] at ih ⊢
        rw [ih fun y hy => this y (by simp [hy]), this x (by simp)]
        congr 1
        apply List.map_congr_left
        intro i hi
        simp at hi
        simp [hi]
    simp only [bind, Except.bind, he, pick_filter, hf, List.map_map]
    rfl

/-- finite muons are never dropped, others never kept -/
theorem kept_iff (l : List (ScVars × Nat × List ℝ)) (r : MuonRec) :
    r ∈ (allMuons l).filter MuonRec.finite ↔ r ∈ allMuons l ∧ (∀ x ∈ r.vals, x.isFinite = true) ∧ ∀ x ∈ r.uncs, x.isFinite = true := by
  simp [MuonRec.finite, List.all_eq_true]

/-! Non-vacuity: two batches, one muon of the second with an infinite uncertainty. -/
def b1 : ScVars := ⟨fun v => if v = .poca then [[.num 1, .num 2, .num 3]] else [[.num 1]], fun v => if v = .poca then [[.num 1, .num 1, .num 1]] else [[.num 1]], [[1, 1]], [[1, 1]]⟩
def b2 : ScVars := ⟨fun v => if v = .poca then [[.num 4, .num 5, .num 6], [.num 7, .num 8, .num 9]] else [[.num 2], [.num 3]],
  fun v => if v = .poca then [[.num 1, .pinf, .num 1], [.num 1, .num 1, .num 1]] else [[.num 1], [.num 1]], [[1, 1], [1, 1]], [[1, 1], [1, 1]]⟩

theorem demo_good : Good (fun s => .ok (s.effAbove.map fun _ => 1)) [(b1, 1, [1]), (b2, 2, [1, 1])] := by
  intro x hx
  simp only [List.mem_cons, List.not_mem_nil, or_false] at hx
  rcases hx with rfl | rfl
  · exact ⟨⟨by intro v; cases v <;> rfl, by intro v; cases v <;> rfl⟩, rfl, rfl⟩
  · exact ⟨⟨by intro v; cases v <;> rfl, by intro v; cases v <;> rfl⟩, rfl, rfl⟩

example : ((allMuons [(b1, 1, [1]), (b2, 2, [1, 1])]).filter MuonRec.finite).map (·.vals) =
    [[.num 1, .num 2, .num 3, .num 1, .num 1, .num 1, .num 1], [.num 7, .num 8, .num 9, .num 3, .num 3, .num 3, .num 3]] := rfl

end C36

namespace C35

/-! The answers a user expects: functions of the batches added so far. -/

def wantVars (bs : List ScVars) : Except Err (List (List XF) × List (List XF)) := if bs.length = 0 then .error .valueError else .ok (combineVars bs)

def wantEff (c : Conf) (bs : List ScVars) : Except Err (Option (List ℝ)) :=
  if bs.length = 0 then .error .valueError else (combineEff c.eff bs).map some

def wantN (bs : List ScVars) : Except Err (Option Nat) := if bs.length = 0 then .error .valueError else .ok (some (combineVars bs).1.length)

def wantProbs (c : Conf) (bs : List ScVars) : Except Err (List (List (List (List ℝ)))) :=
  if bs.length = 0 then .error .valueError
  else do
    let rows ← parseRows (combineVars bs).1 (combineVars bs).2
    mapE (muonProbs c.cdf c.size c.edges c.shp) rows

def wantPreds (c : Conf) (bs : List ScVars) : Except Err (List (List (List XF))) :=
  if bs.length = 0 then .error .valueError
  else do
    let eff ← combineEff c.eff bs
    let probs ← wantProbs c bs
    let rows ← parseRows (combineVars bs).1 (combineVars bs).2
    voxelPreds c.big c.size c.shp rows eff probs

def wantPrediction (c : Conf) (bs : List ScVars) : Except Err (Option (List (List (List XF)))) :=
  if bs.length = 0 then .ok none else (wantPreds c bs).map some

/-- the answer to one operation -/
def want (c : Conf) (bs : List ScVars) : Op → Ans
  | .add _ => .done
  | .prediction => .pred (wantPrediction c bs)
  | .vars => .vars (wantVars bs)
  | .efficiency => .eff (wantEff c bs)
  | .nMuons => .n (wantN bs)
  | .probs => .probs (wantProbs c bs)

/-- the answers to a history -/
def wantRun (c : Conf) : List ScVars → List Op → List Ans
  | _, [] => []
  | bs, o :: os => want c bs o :: wantRun c (match o with | .add b => bs ++ [b] | _ => bs) os

/-- what is remembered is right -/
structure Inv (c : Conf) (s : St) (e : List ℝ) : Prop where
  eff : combineEff c.eff s.batches = .ok e
  vars : s.vars = none ∨ s.batches.length ≠ 0 ∧ s.vars = some (combineVars s.batches) ∧ s.eff = some e ∧ s.nMu = some (combineVars s.batches).1.length
  probs : s.probs = none ∨ ∃ p, s.probs = some p ∧ wantProbs c s.batches = .ok p
  preds : s.preds = none ∨ ∃ p, s.preds = some p ∧ wantPreds c s.batches = .ok p

theorem ensure_spec (c : Conf) (s : St) (e : List ℝ) (h : Inv c s e) :
    (s.batches.length = 0 ∧ ensure c s = (s, .error .valueError)) ∨
    (s.batches.length ≠ 0 ∧ ∃ s', ensure c s = (s', .ok ()) ∧ Inv c s' e ∧ s'.batches = s.batches ∧ s'.vars = some (combineVars s.batches) ∧ s'.eff = some e ∧
      s'.nMu = some (combineVars s.batches).1.length ∧ s'.probs = s.probs ∧ s'.preds = s.preds) := by
  rcases h.vars with hv | ⟨h0, hv, he, hn⟩
  · by_cases h0 : s.batches.length = 0
    · exact Or.inl ⟨h0, by simp [ensure, hv, combine, h0]⟩
    · right
      refine ⟨h0, { s with vars := some (combineVars s.batches), eff := some e, nMu := some (combineVars s.batches).1.length }, ?_, ⟨h.eff, Or.inr ⟨h0, rfl, rfl, rfl⟩, h.probs, h.preds⟩, rfl, rfl, rfl, rfl, rfl, rfl⟩
      simp only [ensure, hv, combine, h0, if_false, h.eff]
  · right
    exact ⟨h0, s, by simp [ensure, hv], h, rfl, hv, he, hn, rfl, rfl⟩

theorem readProbs_spec (c : Conf) (s : St) (e : List ℝ) (h : Inv c s e) :
    ∃ s', readProbs c s = (s', wantProbs c s.batches) ∧ Inv c s' e ∧ s'.batches = s.batches ∧ s'.preds = s.preds ∧ (s.vars ≠ none → s'.vars = s.vars) := by
  rcases h.probs with hp | ⟨p, hp, hw⟩
  · rcases ensure_spec c s e h with ⟨h0, he⟩ | ⟨h0, s', he, hi, hb, hv, hef, hn, hpr, hpd⟩
    · refine ⟨s, ?_, h, rfl, rfl, fun _ => rfl⟩
      simp only [readProbs, hp, readVars, he, wantProbs, h0, if_true]
    · have hvv : s.vars ≠ none → s'.vars = s.vars := by
        intro hne
        rcases h.vars with h1 | ⟨_, h1, _, _⟩
        · exact absurd h1 hne
        · rw [hv, h1]
      cases hr : parseRows (combineVars s.batches).1 (combineVars s.batches).2 with
      | error er =>
        refine ⟨s', ?_, hi, hb, hpd, hvv⟩
        simp only [readProbs, hp, readVars, he, hv, hn, hr, wantProbs, h0, if_false, bind, Except.bind]
      | ok rows =>
        cases hm : mapE (muonProbs c.cdf c.size c.edges c.shp) rows with
        | error er =>
          refine ⟨s', ?_, hi, hb, hpd, hvv⟩
          simp only [readProbs, hp, readVars, he, hv, hn, hr, hm, wantProbs, h0, if_false, bind, Except.bind]
        | ok p =>
          have hw : wantProbs c s.batches = .ok p := by simp only [wantProbs, h0, if_false, hr, bind, Except.bind, hm]
          refine ⟨{ s' with probs := some p }, ?_, ⟨hi.eff, hi.vars, Or.inr ⟨p, rfl, ?_⟩, hi.preds⟩, hb, hpd, hvv⟩
          · simp only [readProbs, hp, readVars, he, hv, hn, hr, hm, hw]
          · simp only [hb]; exact hw
  · exact ⟨s, by simp [readProbs, hp, hw], h, rfl, rfl, fun _ => rfl⟩

theorem readPreds_spec (c : Conf) (s : St) (e : List ℝ) (h : Inv c s e) :
    ∃ s', readPreds c s = (s', wantPreds c s.batches) ∧ Inv c s' e ∧ s'.batches = s.batches := by
  rcases h.preds with hp | ⟨p, hp, hw⟩
  · rcases ensure_spec c s e h with ⟨h0, he⟩ | ⟨h0, s', he, hi, hb, hv, hef, hn, hpr, hpd⟩
    · exact ⟨s, by simp only [readPreds, hp, readEff, he, wantPreds, h0, if_true], h, rfl⟩
    · obtain ⟨s2, h2, hi2, hb2, hpd2, hv2⟩ := readProbs_spec c s' e hi
      have hv2' : s2.vars = some (combineVars s.batches) := by rw [hv2 (by rw [hv]; simp), hv]
      rw [hb] at h2
      have heff := h.eff
      cases hwp : wantProbs c s.batches with
      | error er =>
        refine ⟨s2, ?_, hi2, hb2.trans hb⟩
        simp only [readPreds, hp, readEff, he, hef, h2, hwp, wantPreds, h0, if_false, heff, bind, Except.bind]
      | ok probs =>
        have hens : ensure c s2 = (s2, .ok ()) := by simp [ensure, hv2']
        have hwant : wantPreds c s.batches = (match parseRows (combineVars s.batches).1 (combineVars s.batches).2 with
            | .error er => .error er
            | .ok rows => voxelPreds c.big c.size c.shp rows e probs) := by
          simp only [wantPreds, h0, if_false, heff, bind, Except.bind, hwp]
          cases parseRows (combineVars s.batches).1 (combineVars s.batches).2 <;> rfl
        cases hr : parseRows (combineVars s.batches).1 (combineVars s.batches).2 with
        | error er =>
          rw [hr] at hwant
          refine ⟨s2, ?_, hi2, hb2.trans hb⟩
          simp only [readPreds, hp, readEff, he, hef, h2, hwp, readVars, hens, hv2', hr, hwant]
        | ok rows =>
          rw [hr] at hwant
          simp only at hwant
          cases hvp : voxelPreds c.big c.size c.shp rows e probs with
          | error er =>
            rw [hvp] at hwant
            refine ⟨s2, ?_, hi2, hb2.trans hb⟩
            simp only [readPreds, hp, readEff, he, hef, h2, hwp, readVars, hens, hv2', hr, hvp, hwant]
          | ok p =>
            rw [hvp] at hwant
            refine ⟨{ s2 with preds := some p }, ?_, ⟨hi2.eff, hi2.vars, hi2.probs, Or.inr ⟨p, rfl, ?_⟩⟩, hb2.trans hb⟩
            · simp only [readPreds, hp, readEff, he, hef, h2, hwp, readVars, hens, hv2', hr, hvp, hwant]
            · simp only [hb2, hb]; exact hwant
  · exact ⟨s, by simp [readPreds, hp, hw], h, rfl⟩

theorem step_spec (c : Conf) (s : St) (e : List ℝ) (h : Inv c s e) (o : Op) (ho : ∀ b, o ≠ .add b) :
    ∃ s', step c s o = (s', want c s.batches o) ∧ Inv c s' e ∧ s'.batches = s.batches := by
  cases o with
  | add b => exact absurd rfl (ho b)
  | prediction =>
    by_cases h0 : s.batches.length = 0
    · exact ⟨s, by simp only [step, getPrediction, h0, if_true, want, wantPrediction], h, rfl⟩
    · obtain ⟨s', h1, h2, h3⟩ := readPreds_spec c s e h
      refine ⟨s', ?_, h2, h3⟩
      simp only [step, getPrediction, h0, if_false, want, wantPrediction, h1]
      cases wantPreds c s.batches <;> rfl
  | vars =>
    rcases ensure_spec c s e h with ⟨h0, he⟩ | ⟨h0, s', he, hi, hb, hv, hef, hn, hpr, hpd⟩
    · exact ⟨s, by simp only [step, readVars, he, want, wantVars, h0, if_true], h, rfl⟩
    · exact ⟨s', by simp only [step, readVars, he, want, wantVars, h0, if_false, hv], hi, hb⟩
  | efficiency =>
    rcases ensure_spec c s e h with ⟨h0, he⟩ | ⟨h0, s', he, hi, hb, hv, hef, hn, hpr, hpd⟩
    · exact ⟨s, by simp only [step, readEff, he, want, wantEff, h0, if_true], h, rfl⟩
    · exact ⟨s', by simp only [step, readEff, he, want, wantEff, h0, if_false, hef, h.eff, Except.map], hi, hb⟩
  | nMuons =>
    rcases ensure_spec c s e h with ⟨h0, he⟩ | ⟨h0, s', he, hi, hb, hv, hef, hn, hpr, hpd⟩
    · exact ⟨s, by simp only [step, readN, he, want, wantN, h0, if_true], h, rfl⟩
    · exact ⟨s', by simp only [step, readN, he, want, wantN, h0, if_false, hn], hi, hb⟩
  | probs =>
    obtain ⟨s', h1, h2, h3, _⟩ := readProbs_spec c s e h
    exact ⟨s', by simp only [step, h1, want], h2, h3⟩

/-- every efficiency can be computed -/
def EffOk (c : Conf) (ops : List Op) : Prop := ∀ b, Op.add b ∈ ops → ∃ e, c.eff b = .ok e

theorem combineEff_ok (c : Conf) (bs : List ScVars) (h : ∀ b ∈ bs, ∃ e, c.eff b = .ok e) : ∃ e, combineEff c.eff bs = .ok e := by
  have : ∃ es, mapE c.eff bs = .ok es := by
    induction bs with
    | nil => exact ⟨[], rfl⟩
    | cons b bs ih =>
      obtain ⟨e, he⟩ := h b (by simp)
      obtain ⟨es, hes⟩ := ih fun b' hb' => h b' (by simp [hb'])
      exact ⟨e :: es, by simp [mapE, he, hes]⟩
  obtain ⟨es, hes⟩ := this
  exact ⟨pick (combineMask bs) es.flatten, by simp only [combineEff, hes, bind, Except.bind]⟩

/-- **C35.** For every history of additions and queries, in any order: each answer is the function of the batches added before it, whatever was asked in
between; only efficiencies must be computable (else see `failed_efficiency_violated`). -/
theorem history (c : Conf) (ops : List Op) (h : EffOk c ops) : run c St.init ops = wantRun c [] ops := by
  have key : ∀ (ops : List Op) (s : St) (e : List ℝ), EffOk c ops → (∀ b ∈ s.batches, ∃ e, c.eff b = .ok e) → Inv c s e →
      run c s ops = wantRun c s.batches ops := by
    intro ops
    induction ops with
    | nil => intros; rfl
    | cons o os ih =>
      intro s e hok hbs hi
      have hok' : EffOk c os := fun b hb => hok b (by simp [hb])
      by_cases ho : ∃ b, o = .add b
      · obtain ⟨b, rfl⟩ := ho
        have hbs' : ∀ b' ∈ (addScatters s b).batches, ∃ e, c.eff b' = .ok e := by
          intro b' hb'
          simp only [addScatters, List.mem_append, List.mem_singleton] at hb'
          rcases hb' with hb' | rfl
          · exact hbs b' hb'
          · exact hok b' (by simp)
        obtain ⟨e', he'⟩ := combineEff_ok c _ hbs'
        have := ih (addScatters s b) e' hok' hbs' ⟨he', Or.inl rfl, Or.inl rfl, Or.inl rfl⟩
        simp only [run, step, wantRun, want, this]
        rfl
      · have ho' : ∀ b, o ≠ .add b := fun b hb => ho ⟨b, hb⟩
        obtain ⟨s', h1, h2, h3⟩ := step_spec c s e hi o ho'
        have := ih s' e hok' (by rw [h3]; exact hbs) h2
        simp only [run, h1, wantRun, this, h3]
  exact key ops St.init [] h (by simp [St.init]) ⟨rfl, Or.inl rfl, Or.inl rfl, Or.inl rfl⟩

/-- **C35 for the panel inferrer**: with at least two panels on each side, which a scatter batch needs anyway (C26.too_few), no condition is left. -/
theorem panel_history (c : Conf) (hc : c.eff = panelEff) (ops : List Op)
    (h : ∀ b, Op.add b ∈ ops → (∀ r ∈ b.effAbove, 2 ≤ r.length) ∧ ∀ r ∈ b.effBelow, 2 ≤ r.length) : run c St.init ops = wantRun c [] ops := by
  apply history
  intro b hb
  obtain ⟨es, he, _⟩ := C34.batch b (h b hb).1 (h b hb).2
  exact ⟨es, by rw [hc, he]⟩

/-- Adding a batch: the next prediction is the one of all batches. -/
example (c : Conf) (h : EffOk c [.add C36.b1, .prediction, .add C36.b2, .prediction]) :
    run c St.init [.add C36.b1, .prediction, .add C36.b2, .prediction] =
      [.done, .pred (wantPrediction c [C36.b1]), .done, .pred (wantPrediction c [C36.b1, C36.b2])] := history c _ h

/-- **C35, violated part**: if computing efficiencies raises, the variables are nevertheless remembered, and asking again gives another answer than asking
for the first time: the first prediction raises the error of the efficiency, the second an AttributeError, and the number of muons becomes `None`. -/
theorem failed_efficiency_violated (c : Conf) (b : ScVars) (err : Err) (h : c.eff b = .error err) :
    run c St.init [.add b, .prediction, .prediction, .nMuons, .vars] =
      [.done, .pred (.error err), .pred (.error .attributeError), .n (.ok none), .vars (.ok (combineVars [b]))] := by
  have he : combineEff c.eff [b] = .error err := by simp [combineEff, mapE, h, bind, Except.bind]
  simp [run, step, addScatters, getPrediction, readPreds, readEff, readN, readVars, ensure, combine, he, St.init]

end C35

end

end Tomopt
