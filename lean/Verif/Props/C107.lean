import Verif.Props.C98
import Verif.Props.C92
import Verif.Props.C34_36

/- C107: how the muons are split into batches. -/
namespace Tomopt

noncomputable section

open Real Infer

namespace C107

/-- the batches that were added in a history, in order -/
def added : List Op → List ScVars
  | [] => []
  | .add b :: ops => b :: added ops
  | _ :: ops => added ops

/-- the answer to a question asked at the end of a history -/
def answer (c : Conf) (ops : List Op) (o : Op) : Option Ans := (run c St.init (ops ++ [o])).getLast?

/-- the muons that can be used: all values and uncertainties are finite -/
def usable (l : List (ScVars × Nat × List ℝ)) : List MuonRec := (allMuons l).filter MuonRec.finite

/-- the value, or anything if there is none -/
def got {β : Type} [Inhabited β] : Except Err β → β
  | .ok y => y
  | .error _ => default

open Classical in
/-- `mapE` when all errors are the same: a map, or that error -/
theorem mapE_total {α β : Type} [Inhabited β] (f : α → Except Err β) (e : Err) (he : ∀ a x, f a = .error x → x = e) (l : List α) :
    mapE f l = if ∃ a ∈ l, ∀ y, f a ≠ .ok y then .error e else .ok (l.map fun a => got (f a)) := by
  split
  · next h => exact C92.mapE_error f e he l h
  · next h =>
    refine C34.mapE_ok f _ l fun a ha => ?_
    cases hv : f a with
    | ok y => rfl
    | error x => exact absurd ⟨a, ha, by simp [hv]⟩ h

theorem mapE_perm {α β : Type} [Inhabited β] (f : α → Except Err β) (e : Err) (he : ∀ a x, f a = .error x → x = e) {l l' : List α} (h : l.Perm l') :
    (mapE f l = .error e ∧ mapE f l' = .error e) ∨
      (mapE f l = .ok (l.map fun a => got (f a)) ∧ mapE f l' = .ok (l'.map fun a => got (f a))) := by
  have : (∃ a ∈ l, ∀ y, f a ≠ .ok y) ↔ ∃ a ∈ l', ∀ y, f a ≠ .ok y := by simp only [h.mem_iff]
  rw [mapE_total f e he, mapE_total f e he]
  by_cases hx : ∃ a ∈ l, ∀ y, f a ≠ .ok y
  · rw [if_pos hx, if_pos (this.mp hx)]
    exact Or.inl ⟨rfl, rfl⟩
  · rw [if_neg hx, if_neg (this.not.mp hx)]
    exact Or.inr ⟨rfl, rfl⟩

theorem parseRow_error (v u : List XF) (x : Err) (h : parseRow v u = .error x) : x = .indexError := by
  unfold parseRow at h
  split at h
  · cases h
  · exact (Except.error.inj h).symm

theorem parseRows_mapE : ∀ ks : List MuonRec, parseRows (ks.map (·.vals)) (ks.map (·.uncs)) = mapE (fun k : MuonRec => parseRow k.vals k.uncs) ks
  | [] => rfl
  | k :: ks => by
    simp only [List.map_cons, parseRows, mapE, parseRows_mapE ks, bind, Except.bind]
    cases parseRow k.vals k.uncs with
    | error e => rfl
    | ok r => cases mapE (fun k : MuonRec => parseRow k.vals k.uncs) ks <;> rfl

theorem muonProbs_error (cdf size edges shp r x) (h : muonProbs cdf size edges shp r = .error x) : x = .runtimeError := by
  unfold muonProbs reshape3 at h
  split at h
  · cases h
  · exact (Except.error.inj h).symm

instance : Inhabited MuRow := ⟨⟨(0, 0, 0), (0, 0, 0), 0, 0, 0, 0, 0, 0, 0, 0⟩⟩

/-- the voxels from the muons -/
theorem voxel_perm (big size : ℝ) (shp : Nat × Nat × Nat) (row : MuonRec → MuRow) (prob : MuonRec → List (List (List ℝ))) {ks ks' : List MuonRec} (h : ks.Perm ks') :
    voxelPreds big size shp (ks.map row) (ks.map (·.eff)) (ks.map prob) = voxelPreds big size shp (ks'.map row) (ks'.map (·.eff)) (ks'.map prob) := by
  have : ∀ k i j, voxelX0 big size (ks.map row) (ks.map (·.eff)) ((ks.map prob).map fun t => at3 t k i j) =
      voxelX0 big size (ks'.map row) (ks'.map (·.eff)) ((ks'.map prob).map fun t => at3 t k i j) := by
    intro k i j
    have := C98.order big size _ _ (h.map fun m => (⟨row m, m.eff, at3 (prob m) k i j⟩ : C98.Seen))
    simpa only [C98.predicted, List.map_map, Function.comp_def] using this
  unfold voxelPreds
  simp only [this]

/-- the prediction from the usable muons -/
def fromMuons (c : Conf) (ks : List MuonRec) : Except Err (List (List (List XF))) :=
  match mapE (fun k : MuonRec => parseRow k.vals k.uncs) ks with
  | .error e => .error e
  | .ok rows =>
    match mapE (muonProbs c.cdf c.size c.edges c.shp) rows with
    | .error e => .error e
    | .ok probs => voxelPreds c.big c.size c.shp rows (ks.map (·.eff)) probs

theorem want_from (c : Conf) (l : List (ScVars × Nat × List ℝ)) (hl : C36.Good c.eff l) (hne : l ≠ []) :
    C35.wantPreds c (l.map (·.1)) = fromMuons c (usable l) := by
  obtain ⟨h1, h2⟩ := C36.kept_muons c.eff l hl
  have e : (l.map (·.1)).length ≠ 0 := by simpa using hne
  unfold C35.wantPreds C35.wantProbs fromMuons usable
  simp only [if_neg e, h1, h2, parseRows_mapE, bind, Except.bind]
  cases mapE (fun k : MuonRec => parseRow k.vals k.uncs) ((allMuons l).filter MuonRec.finite) with
  | error e => rfl
  | ok rows =>
    simp only
    cases mapE (muonProbs c.cdf c.size c.edges c.shp) rows <;> rfl

theorem from_perm (c : Conf) {ks ks' : List MuonRec} (h : ks.Perm ks') : fromMuons c ks = fromMuons c ks' := by
  unfold fromMuons
  rcases mapE_perm (fun k : MuonRec => parseRow k.vals k.uncs) _ (fun k => parseRow_error k.vals k.uncs) h with ⟨e1, e2⟩ | ⟨e1, e2⟩
  · rw [e1, e2]
  · rw [e1, e2]
    simp only
    rcases mapE_perm (muonProbs c.cdf c.size c.edges c.shp) _ (muonProbs_error _ _ _ _) (h.map fun k : MuonRec => got (parseRow k.vals k.uncs)) with ⟨f1, f2⟩ | ⟨f1, f2⟩
    · rw [f1, f2]
    · rw [f1, f2]
      simp only [List.map_map]
      exact voxel_perm c.big c.size c.shp _ _ h

theorem last_want (c : Conf) (o : Op) : ∀ (ops : List Op) (bs : List ScVars), (C35.wantRun c bs (ops ++ [o])).getLast? = some (C35.want c (bs ++ added ops) o)
  | [], bs => by simp [C35.wantRun, added]
  | p :: ops, bs => by
    have := last_want c o ops
    cases p <;> simp [C35.wantRun, List.getLast?_cons, this, added]

theorem answer_want (c : Conf) (ops : List Op) (o : Op) (ho : ∀ b, o ≠ .add b) (l : List (ScVars × Nat × List ℝ)) (hl : C36.Good c.eff l) (ha : added ops = l.map (·.1)) :
    answer c ops o = some (C35.want c (l.map (·.1)) o) := by
  have hm : ∀ (ops : List Op) b, Op.add b ∈ ops → b ∈ added ops := by
    intro ops
    induction ops with
    | nil => simp
    | cons p ops ih =>
      intro b hb
      rcases List.mem_cons.mp hb with rfl | hb
      · simp [added]
      · have := ih b hb
        cases p <;> simp [added, this]
  unfold answer
  rw [C35.history c _ ?_, last_want, List.nil_append, ha]
  intro b hb
  rcases List.mem_append.mp hb with hb | hb
  · have := hm ops b hb
    rw [ha] at this
    obtain ⟨x, hx, rfl⟩ := List.mem_map.mp this
    exact ⟨_, (hl x hx).2.1⟩
  · exact absurd (List.mem_singleton.mp hb).symm (ho b)

/-- **C107.** Whatever is asked in between, and however the same muons are split into batches and ordered, the prediction at the end is the same; muons with a value or an
uncertainty that is not finite make no difference. -/
theorem batching (c : Conf) (ops ops' : List Op) (l l' : List (ScVars × Nat × List ℝ)) (hl : C36.Good c.eff l) (hl' : C36.Good c.eff l') (ha : added ops = l.map (·.1))
    (ha' : added ops' = l'.map (·.1)) (hne : l ≠ []) (hne' : l' ≠ []) (h : (usable l).Perm (usable l')) :
    answer c ops .prediction = answer c ops' .prediction ∧ answer c ops .nMuons = answer c ops' .nMuons := by
  rw [answer_want c ops _ (by simp) l hl ha, answer_want c ops' _ (by simp) l' hl' ha', answer_want c ops _ (by simp) l hl ha, answer_want c ops' _ (by simp) l' hl' ha']
  have e : (l.map (·.1)).length ≠ 0 := by simpa using hne
  have e' : (l'.map (·.1)).length ≠ 0 := by simpa using hne'
  constructor
  · simp only [C35.want, C35.wantPrediction, if_neg e, if_neg e', want_from c l hl hne, want_from c l' hl' hne', from_perm c h]
  · simp only [C35.want, C35.wantN, if_neg e, if_neg e']
    simp only [(C36.kept_muons c.eff l hl).1, (C36.kept_muons c.eff l' hl').1, List.length_map]
    rw [show ((allMuons l).filter MuonRec.finite).length = ((allMuons l').filter MuonRec.finite).length from h.length_eq]

/-! ### The panel inferrer -/

/-- one muon of a scatter batch: its variables, their uncertainties, and the efficiencies of its hits above and below -/
structure Mu where
  vals : Var → List XF
  uncs : Var → List XF
  above : List ℝ
  below : List ℝ

/-- the scatter batch of these muons -/
def batchOf (ms : List Mu) : ScVars := ⟨fun v => ms.map (·.vals v), fun v => ms.map (·.uncs v), ms.map (·.above), ms.map (·.below)⟩

/-- a muon none of whose variables and uncertainties is NaN or infinite; the momentum is taken to be exact -/
def Mu.Usable (m : Mu) : Prop := (∀ v, ∀ x ∈ m.vals v, x.isFinite = true) ∧ ∀ v, v ≠ .mom → ∀ x ∈ m.uncs v, x.isFinite = true

def Mu.eff (m : Mu) : ℝ := probTwoOrMore m.above * probTwoOrMore m.below

def Mu.rec' (m : Mu) : MuonRec :=
  ⟨m.vals .poca ++ m.vals .totScatter ++ m.vals .thetaIn ++ m.vals .thetaOut ++ m.vals .mom,
    m.uncs .poca ++ m.uncs .totScatter ++ m.uncs .thetaIn ++ m.uncs .thetaOut ++ (m.vals .mom).map fun _ => .num 0, m.eff⟩

def entry (ms : List Mu) : ScVars × Nat × List ℝ := (batchOf ms, ms.length, ms.map Mu.eff)

theorem rec_range (ms : List Mu) : (List.range ms.length).map (muonRec (batchOf ms) (ms.map Mu.eff)) = ms.map Mu.rec' := by
  refine List.ext_getElem (by simp) fun i h1 h2 => ?_
  simp only [List.length_map, List.length_range] at h1
  simp [muonRec, rowAt, batchOf, Mu.rec', h1]

theorem allMuons_entry : ∀ cs : List (List Mu), allMuons (cs.map entry) = cs.flatten.map Mu.rec'
  | [] => rfl
  | ms :: cs => by
    rw [List.map_cons, entry, allMuons, rec_range, allMuons_entry cs, List.flatten_cons, List.map_append]

theorem finite_iff (m : Mu) : m.rec'.finite = true ↔ m.Usable := by
  simp only [MuonRec.finite, Mu.rec', Bool.and_eq_true, List.all_eq_true, List.mem_append, List.mem_map, Mu.Usable]
  constructor
  · rintro ⟨h1, h2⟩
    refine ⟨fun v x hx => h1 x ?_, fun v hv x hx => h2 x ?_⟩
    · cases v <;> simp [hx]
    · cases v <;> simp [hx] at hv ⊢
  · rintro ⟨h1, h2⟩
    refine ⟨?_, ?_⟩
    · rintro x ((((h | h) | h) | h) | h)
      all_goals exact h1 _ x h
    · rintro x ((((h | h) | h) | h) | ⟨_, _, rfl⟩)
      · exact h2 .poca (by decide) x h
      · exact h2 .totScatter (by decide) x h
      · exact h2 .thetaIn (by decide) x h
      · exact h2 .thetaOut (by decide) x h
      · rfl

theorem good_entry (cs : List (List Mu)) (h : ∀ ms ∈ cs, ∀ m ∈ ms, 2 ≤ m.above.length ∧ 2 ≤ m.below.length) : C36.Good panelEff (cs.map entry) := by
  intro x hx
  obtain ⟨ms, hms, rfl⟩ := List.mem_map.mp hx
  refine ⟨⟨fun v => by simp [entry, batchOf], fun v => by simp [entry, batchOf]⟩, ?_, by simp [entry]⟩
  have e : ∀ f : Mu → List ℝ, (∀ m ∈ ms, 2 ≤ (f m).length) → mapE groupEff (ms.map f) = .ok (ms.map fun m => probTwoOrMore (f m)) := by
    intro f hf
    rw [C34.mapE_ok groupEff probTwoOrMore, List.map_map]
    · rfl
    · intro r hr
      obtain ⟨m, hm, rfl⟩ := List.mem_map.mp hr
      exact C34.group _ (hf m hm)
  simp only [entry, panelEff, batchOf, e _ fun m hm => (h ms hms m hm).1, e _ fun m hm => (h ms hms m hm).2, bind, Except.bind]
  rw [C98.zip_map _ _ Mu.eff _ ms fun _ _ => rfl]

open Classical in
/-- **C107 for the panel inferrer.** Take any two histories of additions and questions. If the usable muons among the ones added are the same up to their order - in whatever batches
they came -, the predictions and the numbers of muons at the end are the same. Muons have at least two panels on each side, which scatter batches need anyway (C26). -/
theorem panel_batching (c : Conf) (hc : c.eff = panelEff) (ops ops' : List Op) (cs cs' : List (List Mu)) (ha : added ops = cs.map batchOf) (ha' : added ops' = cs'.map batchOf)
    (hne : cs ≠ []) (hne' : cs' ≠ []) (h2 : ∀ ms ∈ cs ++ cs', ∀ m ∈ ms, 2 ≤ m.above.length ∧ 2 ≤ m.below.length)
    (h : (cs.flatten.filter fun m => decide m.Usable).Perm (cs'.flatten.filter fun m => decide m.Usable)) :
    answer c ops .prediction = answer c ops' .prediction ∧ answer c ops .nMuons = answer c ops' .nMuons := by
  have hu : ∀ cs : List (List Mu), usable (cs.map entry) = (cs.flatten.filter fun m => decide m.Usable).map Mu.rec' := by
    intro cs
    rw [usable, allMuons_entry, List.filter_map]
    congr 2
    funext m
    rw [Bool.eq_iff_iff, Function.comp, finite_iff, decide_eq_true_iff]
  refine batching c ops ops' (cs.map entry) (cs'.map entry) ?_ ?_ ?_ ?_ (by simpa using hne) (by simpa using hne') ?_
  · rw [hc]; exact good_entry cs fun ms hms => h2 ms (by simp [hms])
  · rw [hc]; exact good_entry cs' fun ms hms => h2 ms (by simp [hms])
  · rw [ha, List.map_map]; rfl
  · rw [ha', List.map_map]; rfl
  · rw [hu, hu]; exact h.map _

/-! ### Non-vacuity: three muons in two batches with a question in between, and the same ones in one batch in another order, with a fourth that is NaN -/

def mu (x : ℝ) : Mu := ⟨fun v => if v = .poca then [.num x, .num x, .num x] else [.num 1], fun v => if v = .poca then [.num 1, .num 1, .num 1] else [.num 1], [1, 1], [1, 1]⟩

def nanMu : Mu := { mu 0 with vals := fun v => if v = .poca then [.nan, .nan, .nan] else [.num 1] }

theorem mu_usable (x : ℝ) : (mu x).Usable := by
  refine ⟨fun v y hy => ?_, fun v _ y hy => ?_⟩ <;> cases v <;> simp [mu] at hy <;> subst hy <;> rfl

theorem nan_not : ¬ nanMu.Usable := fun h => by simpa [XF.isFinite] using h.1 .poca .nan (by simp [nanMu])

example (c : Conf) (hc : c.eff = panelEff) : answer c [.add (batchOf [mu 1, mu 2]), .prediction, .add (batchOf [mu 3])] .prediction =
    answer c [.nMuons, .add (batchOf [mu 3, nanMu, mu 1, mu 2])] .prediction := by
  refine (panel_batching c hc _ _ [[mu 1, mu 2], [mu 3]] [[mu 3, nanMu, mu 1, mu 2]] rfl rfl (by simp) (by simp) ?_ ?_).1
  · intro ms hms m hm
    simp at hms
    rcases hms with rfl | rfl | rfl <;> simp at hm
    · rcases hm with rfl | rfl <;> simp [mu]
    · subst hm; simp [mu]
    · rcases hm with rfl | rfl | rfl | rfl <;> simp [mu, nanMu]
  · simp only [List.flatten_cons, List.flatten_nil, List.append_nil, List.cons_append, List.nil_append, List.filter_cons, mu_usable, nan_not, decide_true, decide_false, if_true,
      List.filter_nil, Bool.false_eq_true, if_false]
    exact ((List.Perm.swap (mu 3) (mu 2) []).cons (mu 1)).trans (List.Perm.swap (mu 3) (mu 1) [mu 2])

end C107
end
end Tomopt
