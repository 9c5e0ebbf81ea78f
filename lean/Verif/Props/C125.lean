import Verif.Lemmas.Access

/- C125: reading, assigning and changing the attributes of a batch of muons. -/
namespace Tomopt

noncomputable section
open Batch

variable {α : Type}

namespace C125

/-- **C125: assignment.** Assigning to a position, a direction or a momentum raises and changes nothing. -/
theorem assigned (s : Tensors) (o : Owner α) (f : Field) (v : List (List ℝ)) :
    ∃ e, o.exec s (.assign f v) = (s, o, some e) ∧ (e = .notImplemented ↔ f = .mom ∨ f = .recoMom) ∧ (e = .attributeError ↔ ¬(f = .mom ∨ f = .recoMom)) := by
  refine ⟨f.setter, rfl, ?_, ?_⟩ <;> cases f <;> simp [Field.setter]

/-- **C125: projected angles.** Adding to a projected angle raises and changes nothing. -/
theorem projected (s : Tensors) (o : Owner α) (f : Field) (hf : f = .thetaX ∨ f = .thetaY ∨ f = .thetaXY) (v : List (List ℝ)) :
    o.exec s (.augment f v) = (s, o, some .attributeError) := by
  rcases hf with rfl | rfl | rfl <;> rfl

theorem read_row (g : ℝ → ℝ → ℝ) (f : Field) (cs : List Cell) (hc : f.cells = some cs) (m : RawMuon) (v : List ℝ) (hv : v.length = cs.length) :
    cs.map (changeRow g cs m v).get = List.zipWith (fun a w => a.map fun b => g b w) (cs.map m.get) v := by
  cases f <;> simp only [Field.cells, Option.some.injEq, reduceCtorEq] at hc <;> subst hc
  all_goals
    first
    | (obtain ⟨a, rfl⟩ := List.length_eq_one_iff.mp hv
       simp [changeRow, RawMuon.change, RawMuon.get])
    | (obtain ⟨a, b, rfl⟩ := List.length_eq_two.mp hv
       simp [changeRow, RawMuon.change, RawMuon.get])
    | (obtain ⟨a, b, c, rfl⟩ := List.length_eq_three.mp hv
       simp [changeRow, RawMuon.change, RawMuon.get])

theorem read_rows (g : ℝ → ℝ → ℝ) (f : Field) (cs : List Cell) (hc : f.cells = some cs) : ∀ (rows : List RawMuon) (v : List (List ℝ)), (∀ r ∈ v, r.length = cs.length) →
    (rows.zipWith (changeRow g cs) v).map (fun m => cs.map m.get) = List.zipWith (List.zipWith fun a w => a.map fun b => g b w) (rows.map fun m => cs.map m.get) v
  | [], _, _ => by simp
  | _ :: _, [], _ => by simp
  | m :: rows, w :: v, h => by
    simp only [List.zipWith_cons_cons, List.map_cons]
    rw [read_row g f cs hc m w (h w (by simp)), read_rows g f cs hc rows v fun r hr => h r (by simp [hr])]

/-- The columns an attribute is stored in. -/
def Apart (f f' : Field) : Prop := ∀ cs cs', f.cells = some cs → f'.cells = some cs' → ∀ c ∈ cs, c ∉ cs'

theorem change_other (m : RawMuon) (g : ℝ → ℝ) (c c' : Cell) (h : c ≠ c') : (m.change g c).get c' = m.get c' := by
  cases c <;> cases c' <;> first | rfl | exact absurd rfl h

theorem changeRow_other (g : ℝ → ℝ → ℝ) (cs : List Cell) (m : RawMuon) (v : List ℝ) (c' : Cell) (h : c' ∉ cs) : (changeRow g cs m v).get c' = m.get c' := by
  unfold changeRow
  have : ∀ cv ∈ cs.zip v, cv.1 ≠ c' := fun cv hcv e => h (e ▸ (List.of_mem_zip hcv).1)
  revert this
  generalize cs.zip v = l
  intro hl
  induction l generalizing m with
  | nil => rfl
  | cons cv l ih =>
    simp only [List.foldl_cons]
    rw [ih _ fun x hx => hl x (by simp [hx]), change_other _ _ _ _ (hl cv (by simp))]

/-- What an attribute is for a muon. -/
def meant (m : Muon) : Field → List (Option ℝ)
  | .x => [some m.x]
  | .y => [some m.y]
  | .z => [some m.z]
  | .xy => [some m.x, some m.y]
  | .xyz => [some m.x, some m.y, some m.z]
  | .mom => [some m.p]
  | .recoMom => [some m.p]
  | .theta => [some m.th]
  | .phi => [some m.ph]
  | .thetaX => [thetaXFromThetaPhi m.th m.ph]
  | .thetaY => [thetaYFromThetaPhi m.th m.ph]
  | .thetaXY => [thetaXFromThetaPhi m.th m.ph, thetaYFromThetaPhi m.th m.ph]

/-- **C125: what attributes show.** Every attribute shows what it is called, for the muons of the batch in their order. -/
theorem values (s : Tensors) (o : Owner α) (h : Owned s o) (f : Field) : shown s o f = (o.batch s).muons.map fun m => meant m f := by
  have e := numbers_back _ h.numbers
  cases f <;> simp only [shown, Owner.get, Field.cells, Ref.read] <;> first
    | rfl
    | (conv_lhs => rw [← e]
       rw [List.map_map]; rfl)

/-- **C125: augmented assignment.** Adding to a stored attribute (`batch.x += v`) raises, but the muons have been changed by then: the attribute has the old values plus `v`, and
attributes stored in other columns are as they were. -/
theorem augmented (s : Tensors) (o : Owner α) (h : Owned s o) (f : Field) (hf : ¬(f = .thetaX ∨ f = .thetaY ∨ f = .thetaXY)) (v : List (List ℝ))
    (hv : v.length = count s o) (hw : ∀ r ∈ v, ∀ t ∈ shown s o f, r.length = t.length) :
    ∃ s' e, o.exec s (.augment f v) = (s', o, some e) ∧ shown s' o f = plus (shown s o f) v ∧
      ∀ f', f'.cells ≠ none → Apart f f' → shown s' o f' = shown s o f' := by
  obtain ⟨cs, hc⟩ : ∃ cs, f.cells = some cs := by
    cases f <;> first | exact ⟨_, rfl⟩ | simp at hf
  have hl : (s.getD o.addr []).length = count s o := (numbers_len _ h.numbers).symm
  have hsh : ∀ (t : Tensors) (f' : Field) cs', f'.cells = some cs' → shown t o f' = (t.getD o.addr []).map fun m => cs'.map m.get := by
    intro t f' cs' hc'
    unfold shown Owner.get
    rw [hc']
    rfl
  have hr : ∀ r ∈ v, r.length = cs.length := by
    intro r hr
    have hne : s.getD o.addr [] ≠ [] := by
      intro e
      rw [e, List.length_nil, ← hv] at hl
      rw [List.length_eq_zero_iff.mp hl.symm] at hr
      simp at hr
    obtain ⟨m, rest, hm⟩ := List.exists_cons_of_ne_nil hne
    have := hw r hr (cs.map m.get) (by rw [hsh s f cs hc, hm]; simp)
    simpa using this
  have hfit : fitting (s.getD o.addr []).length cs v = true := by
    unfold fitting
    simp only [Bool.and_eq_true, beq_iff_eq, List.all_eq_true]
    exact ⟨hv.trans hl.symm, hr⟩
  refine ⟨s.set o.addr ((s.getD o.addr []).zipWith (changeRow (· + ·) cs) v), f.setter, ?_, ?_, ?_⟩
  · simp only [Owner.exec, hc]
    rw [if_pos hfit]
  · rw [hsh _ f cs hc, hsh _ f cs hc, getD_set_eq s h.there, read_rows _ f cs hc _ v hr]
    rfl
  · intro f' hn hap
    obtain ⟨cs', hc'⟩ := Option.ne_none_iff_exists'.mp hn
    rw [hsh _ f' cs' hc', hsh _ f' cs' hc', getD_set_eq s h.there]
    have : ∀ (rows : List RawMuon) (v : List (List ℝ)), v.length = rows.length →
        (rows.zipWith (changeRow (· + ·) cs) v).map (fun m => cs'.map m.get) = rows.map fun m => cs'.map m.get := by
      intro rows
      induction rows with
      | nil => intro v _; simp
      | cons m rows ih =>
        intro v hv
        rcases v with _ | ⟨w, v⟩
        · simp at hv
        · simp only [List.zipWith_cons_cons, List.map_cons]
          rw [ih v (by simpa using hv)]
          congr 1
          refine List.map_congr_left fun c hc1 => changeRow_other _ cs m w c fun hcs => ?_
          exact hap cs cs' hc hc' c hcs hc1
    exact this _ v (hv.trans hl.symm)

theorem run_owned (s : Tensors) (o : Owner α) (h : Owned s o) (sts : List (Stmt α)) :
    Owned (o.run s sts).1 (o.run s sts).2 ∧ count (o.run s sts).1 (o.run s sts).2 ≤ count s o ∧ s.length ≤ (o.run s sts).1.length ∧
    ((o.run s sts).2.addr = o.addr ∧ count (o.run s sts).1 (o.run s sts).2 = count s o ∨ s.length ≤ (o.run s sts).2.addr ∧ count (o.run s sts).1 (o.run s sts).2 < count s o) ∧
    o.hist <+: (o.run s sts).2.hist := by
  induction sts generalizing s o with
  | nil => exact ⟨h, le_refl _, le_refl _, .inl ⟨rfl, rfl⟩, List.prefix_refl _⟩
  | cons st sts ih =>
    obtain ⟨h1, h2, h3, h4, h5⟩ := exec_addr s o h st
    obtain ⟨i1, i2, i3, i4, i5⟩ := ih _ _ h1
    have hle : count (o.exec s st).1 (o.exec s st).2.1 ≤ count s o := by
      rcases h3 with ⟨-, e⟩ | ⟨-, e⟩
      · exact e.le
      · exact e.le
    refine ⟨i1, i2.trans hle, h2.trans i3, ?_, h5.trans i5⟩
    rcases i4 with ⟨e1, e2⟩ | ⟨e1, e2⟩
    · rcases h3 with ⟨e3, e4⟩ | ⟨e3, e4⟩
      · exact .inl ⟨e1.trans e3, e2.trans e4⟩
      · exact .inr ⟨(e1.trans e3).ge, e2.trans_lt e4⟩
    · exact .inr ⟨h2.trans e1, e2.trans_le hle⟩

theorem run_frozen (s : Tensors) (o : Owner α) (h : Owned s o) (sts : List (Stmt α)) (a : Nat) (ha : a ≠ o.addr) (hl : a < s.length) :
    (o.run s sts).1.getD a [] = s.getD a [] := by
  induction sts generalizing s o with
  | nil => rfl
  | cons st sts ih =>
    obtain ⟨h1, h2, h3, h4, -⟩ := exec_addr s o h st
    refine (ih _ _ h1 ?_ (hl.trans_le h2)).trans (h4 a ha hl)
    rcases h3 with ⟨e, -⟩ | ⟨e, -⟩
    · rw [e]; exact ha
    · rw [e]; exact hl.ne

theorem run_append (s : Tensors) (o : Owner α) (l1 l2 : List (Stmt α)) : o.run s (l1 ++ l2) = (o.run s l1).2.run (o.run s l1).1 l2 := by
  induction l1 generalizing s o with
  | nil => rfl
  | cons st l1 ih => exact ih _ _

/-- **C125: what was read.** A position, momentum or direction that was read from a batch follows the batch through whatever is done with it, as long as no muon is removed. From
the moment a muon is removed it never changes again. Projected angles that were read never change. -/
theorem follows (s : Tensors) (o : Owner α) (h : Owned s o) (f : Field) (sts : List (Stmt α)) :
    (¬(f = .thetaX ∨ f = .thetaY ∨ f = .thetaXY) → count (o.run s sts).1 (o.run s sts).2 = count s o →
      (o.get s f).read (o.run s sts).1 = shown (o.run s sts).1 (o.run s sts).2 f) ∧
    (count (o.run s sts).1 (o.run s sts).2 < count s o → ∀ more, (o.get s f).read (o.run s (sts ++ more)).1 = (o.get s f).read (o.run s sts).1) ∧
    ((f = .thetaX ∨ f = .thetaY ∨ f = .thetaXY) → (o.get s f).read (o.run s sts).1 = shown s o f) := by
  obtain ⟨h1, h2, h3, h4, -⟩ := run_owned s o h sts
  refine ⟨fun hf hc => ?_, fun hc more => ?_, fun hf => ?_⟩
  · have ea : (o.run s sts).2.addr = o.addr := by
      rcases h4 with ⟨e, -⟩ | ⟨-, e⟩
      · exact e
      · exact absurd hc e.ne
    unfold shown Owner.get
    cases hcs : f.cells with
    | none => cases f <;> simp [Field.cells] at hcs hf
    | some cs => simp only [Ref.read, ea]
  · unfold Owner.get
    cases hcs : f.cells with
    | none => rfl
    | some cs =>
      simp only [Ref.read]
      rw [run_append, run_frozen _ _ h1 more o.addr ?_ (h.there.trans_le h3)]
      rcases h4 with ⟨-, e⟩ | ⟨e, -⟩
      · exact absurd hc e.symm.not_gt
      · exact (h.there.trans_le e).ne
  · rcases hf with rfl | rfl | rfl <;> rfl

/-- **C125: snapshots.** What was stored by `snapshot_xyz` stays as it was. -/
theorem snapshots (s : Tensors) (o : Owner α) (h : Owned s o) (sts : List (Stmt α)) : o.hist <+: (o.run s sts).2.hist := (run_owned s o h sts).2.2.2.2

/-! ### Witnesses -/

/-- One muon at the origin, going straight down, one metre above the ground. -/
def one : Tensors := [[⟨0, 0, 0, 1, 5, some 0, some 0⟩]]

def holder : Owner α := ⟨0, [], [], []⟩

theorem one_owned : Owned one (holder : Owner α) := ⟨by simp [one, holder], fun r hr => by simp [one, holder] at hr; subst hr; exact ⟨_, rfl⟩⟩

/-- **C125 is violated: rejected changes.** `batch.x += 1` raises, but the muons have moved. -/
theorem rejected_violated : ∃ s s' : Tensors, ∃ o : Owner α, ∃ v, Owned s o ∧ o.exec s (.augment .x v) = (s', o, some .attributeError) ∧ shown s o .x = [[some 0]] ∧ shown s' o .x = [[some 1]] := by
  refine ⟨one, _, holder, [[1]], one_owned, rfl, rfl, ?_⟩
  show [[some ((0 : ℝ) + 1)]] = [[some 1]]
  norm_num

/-- **C125 is violated: upwards muons.** Writing into what `theta` returned is accepted, and leaves a muon that goes up in the batch. -/
theorem into_violated : ∃ s s' : Tensors, ∃ o : Owner α, ∃ v, Owned s o ∧ (∀ m ∈ (o.batch s).muons, m.th < Real.pi / 2) ∧ o.exec s (.into .theta v) = (s', o, none) ∧
    (o.batch s').muons.map (·.th) = [Real.pi] := by
  refine ⟨one, _, holder, [[Real.pi]], one_owned, ?_, rfl, rfl⟩
  intro m hm
  have : (holder : Owner α).batch one = ⟨[⟨0, 0, 0, 1, 5, 0, 0⟩], [], [], []⟩ := rfl
  rw [this] at hm
  simp at hm
  subst hm
  show (0 : ℝ) < _
  have := Real.pi_pos
  positivity

/-- **C125 is violated: reading before and after.** A height read before the muons are moved down by a metre is the same as the one read afterwards: the difference of the two is
zero. -/
theorem before_violated : ∃ s s' : Tensors, ∃ o : Owner α, Owned s o ∧ o.exec s (.call (.propDz (.scalar 1) none)) = (s', o, none) ∧ shown s o .z = [[some 1]] ∧
    (o.get s .z).read s' = [[some 0]] ∧ shown s' o .z = [[some 0]] := by
  have e : (holder : Owner α).exec one (.call (.propDz (.scalar 1) none)) = ([[(propDzRow ⟨0, 0, 0, 1, 5, 0, 0⟩ 1).toRaw]], holder, none) := rfl
  refine ⟨one, _, holder, one_owned, e, rfl, ?_, ?_⟩
  · show [[some ((1 : ℝ) - 1)]] = [[some 0]]
    norm_num
  · show [[some ((1 : ℝ) - 1)]] = [[some 0]]
    norm_num

/-- **C125 is violated: angles read together.** `theta` and `theta_x` read at the same time do not belong together any more after the muon has been turned. -/
theorem together_violated : ∃ s s' : Tensors, ∃ o : Owner α, Owned s o ∧ o.exec s (.call (.dthetaDphi (some (.scalar (Real.pi / 4))) none none)) = (s', o, none) ∧
    (o.get s .theta).read s' = [[some (Real.pi / 4)]] ∧ shown s' o .phi = [[some 0]] ∧ (o.get s .thetaX).read s' = [[some 0]] ∧ shown s' o .thetaX = [[some (Real.pi / 4)]] := by
  have hp := Real.pi_pos
  have hm : pmod (0 + Real.pi / 4) (2 * Real.pi) = Real.pi / 4 := by
    have : ⌊(0 + Real.pi / 4) / (2 * Real.pi)⌋ = 0 := by
      rw [Int.floor_eq_zero_iff]
      exact ⟨by positivity, by rw [div_lt_one (by positivity)]; linarith⟩
    rw [pmod, this]; ring_nf
  have ha : addTheta (⟨0, 0, 0, 1, 5, 0, 0⟩ : Muon) (Real.pi / 4) = ⟨0, 0, 0, 1, 5, Real.pi / 4, 0⟩ := by
    unfold addTheta
    simp only [hm]
    rw [if_neg (by linarith)]
  have hb : (holder : Owner α).batch one = ⟨[⟨0, 0, 0, 1, 5, 0, 0⟩], [], [], []⟩ := rfl
  have hx : (⟨[⟨0, 0, 0, 1, 5, 0, 0⟩], [], [], []⟩ : Batch α).exec (.dthetaDphi (some (.scalar (Real.pi / 4))) none none) = (⟨[⟨0, 0, 0, 1, 5, Real.pi / 4, 0⟩], [], [], []⟩, none) := by
    have h1 : (⟨[⟨0, 0, 0, 1, 5, 0, 0⟩], [], [], []⟩ : Batch α).exec (.dthetaDphi (some (.scalar (Real.pi / 4))) none none) =
        (⟨[⟨0, 0, 0, 1, 5, 0, 0⟩], [], [], []⟩ : Batch α).filterExec ([addTheta (⟨0, 0, 0, 1, 5, 0, 0⟩ : Muon) (Real.pi / 4)].map MuonOf.toRaw)
          (([addTheta (⟨0, 0, 0, 1, 5, 0, 0⟩ : Muon) (Real.pi / 4)].map MuonOf.toRaw).map keepRow) := rfl
    rw [h1, ha]
    have hk : keepRow (MuonOf.toRaw ⟨0, 0, 0, 1, 5, Real.pi / 4, 0⟩) = true := by
      simp only [keepRow, MuonOf.toRaw, decide_eq_true_eq]; linarith
    simp only [List.map_cons, List.map_nil, hk]
    rfl
  have hwr : (⟨[⟨0, 0, 0, 1, 5, 0, 0⟩], [], [], []⟩ : Batch α).written (.dthetaDphi (some (.scalar (Real.pi / 4))) none none) = [(⟨0, 0, 0, 1, 5, some (Real.pi / 4), some 0⟩ : RawMuon)] := by
    rw [written_eq _ _ (by rw [hx]; simp), hx]
    rfl
  have he : (holder : Owner α).exec one (.call (.dthetaDphi (some (.scalar (Real.pi / 4))) none none)) = ([[⟨0, 0, 0, 1, 5, some (Real.pi / 4), some 0⟩]], holder, none) := by
    simp only [Owner.exec, hb, hx, hwr]
    rfl
  have t0 : thetaXFromThetaPhi 0 0 = some 0 := by
    unfold thetaXFromThetaPhi
    rw [if_neg (by linarith)]
    simp
  have t1 : thetaXFromThetaPhi (Real.pi / 4) 0 = some (Real.pi / 4) := by
    unfold thetaXFromThetaPhi
    rw [if_neg (by linarith)]
    simp only [Real.cos_zero, mul_one]
    rw [Real.arctan_tan (by linarith) (by linarith)]
  refine ⟨one, _, holder, one_owned, he, rfl, rfl, ?_, ?_⟩
  · show [[thetaXFromThetaPhi 0 0]] = _
    rw [t0]
  · show [[thetaXFromThetaPhi (Real.pi / 4) 0]] = _
    rw [t1]

/-- Non-vacuity of `follows`: removing a muon freezes what was read. -/
example : ∃ s : Tensors, ∃ o : Owner ℕ, Owned s o ∧ count s o = 2 ∧ count (o.run s [.call (.filter [false, true])]).1 (o.run s [.call (.filter [false, true])]).2 = 1 ∧
    (o.get s .y).read (o.run s [.call (.filter [false, true])]).1 = [[some 3], [some 4]] := by
  refine ⟨[[⟨0, 0, 3, 1, 5, some 0, some 0⟩, ⟨1, 0, 4, 1, 5, some 0, some 0⟩]], ⟨0, [], [], []⟩, ⟨by simp, ?_⟩, rfl, rfl, rfl⟩
  intro r hr
  simp at hr
  rcases hr with rfl | rfl <;> exact ⟨_, rfl⟩

end C125

end

end Tomopt
