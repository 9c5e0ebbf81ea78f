import Verif.Spec.Subbatch
import Verif.Lemmas.TrueTracks

/- Helper lemmas: batches that hold some of the muons of another batch go the same way. -/
namespace Tomopt

noncomputable section
open Real

variable {α : Type} {q : Nat → Bool}

theorem Sub.of_maps {b c : Batch α} (h : Sub q b c) (f : Muon → Muon) (hf : ∀ m, (f m).id = m.id) :
    Sub q { b with muons := b.muons.map f } { c with muons := c.muons.map f } := by
  refine ⟨?_, h.removed⟩
  simp only
  rw [h.muons, List.filter_map]
  congr 1
  apply List.filter_congr
  intro m _
  simp [hf]

theorem filter_toMuon (raws : List RawMuon) :
    (raws.filterMap RawMuon.toMuon?).filter (fun m => q m.id) = (raws.filter fun r => q r.id).filterMap RawMuon.toMuon? := by
  induction raws with
  | nil => rfl
  | cons r raws ih =>
    cases hm : RawMuon.toMuon? r with
    | none =>
      rw [List.filterMap_cons_none hm, ih, List.filter_cons]
      split
      · rw [List.filterMap_cons_none hm]
      · rfl
    | some m =>
      have hid := (toMuon?_id hm).1
      rw [List.filterMap_cons_some hm, List.filter_cons, List.filter_cons, hid]
      split
      · rw [List.filterMap_cons_some hm, ih]
      · exact ih

theorem Sub.removeUpwards {b c : Batch α} (h : Sub q b c) (raws : List RawMuon) :
    Sub q (b.removeUpwards raws) (c.removeUpwards (raws.filter fun r => q r.id)) := by
  obtain ⟨b1, b2⟩ := removeUpwards_spec b raws
  obtain ⟨c1, c2⟩ := removeUpwards_spec c (raws.filter fun r => q r.id)
  refine ⟨?_, ?_⟩
  · rw [b1, c1, filter_toMuon, List.filter_filter, List.filter_filter]
    congr 1
    exact List.filter_congr fun r _ => Bool.and_comm _ _
  · rw [b2, c2, List.filter_append, h.removed, List.filter_filter, List.filter_filter]
    congr 1
    exact List.filter_congr fun r _ => Bool.and_comm _ _

namespace PassiveLayer

theorem sub_pass (L : PassiveLayer) (draw : Nat → Draw) (b b' c : Batch α) (p : Muon → Bool) (hs : Sub q b c)
    (h : L.pass draw b (b.muons.map p) = .ok b') : ∃ c', L.pass draw c (c.muons.map p) = .ok c' ∧ Sub q b' c' := by
  cases hc : L.radLength with
  | none =>
    rw [pass_empty L hc] at h ⊢
    simp at h; subst h
    exact ⟨_, rfl, hs.of_maps _ fun m => by split <;> rfl⟩
  | some cube =>
    obtain ⟨hm, hok⟩ := pass_ok_inv L cube hc draw b b' p h
    have hb := pass_rows L cube hc draw b b' p h
    refine ⟨_, pass_rows_ok L cube hc hm draw c p fun m hmc => hok m ?_, ?_⟩
    · rw [hs.muons] at hmc
      exact (List.mem_filter.mp hmc).1
    · rw [hb]
      have := hs.removeUpwards (b.muons.map fun m => L.rowPass (L.footprint m && p m) (p m) (L.scatVal cube draw m) m)
      rw [List.filter_map] at this
      rw [hs.muons]
      have e : (b.muons.filter fun m => q m.id) =
          b.muons.filter ((fun r : RawMuon => q r.id) ∘ fun m => L.rowPass (L.footprint m && p m) (p m) (L.scatVal cube draw m) m) := by
        apply List.filter_congr
        intro m _
        have := congrArg Prod.fst (rowPass_key L (L.footprint m && p m) (p m) (L.scatVal cube draw m) m)
        simp only [MuonOf.key] at this
        simp [this]
      rw [e]
      exact this

/-- nothing is left to remove after a pass: the layer is empty or all directions point downwards -/
def Settled (L : PassiveLayer) (ms : List Muon) : Prop := L.radLength = none ∨ ∀ m ∈ ms, Batch.keepRow m.toRaw = true

theorem keepRow_toMuon? {r : RawMuon} {m : Muon} (h : RawMuon.toMuon? r = some m) (hk : Batch.keepRow r = true) : Batch.keepRow m.toRaw = true := by
  obtain ⟨-, -, -, -, -, h1, h2⟩ := toMuon?_id h
  unfold Batch.keepRow at hk ⊢
  rw [h1, h2] at hk
  exact hk

theorem settled_pass (L : PassiveLayer) (draw : Nat → Draw) (b b' : Batch α) (p : Muon → Bool)
    (h : L.pass draw b (b.muons.map p) = .ok b') : L.Settled b'.muons := by
  cases hc : L.radLength with
  | none => exact .inl hc
  | some cube =>
    refine .inr fun m hm => ?_
    rw [pass_rows L cube hc draw b b' p h, (removeUpwards_spec b _).1] at hm
    obtain ⟨r, hr, hrm⟩ := List.mem_filterMap.mp hm
    exact keepRow_toMuon? hrm (List.mem_filter.mp hr).2

theorem rowPass_idle (L : PassiveLayer) (v : Scat) (m : Muon) : L.rowPass false false v m = m.toRaw := by
  simp [rowPass, rowPos]

/-- a pass leaves the muons alone that are not inside the layer -/
theorem idle_pass (L : PassiveLayer) (draw : Nat → Draw) (c c' : Batch α) (p : Muon → Bool) (hp : ∀ m ∈ c.muons, p m = false)
    (hs : L.Settled c.muons) (h : L.pass draw c (c.muons.map p) = .ok c') : c'.muons = c.muons ∧ c'.removed = c.removed := by
  cases hc : L.radLength with
  | none =>
    rw [pass_empty L hc] at h
    simp at h; subst h
    refine ⟨?_, rfl⟩
    simp only
    conv_rhs => rw [← List.map_id c.muons]
    apply List.map_congr_left
    intro m hm
    simp [hp m hm]
  | some cube =>
    have hk : ∀ m ∈ c.muons, Batch.keepRow m.toRaw = true := by
      rcases hs with hs | hs
      · rw [hc] at hs; simp at hs
      · exact hs
    have e : (c.muons.map fun m => L.rowPass (L.footprint m && p m) (p m) (L.scatVal cube draw m) m) = c.muons.map MuonOf.toRaw := by
      apply List.map_congr_left
      intro m hm
      rw [hp m hm, Bool.and_false, rowPass_idle]
    rw [pass_rows L cube hc draw c c' p h, e, (removeUpwards_spec c _).1, (removeUpwards_spec c _).2]
    have h1 : (c.muons.map MuonOf.toRaw).filter Batch.keepRow = c.muons.map MuonOf.toRaw := by
      rw [List.filter_eq_self]
      intro r hr
      obtain ⟨m, hm, rfl⟩ := List.mem_map.mp hr
      exact hk m hm
    have h2 : (c.muons.map MuonOf.toRaw).filter (fun r => !Batch.keepRow r) = [] := by
      rw [List.filter_eq_nil_iff]
      intro r hr
      obtain ⟨m, hm, rfl⟩ := List.mem_map.mp hr
      simp [hk m hm]
    refine ⟨?_, by rw [h2, List.append_nil]⟩
    rw [h1, List.filterMap_map]
    rw [show RawMuon.toMuon? ∘ MuonOf.toRaw = some from funext toMuon?_toRaw, List.filterMap_some]

theorem Sub.congr_right {b c c' : Batch α} (h : Sub q b c) (h1 : c'.muons = c.muons) (h2 : c'.removed = c.removed) : Sub q b c' :=
  ⟨h1.trans h.muons, h2.trans h.removed⟩

/-- the further passes of other muons change nothing -/
theorem sub_loop_done (L : PassiveLayer) (rng : Nat → Nat → Draw) : ∀ (fuel k : Nat) (b b' c : Batch α), Sub q b c → (∀ m ∈ c.muons, L.inside m = false) →
    L.Settled c.muons → L.loop rng fuel k b (b.muons.map L.inside) = .ok (some b') → Sub q b' c := by
  intro fuel
  induction fuel with
  | zero =>
    intro k b b' c hs _ _ h
    unfold loop at h
    split at h
    · simp at h
    · simp at h; subst h; exact hs
  | succ fuel ih =>
    intro k b b' c hs hi hset h
    unfold loop at h
    split at h
    · obtain ⟨b1, h1, h2⟩ := bind_ok h
      obtain ⟨c1, e1, s1⟩ := L.sub_pass (rng k) b b1 c L.inside hs h1
      obtain ⟨g1, g2⟩ := L.idle_pass (rng k) c c1 L.inside hi hset e1
      exact ih (k + 1) b1 b' c (Sub.congr_right s1 g1.symm g2.symm) hi hset h2
    · simp at h; subst h; exact hs

theorem sub_loop (L : PassiveLayer) (rng : Nat → Nat → Draw) : ∀ (fuel k : Nat) (b b' c : Batch α), Sub q b c → L.Settled c.muons →
    L.loop rng fuel k b (b.muons.map L.inside) = .ok (some b') → ∃ c', L.loop rng fuel k c (c.muons.map L.inside) = .ok (some c') ∧ Sub q b' c' := by
  intro fuel
  induction fuel with
  | zero =>
    intro k b b' c hs _ h
    unfold loop at h ⊢
    split at h
    · simp at h
    · rename_i hn
      simp at h; subst h
      refine ⟨c, ?_, hs⟩
      rw [if_neg]
      simp only [hasAny_map, not_exists, not_and] at hn ⊢
      intro m hm
      rw [hs.muons] at hm
      exact hn m (List.mem_filter.mp hm).1
  | succ fuel ih =>
    intro k b b' c hs hset h
    by_cases hc : (c.muons.map L.inside).any id = true
    · unfold loop at h
      split at h
      · obtain ⟨b1, h1, h2⟩ := bind_ok h
        obtain ⟨c1, e1, s1⟩ := L.sub_pass (rng k) b b1 c L.inside hs h1
        obtain ⟨c', e2, s2⟩ := ih (k + 1) b1 b' c1 s1 (L.settled_pass (rng k) c c1 L.inside e1) h2
        refine ⟨c', ?_, s2⟩
        rw [loop, if_pos hc]
        simp only [bind, Except.bind, e1]
        exact e2
      · rename_i hn
        exfalso
        rw [hasAny_map] at hc
        obtain ⟨m, hm, hi⟩ := hc
        rw [hs.muons] at hm
        exact hn ((hasAny_map _ _).mpr ⟨m, (List.mem_filter.mp hm).1, hi⟩)
    · refine ⟨c, by rw [loop, if_neg hc], ?_⟩
      refine L.sub_loop_done rng (fuel + 1) k b b' c hs ?_ hset h
      intro m hm
      by_contra hi
      exact hc ((hasAny_map _ _).mpr ⟨m, hm, by simpa using hi⟩)

theorem sub_forward (L : PassiveLayer) (rng : Nat → Nat → Draw) (fuel : Nat) (b b' c : Batch α) (hs : Sub q b c)
    (h : L.forward rng fuel b = .ok (some b')) : ∃ c', L.forward rng fuel c = .ok (some c') ∧ Sub q b' c' := by
  obtain ⟨b2, h1, rfl⟩ := L.forward_inv rng fuel b b' h
  have s0 : Sub q { b with muons := b.muons.map fun m => Batch.propDzRow m (m.z - L.z) }
      { c with muons := c.muons.map fun m => Batch.propDzRow m (m.z - L.z) } := hs.of_maps (fun m => Batch.propDzRow m (m.z - L.z)) fun _ => rfl
  suffices hl : ∃ c2, L.loop rng fuel 0 { c with muons := c.muons.map fun m => Batch.propDzRow m (m.z - L.z) }
      (List.replicate (c.muons.map fun m => Batch.propDzRow m (m.z - L.z)).length true) = .ok (some c2) ∧ Sub q b2 c2 by
    obtain ⟨c2, e2, s2⟩ := hl
    exact ⟨_, L.forward_returns_of rng fuel c e2, s2.of_maps _ fun _ => rfl⟩
  generalize hB : ({ b with muons := b.muons.map fun m => Batch.propDzRow m (m.z - L.z) } : Batch α) = B at *
  generalize hC : ({ c with muons := c.muons.map fun m => Batch.propDzRow m (m.z - L.z) } : Batch α) = C at *
  have lB : List.replicate b.muons.length true = B.muons.map fun _ => true := by rw [← hB]; simp [List.map_const']
  have lC : List.replicate (c.muons.map fun m => Batch.propDzRow m (m.z - L.z)).length true = C.muons.map fun _ => true := by
    rw [← hC]; simp [List.map_const']
  rw [lB] at h1
  rw [lC]
  clear hB hC lB lC
  by_cases hc : C.muons = []
  · -- no muon of the smaller batch is left
    refine ⟨C, ?_, ?_⟩
    · rw [hc]; unfold loop; simp
    · cases fuel with
      | zero =>
        unfold loop at h1
        split at h1
        · simp at h1
        · simp at h1; subst h1; exact s0
      | succ fuel =>
        unfold loop at h1
        split at h1
        · obtain ⟨b1, e1, e2⟩ := bind_ok h1
          obtain ⟨c1, f1, s1⟩ := L.sub_pass (rng 0) B b1 C (fun _ => true) s0 e1
          obtain ⟨g1, g2⟩ := L.idle_pass (rng 0) C c1 (fun _ => true) (by rw [hc]; simp) (.inr (by rw [hc]; simp)) f1
          exact L.sub_loop_done rng fuel 1 b1 b2 C (Sub.congr_right s1 g1.symm g2.symm) (by rw [hc]; simp) (.inr (by rw [hc]; simp)) e2
        · simp at h1; subst h1; exact s0
  · have hany : (C.muons.map fun _ => true).any id = true := by
      obtain ⟨m, ms, e⟩ := List.exists_cons_of_ne_nil hc
      rw [e]; simp
    have hanyB : (B.muons.map fun _ => true).any id = true := by
      rw [hasAny_map] at hany ⊢
      obtain ⟨m, hm, _⟩ := hany
      rw [s0.muons] at hm
      exact ⟨m, (List.mem_filter.mp hm).1, rfl⟩
    unfold loop at h1 ⊢
    rw [if_pos hanyB] at h1
    rw [if_pos hany]
    cases fuel with
    | zero => simp at h1
    | succ fuel =>
      simp only at h1 ⊢
      obtain ⟨b1, e1, e2⟩ := bind_ok h1
      obtain ⟨c1, f1, s1⟩ := L.sub_pass (rng 0) B b1 C (fun _ => true) s0 e1
      obtain ⟨c', f2, s2⟩ := L.sub_loop rng fuel 1 b1 b2 c1 s1 (L.settled_pass (rng 0) C c1 _ f1) e2
      refine ⟨c', ?_, s2⟩
      simp only [bind, Except.bind, f1]
      exact f2

end PassiveLayer

/-- detector layers move muons to their bottom, whatever their panels -/
theorem sub_detector (argsort : List ℝ → List Nat) (ha : IsArgsort argsort) (noise noise' : Nat → Nat → ℝ × ℝ) (D D' : DetLayer) (hz : D'.z = D.z) (hsz : D'.size = D.size)
    (hD' : ∀ p ∈ D'.panels, p.CanRespond) (b b' c : Batch Row) (hs : Sub q b c) (h : D.forward argsort noise b = .ok b') :
    ∃ c', D'.forward argsort noise' c = .ok c' ∧ Sub q b' c' ∧ b'.hist = b.hist ∧ c'.hist = c.hist := by
  by_cases hD : ∀ p ∈ D.panels, p.CanRespond
  · obtain ⟨b1, _, h1, _, _, _, hm, hr, hh, _⟩ := C13.layer_spec argsort ha noise D b hD
    obtain ⟨c1, _, h2, _, _, _, hm', hr', hh', _⟩ := C13.layer_spec argsort ha noise' D' c hD'
    rw [h1] at h
    simp only [Except.ok.injEq] at h
    subst h
    refine ⟨c1, h2, ⟨?_, by rw [hr', hr, hs.removed]⟩, hh, hh'⟩
    rw [hm', hm, hz, hsz]
    exact (hs.of_maps (atHeight (D.z - D.size)) fun _ => rfl).muons
  · push Not at hD
    obtain ⟨e, he⟩ := (C13.layer_error argsort ha noise D b).mpr hD
    rw [he] at h; simp at h

/-! ### Whole volumes -/

theorem assignLoop_outside (argsort : List ℝ → List Nat) (shares : List ℝ) (nCosts : List Nat) : ∀ (ls ls' : List AnyLayer) (bi li : Nat),
    Volume.assignLoop argsort shares nCosts bi li ls = .ok ls' → List.Forall₂ SameOutside ls ls'
  | [], ls', bi, li, h => by simp [Volume.assignLoop] at h; subst h; exact .nil
  | .passive L :: ls, ls', bi, li, h => by
    unfold Volume.assignLoop at h
    cases h1 : Volume.assignLoop argsort shares nCosts bi li ls with
    | error e => rw [h1] at h; simp at h
    | ok r =>
      rw [h1] at h
      simp at h; subst h
      exact .cons rfl (assignLoop_outside argsort shares nCosts ls r bi li h1)
  | .detector D :: ls, ls', bi, li, h => by
    unfold Volume.assignLoop at h
    cases hn : nCosts[li]? with
    | none => rw [hn] at h; simp at h
    | some n =>
      rw [hn] at h
      simp only at h
      unfold DetLayer.assignBudget at h
      simp only at h
      cases hD : DetLayer.assignLoop ((shares.drop bi).take n) (D.zorder argsort) 0 D.panels with
      | error e => rw [hD] at h; simp at h
      | ok ps =>
        rw [hD] at h
        simp only at h
        cases h1 : Volume.assignLoop argsort shares nCosts (bi + n) (li + 1) ls with
        | error e => rw [h1] at h; simp at h
        | ok r =>
          rw [h1] at h
          simp at h; subst h
          exact .cons ⟨rfl, rfl⟩ (assignLoop_outside argsort shares nCosts ls r _ _ h1)

theorem SameOutside.refl (l : AnyLayer) : SameOutside l l := by
  cases l <;> simp [SameOutside]

theorem SameOutside.symm {l k : AnyLayer} (h : SameOutside l k) : SameOutside k l := by
  cases l <;> cases k <;> simp_all [SameOutside]

theorem SameOutside.trans {l k j : AnyLayer} (h : SameOutside l k) (g : SameOutside k j) : SameOutside l j := by
  cases l <;> cases k <;> cases j <;> simp_all [SameOutside]

theorem outside_refl (ls : List AnyLayer) : List.Forall₂ SameOutside ls ls := List.forall₂_same.mpr fun l _ => SameOutside.refl l

theorem outside_trans {ls : List AnyLayer} : ∀ {ks js : List AnyLayer}, List.Forall₂ SameOutside ls ks → List.Forall₂ SameOutside ks js → List.Forall₂ SameOutside ls js := by
  induction ls with
  | nil => intro ks js h g; cases h; cases g; exact .nil
  | cons l ls ih =>
    intro ks js h g
    cases h with
    | cons h1 h2 =>
      cases g with
      | cons g1 g2 => exact .cons (h1.trans g1) (ih h2 g2)

theorem outside_symm {ls ks : List AnyLayer} (h : List.Forall₂ SameOutside ls ks) : List.Forall₂ SameOutside ks ls := by
  induction h with
  | nil => exact .nil
  | cons h1 _ ih => exact .cons h1.symm ih

theorem assign_outside (argsort : List ℝ → List Nat) (V V' : Volume) (h : V.assignBudget argsort = .ok V') : List.Forall₂ SameOutside V.layers V'.layers := by
  unfold Volume.assignBudget at h
  cases hb : V.budget with
  | none => rw [hb] at h; simp at h; subst h; exact outside_refl _
  | some bud =>
    rw [hb] at h
    simp only at h
    cases hl : Volume.assignLoop argsort ((softmax V.weights).map (bud * ·)) V.nCosts 0 0 V.layers with
    | error e => rw [hl] at h; simp at h
    | ok ls =>
      rw [hl] at h
      simp at h; subst h
      exact assignLoop_outside _ _ _ _ _ _ _ hl

theorem sub_run (argsort : List ℝ → List Nat) (ha : IsArgsort argsort) (rng : Nat → Nat → Nat → Draw) (noise noise' : Nat → Nat → Nat → ℝ × ℝ) (fuel : Nat) :
    ∀ (ls ks : List AnyLayer) (i : Nat) (b b' c : Batch Row), List.Forall₂ SameOutside ls ks →
    ((∀ D, .detector D ∈ ks → ∀ p ∈ D.panels, p.CanRespond) ∨ ∃ r, Volume.runLayers argsort rng noise' fuel i ks c = .ok r) →
    Sub q b c → Volume.runLayers argsort rng noise fuel i ls b = .ok (some b') →
    ∃ c', Volume.runLayers argsort rng noise' fuel i ks c = .ok (some c') ∧ Sub q b' c' ∧ ((∀ k, q k = true) → b.hist = c.hist → b'.hist = c'.hist)
  | [], ks, i, b, b', c, hf, _, hs, h => by
    cases hf
    simp [Volume.runLayers] at h; subst h
    exact ⟨c, rfl, hs, fun _ h => h⟩
  | l :: ls, ks, i, b, b', c, hf, hk, hs, h => by
    cases hf with
    | @cons _ k _ ks hlk hf =>
      unfold Volume.runLayers at h
      cases hl : Volume.layerForward argsort (rng i) (noise i) fuel b l with
      | error e => rw [hl] at h; simp at h
      | ok r =>
        rw [hl] at h
        cases r with
        | none => simp at h
        | some b1 =>
          simp only at h
          have key : ∃ c1, Volume.layerForward argsort (rng i) (noise' i) fuel c k = .ok (some c1) ∧ Sub q b1 c1 := by
            cases l with
            | passive L =>
              cases k with
              | detector D => exact hlk.elim
              | passive L' =>
                obtain rfl : L' = L := hlk
                exact L'.sub_forward (rng i) fuel b b1 c hs hl
            | detector D =>
              cases k with
              | passive L' => exact hlk.elim
              | detector D' =>
                have hresp : ∀ p ∈ D'.panels, p.CanRespond := by
                  rcases hk with hk | ⟨r, hk⟩
                  · exact hk D' (by simp)
                  · by_contra hcon
                    push Not at hcon
                    obtain ⟨e, he⟩ := (C13.layer_error argsort ha (noise' i) D' c).mpr hcon
                    simp [Volume.runLayers, Volume.layerForward, he] at hk
                simp only [Volume.layerForward] at hl ⊢
                cases hd : D.forward argsort (noise i) b with
                | error e => rw [hd] at hl; simp at hl
                | ok b2 =>
                  rw [hd] at hl
                  simp only [Except.ok.injEq, Option.some.injEq] at hl
                  subst hl
                  obtain ⟨c1, e1, s1, _⟩ := sub_detector argsort ha (noise i) (noise' i) D D' hlk.1 hlk.2 hresp b b2 c hs hd
                  exact ⟨c1, by rw [e1], s1⟩
          obtain ⟨c1, e1, s1⟩ := key
          have hk' : (∀ D, .detector D ∈ ks → ∀ p ∈ D.panels, p.CanRespond) ∨ ∃ r, Volume.runLayers argsort rng noise' fuel (i + 1) ks c1.snapshot = .ok r := by
            rcases hk with hk | ⟨r, hk⟩
            · exact .inl fun D hD => hk D (by simp [hD])
            · refine .inr ⟨r, ?_⟩
              unfold Volume.runLayers at hk
              rw [e1] at hk
              exact hk
          obtain ⟨c', e2, s2, h2⟩ := sub_run argsort ha rng noise noise' fuel ls ks (i + 1) b1.snapshot b' c1.snapshot hf hk'
            ⟨s1.muons, s1.removed⟩ h
          refine ⟨c', by unfold Volume.runLayers; rw [e1]; exact e2, s2, fun hq hh => h2 hq ?_⟩
          have g1 := (C14.layer_conserves argsort ha (rng i) (noise i) fuel b b1 l hl).2.2
          have g2 := (C14.layer_conserves argsort ha (rng i) (noise' i) fuel c c1 k e1).2.2
          have g3 : c1.muons = b1.muons := by rw [s1.muons]; simp [hq]
          simp only [Batch.snapshot]
          rw [g1, g2, hh, g3]

/-- if a passage does not raise, the panels it met can respond -/
theorem run_responds (argsort : List ℝ → List Nat) (ha : IsArgsort argsort) (rng : Nat → Nat → Nat → Draw) (noise : Nat → Nat → Nat → ℝ × ℝ) (fuel : Nat) :
    ∀ (ls : List AnyLayer) (i : Nat) (b b' : Batch Row), Volume.runLayers argsort rng noise fuel i ls b = .ok (some b') →
    ∀ D, .detector D ∈ ls → ∀ p ∈ D.panels, p.CanRespond
  | [], i, b, b', h => by simp
  | l :: ls, i, b, b', h => by
    unfold Volume.runLayers at h
    cases hl : Volume.layerForward argsort (rng i) (noise i) fuel b l with
    | error e => rw [hl] at h; simp at h
    | ok r =>
      rw [hl] at h
      cases r with
      | none => simp at h
      | some b1 =>
        simp only at h
        intro D hD
        simp only [List.mem_cons] at hD
        rcases hD with rfl | hD
        · by_contra hc
          push Not at hc
          obtain ⟨e, he⟩ := (C13.layer_error argsort ha (noise i) D b).mpr hc
          simp [Volume.layerForward, he] at hl
        · exact run_responds argsort ha rng noise fuel ls (i + 1) _ b' h D hD

/-! ### What is recorded -/

/-- a panel notes each muon for itself -/
theorem rowwise (p : AnyPanel) (noise : Nat → ℝ × ℝ) (hc : p.CanRespond) (var : String) :
    (∃ f : Muon → Row, ∀ b : Batch Row, p.tensorAt noise b var = some (b.muons.map f)) ∨ ∀ b : Batch Row, p.tensorAt noise b var = none := by
  have four : ∀ (f1 f2 f3 f4 : Muon → Row),
      (∃ f : Muon → Row, ∀ b : Batch Row, Dict.get? [("reco_xyz", (b.atHeight p.z).muons.map f1), ("gen_xyz", (b.atHeight p.z).muons.map f2),
        ("unc_xyz", (b.atHeight p.z).muons.map f3), ("eff", (b.atHeight p.z).muons.map f4)] var = some (b.muons.map f)) ∨
      ∀ b : Batch Row, Dict.get? [("reco_xyz", (b.atHeight p.z).muons.map f1), ("gen_xyz", (b.atHeight p.z).muons.map f2),
        ("unc_xyz", (b.atHeight p.z).muons.map f3), ("eff", (b.atHeight p.z).muons.map f4)] var = none := by
    intro f1 f2 f3 f4
    simp only [Dict.get?, Batch.atHeight, List.map_map]
    split
    · exact .inl ⟨_, fun _ => rfl⟩
    · split
      · exact .inl ⟨_, fun _ => rfl⟩
      · split
        · exact .inl ⟨_, fun _ => rfl⟩
        · split
          · exact .inl ⟨_, fun _ => rfl⟩
          · exact .inr fun _ => rfl
  cases p with
  | panel p =>
    have h : ∀ b : Batch Row, (AnyPanel.panel p).tensorAt noise b var = Dict.get? _ var := fun b => by
      unfold AnyPanel.tensorAt
      rcases p.getHits_cases noise (b.atHeight p.z) with ⟨_, h⟩ | ⟨hn, _⟩
      · rw [show (AnyPanel.panel p).getHits noise (b.atHeight (AnyPanel.panel p).z) = p.getHits noise (b.atHeight p.z) from rfl, h]
      · exact absurd hc hn
    simp only [h]
    exact four _ _ _ _
  | heatmap p => exact four _ _ _ _

/-- Both batches hold rows of one common record of what each muon left. -/
def Shared (b c : Batch Row) (pos var : String) : Prop := ∃ log, C01.Inv b pos var log ∧ C01.Inv c pos var log

theorem lookup_muon (ms : List Muon) (hn : (ms.map (·.id)).Nodup) (f : Muon → Row) (m : Muon) (hm : m ∈ ms) :
    List.lookup m.id ((ms.map (·.id)).zip (ms.map f)) = some (f m) := by
  have h1 := lookup_zip_self (rows := ms.map f) hn (by simp)
  obtain ⟨j, hj, hjm⟩ := List.getElem_of_mem hm
  have h2 := congrArg (fun l => l[j]?) h1
  simpa [hj, hjm] using h2

theorem detector_tensors (argsort : List ℝ → List Nat) (ha : IsArgsort argsort) (noise : Nat → Nat → ℝ × ℝ) (D : DetLayer) (b b' : Batch Row)
    (h : D.forward argsort noise b = .ok b') : b'.ids = b.ids ∧ (∀ p ∈ D.panels, p.CanRespond) ∧ ∀ pos var, b'.tensors pos var = b.tensors pos var ++
      if pos = D.pos then (D.zpanels argsort).filterMap (fun ip => ip.2.tensorAt (noise ip.1) b var) else [] := by
  by_cases hp : ∀ p ∈ D.panels, p.CanRespond
  · have hperm := zpanels_perm ha D
    obtain ⟨b1, hb1, hm, hr, hh, ht⟩ := visit_ok D.pos noise (D.zpanels argsort) b
      (fun ip hip => hp ip.2 (hperm.mem_iff.mp (List.mem_map.mpr ⟨ip, hip, rfl⟩)))
    unfold DetLayer.forward at h
    rw [hb1] at h
    simp only at h
    rw [propagate_atHeight] at h
    simp only [Except.ok.injEq] at h
    subst h
    refine ⟨?_, hp, fun pos var => by rw [tensors_atHeight]; exact ht pos var⟩
    have := congrArg (List.map MuonOf.id) (hm 0)
    simpa [Batch.ids, Batch.atHeight, List.map_map, Function.comp_def, atHeight] using this
  · push Not at hp
    obtain ⟨e, he⟩ := (C13.layer_error argsort ha noise D b).mpr hp
    rw [he] at h; simp at h

theorem shared_new (noise : Nat → Nat → ℝ × ℝ) (var : String) (b c : Batch Row) (hs : Sub q b c) (hn : b.ids.Nodup) : ∀ (ps : List (Nat × AnyPanel)), (∀ ip ∈ ps, ip.2.CanRespond) →
    ∃ log : List (List (Nat × Row)),
      (ps.filterMap fun ip => ip.2.tensorAt (noise ip.1) b var).map (·.map some) = (log.map fun rec => b.ids.map fun i => rec.lookup i) ∧
      (ps.filterMap fun ip => ip.2.tensorAt (noise ip.1) c var).map (·.map some) = log.map fun rec => c.ids.map fun i => rec.lookup i
  | [], _ => ⟨[], rfl, rfl⟩
  | ip :: ps, hr => by
    obtain ⟨log, h1, h2⟩ := shared_new noise var b c hs hn ps fun x hx => hr x (by simp [hx])
    rcases rowwise ip.2 (noise ip.1) (hr ip (by simp)) var with ⟨f, hf⟩ | hf
    · refine ⟨((b.muons.map (·.id)).zip (b.muons.map f)) :: log, ?_, ?_⟩
      · rw [List.filterMap_cons_some (f := fun ip : Nat × AnyPanel => ip.2.tensorAt (noise ip.1) b var) (hf b), List.map_cons, List.map_cons, h1]
        congr 1
        rw [Batch.ids, List.map_map, List.map_map]
        apply List.map_congr_left
        intro m hm
        exact (lookup_muon b.muons hn f m hm).symm
      · rw [List.filterMap_cons_some (f := fun ip : Nat × AnyPanel => ip.2.tensorAt (noise ip.1) c var) (hf c), List.map_cons, List.map_cons, h2]
        congr 1
        rw [Batch.ids, List.map_map, List.map_map]
        apply List.map_congr_left
        intro m hm
        rw [hs.muons] at hm
        exact (lookup_muon b.muons hn f m (List.mem_filter.mp hm).1).symm
    · refine ⟨log, ?_, ?_⟩
      · rw [List.filterMap_cons_none (f := fun ip : Nat × AnyPanel => ip.2.tensorAt (noise ip.1) b var) (hf b), h1]
      · rw [List.filterMap_cons_none (f := fun ip : Nat × AnyPanel => ip.2.tensorAt (noise ip.1) c var) (hf c), h2]

theorem shared_detector (argsort : List ℝ → List Nat) (ha : IsArgsort argsort) (noise : Nat → Nat → ℝ × ℝ) (D : DetLayer) (b b' c c' : Batch Row)
    (hs : Sub q b c) (hn : b.ids.Nodup) (hb : D.forward argsort noise b = .ok b') (hc : D.forward argsort noise c = .ok c') (pos var : String)
    (h : Shared b c pos var) : Shared b' c' pos var := by
  obtain ⟨ib, hp, tb⟩ := detector_tensors argsort ha noise D b b' hb
  obtain ⟨ic, _, tc⟩ := detector_tensors argsort ha noise D c c' hc
  obtain ⟨log, l1, l2⟩ := h
  unfold C01.Inv at l1 l2
  by_cases hpos : pos = D.pos
  · obtain ⟨new, n1, n2⟩ := shared_new noise var b c hs hn (D.zpanels argsort) fun ip hip =>
      hp ip.2 ((zpanels_perm ha D).mem_iff.mp (List.mem_map.mpr ⟨ip, hip, rfl⟩))
    refine ⟨log ++ new, ?_, ?_⟩
    · unfold C01.Inv
      rw [tb, if_pos hpos, List.map_append, List.map_append, ib, l1, n1]
    · unfold C01.Inv
      rw [tc, if_pos hpos, List.map_append, List.map_append, ic, l2, n2]
  · refine ⟨log, ?_, ?_⟩
    · unfold C01.Inv
      rw [tb, if_neg hpos, List.append_nil, ib, l1]
    · unfold C01.Inv
      rw [tc, if_neg hpos, List.append_nil, ic, l2]

theorem Sub.ids_sub {b c : Batch α} (h : Sub q b c) : c.ids.Sublist b.ids := by
  unfold Batch.ids
  rw [h.muons]
  exact List.filter_sublist.map _

theorem shared_run (argsort : List ℝ → List Nat) (ha : IsArgsort argsort) (rng : Nat → Nat → Nat → Draw) (noise : Nat → Nat → Nat → ℝ × ℝ) (fuel : Nat) (pos var : String) :
    ∀ (ls : List AnyLayer) (i : Nat) (b b' c c' : Batch Row), Sub q b c → b.ids.Nodup → Shared b c pos var →
    Volume.runLayers argsort rng noise fuel i ls b = .ok (some b') → Volume.runLayers argsort rng noise fuel i ls c = .ok (some c') → Shared b' c' pos var
  | [], i, b, b', c, c', _, _, hsh, h, g => by
    simp [Volume.runLayers] at h g; subst h; subst g
    exact hsh
  | l :: ls, i, b, b', c, c', hs, hn, hsh, h, g => by
    unfold Volume.runLayers at h g
    cases hl : Volume.layerForward argsort (rng i) (noise i) fuel b l with
    | error e => rw [hl] at h; simp at h
    | ok r =>
      rw [hl] at h
      cases r with
      | none => simp at h
      | some b1 =>
        simp only at h
        cases gl : Volume.layerForward argsort (rng i) (noise i) fuel c l with
        | error e => rw [gl] at g; simp at g
        | ok r =>
          rw [gl] at g
          cases r with
          | none => simp at g
          | some c1 =>
            simp only at g
            have key : Sub q b1 c1 ∧ b1.ids.Nodup ∧ Shared b1 c1 pos var := by
              cases l with
              | passive L =>
                obtain ⟨c2, e2, s2⟩ := L.sub_forward (rng i) fuel b b1 c hs hl
                simp only [Volume.layerForward] at hl gl
                rw [e2] at gl
                simp only [Except.ok.injEq, Option.some.injEq] at gl
                subst gl
                obtain ⟨k1, -⟩ := carries_forward L (rng i) fuel b b1 hl
                obtain ⟨k2, -⟩ := carries_forward L (rng i) fuel c c2 e2
                obtain ⟨log, l1, l2⟩ := hsh
                exact ⟨s2, hn.sublist k1.sub, log, k1.log _ _ _ l1, k2.log _ _ _ l2⟩
              | detector D =>
                simp only [Volume.layerForward] at hl gl
                cases hd : D.forward argsort (noise i) b with
                | error e => rw [hd] at hl; simp at hl
                | ok b2 =>
                  rw [hd] at hl
                  simp only [Except.ok.injEq, Option.some.injEq] at hl
                  subst hl
                  have hp := (detector_tensors argsort ha (noise i) D b b2 hd).2.1
                  obtain ⟨c2, e2, s2, _⟩ := sub_detector argsort ha (noise i) (noise i) D D rfl rfl hp b b2 c hs hd
                  rw [e2] at gl
                  simp only [Except.ok.injEq, Option.some.injEq] at gl
                  subst gl
                  refine ⟨s2, ?_, shared_detector argsort ha (noise i) D b b2 c c2 hs hn hd e2 pos var hsh⟩
                  rw [(detector_tensors argsort ha (noise i) D b b2 hd).1]; exact hn
            obtain ⟨s1, n1, h1⟩ := key
            exact shared_run argsort ha rng noise fuel pos var ls (i + 1) b1.snapshot b' c1.snapshot c' ⟨s1.muons, s1.removed⟩ n1
              (by obtain ⟨log, l1, l2⟩ := h1; exact ⟨log, l1, l2⟩) h g

theorem Shared.rows {b c : Batch Row} {pos var : String} (h : Shared b c pos var) : SameRows b c pos var := by
  obtain ⟨log, l1, l2⟩ := h
  refine ⟨by rw [recorded_count l1, recorded_count l2], ?_⟩
  intro k i j t u ht hu m n hm hn hid
  unfold C01.Inv at l1 l2
  have e1 := congrArg (fun l => l[k]?) l1
  have e2 := congrArg (fun l => l[k]?) l2
  simp only [List.getElem?_map, ht, hu, Option.map_some] at e1 e2
  cases hr : log[k]? with
  | none => rw [hr] at e1; simp at e1
  | some rec =>
    rw [hr] at e1 e2
    simp only [Option.map_some, Option.some.injEq] at e1 e2
    have f1 := congrArg (fun l => l[i]?) e1
    have f2 := congrArg (fun l => l[j]?) e2
    simp only [List.getElem?_map, Batch.ids, hm, hn, Option.map_some] at f1 f2
    rw [hid] at f1
    cases h1 : t[i]? with
    | none => rw [h1] at f1; simp at f1
    | some x =>
      cases h2 : u[j]? with
      | none => rw [h2] at f2; simp at f2
      | some y =>
        rw [h1] at f1
        rw [h2] at f2
        simp only [Option.map_some, Option.some.injEq] at f1 f2
        rw [← f2] at f1
        simp only [Option.some.injEq] at f1
        exact ⟨x, rfl, by rw [f1]⟩

/-! ### Scatter batches -/

theorem hitsOk_run (argsort : List ℝ → List Nat) (ha : IsArgsort argsort) (rng : Nat → Nat → Nat → Draw) (noise : Nat → Nat → Nat → ℝ × ℝ) (fuel : Nat) :
    ∀ (ls : List AnyLayer) (i : Nat) (b b' : Batch Row), HitsOk b.muons.length b.hits → b.ids.Nodup →
    Volume.runLayers argsort rng noise fuel i ls b = .ok (some b') → HitsOk b'.muons.length b'.hits ∧ b'.ids.Nodup
  | [], i, b, b', ho, hn, h => by
    simp [Volume.runLayers] at h; subst h
    exact ⟨ho, hn⟩
  | l :: ls, i, b, b', ho, hn, h => by
    unfold Volume.runLayers at h
    cases hl : Volume.layerForward argsort (rng i) (noise i) fuel b l with
    | error e => rw [hl] at h; simp at h
    | ok r =>
      rw [hl] at h
      cases r with
      | none => simp at h
      | some b1 =>
        simp only at h
        have key : HitsOk b1.muons.length b1.hits ∧ b1.ids.Nodup := by
          cases l with
          | passive L =>
            obtain ⟨k, -⟩ := carries_forward L (rng i) fuel b b1 hl
            exact ⟨k.ok ho, hn.sublist k.sub⟩
          | detector D =>
            simp only [Volume.layerForward] at hl
            cases hd : D.forward argsort (noise i) b with
            | error e => rw [hd] at hl; simp at hl
            | ok b2 =>
              rw [hd] at hl
              simp only [Except.ok.injEq, Option.some.injEq] at hl
              subst hl
              obtain ⟨zs, -, -, sn⟩ := seen_layer argsort ha (noise i) D b b2 hd
              exact ⟨sn.ok ho, by rw [sn.ids]; exact hn⟩
        exact hitsOk_run argsort ha rng noise fuel ls (i + 1) b1.snapshot b' key.1 key.2 h

open Scatter

/-- what is read under a key, in terms of the recordings -/
theorem hitVar_tensors (b : Batch Row) (h : HitsOk b.muons.length b.hits) (pos var : String) :
    (b.tensors pos var = [] ∧ ∃ e, hitVar (stackedHits b.muons.length b.hits) pos var = .error e) ∨
    (b.tensors pos var ≠ [] ∧ hitVar (stackedHits b.muons.length b.hits) pos var =
      .ok ((List.range b.muons.length).map fun i => (b.tensors pos var).filterMap fun u => u[i]?)) := by
  unfold hitVar stackedHits Batch.tensors
  rw [Dict.get?_mapVals]
  cases hp : b.hits.get? pos with
  | none => exact .inl ⟨rfl, _, rfl⟩
  | some vars =>
    simp only [Option.map_some]
    rw [Dict.get?_mapVals]
    cases hv : vars.get? var with
    | none => exact .inl ⟨rfl, _, rfl⟩
    | some ts => exact .inr ⟨((h _ (Dict.mem_of_get? hp)).2 _ (Dict.mem_of_get? hv)).1, rfl⟩

theorem pick_eq_filterMap {β : Type} : ∀ (p : β → Bool) (xs : List β) {γ : Type} (ys : List γ), ys.length = xs.length →
    pick (xs.map p) ys = (xs.zip ys).filterMap fun xy => if p xy.1 then some xy.2 else none
  | p, [], _, ys, h => by simp
  | p, x :: xs, _, [], h => by simp
  | p, x :: xs, _, y :: ys, h => by
    have ih := pick_eq_filterMap p xs ys (by simpa using h)
    cases hp : p x <;> simp [hp, ih]

/-- reading the hits of the smaller batch is picking the rows of its muons -/
theorem hitVar_sub {b c : Batch Row} (hs : Sub q b c) (hb : HitsOk b.muons.length b.hits) (hc : HitsOk c.muons.length c.hits) (hn : b.ids.Nodup)
    (pos var : String) (hr : SameRows b c pos var) (t : List (List Row)) (ht : hitVar (stackedHits b.muons.length b.hits) pos var = .ok t) :
    hitVar (stackedHits c.muons.length c.hits) pos var = .ok (pick (b.muons.map fun m => q m.id) t) := by
  rcases hitVar_tensors b hb pos var with ⟨_, e, he⟩ | ⟨hne, he⟩
  · rw [he] at ht; simp at ht
  · rw [he] at ht
    simp only [Except.ok.injEq] at ht
    rcases hitVar_tensors c hc pos var with ⟨hce, _⟩ | ⟨_, ge⟩
    · have := hr.1
      rw [hce] at this
      simp at this
      exact absurd this hne
    · rw [ge]
      congr 1
      -- rows by muon
      have rows : ∀ (i j : Nat) (m n : Muon), b.muons[i]? = some m → c.muons[j]? = some n → m.id = n.id →
          (c.tensors pos var).filterMap (fun u => u[j]?) = (b.tensors pos var).filterMap (fun u => u[i]?) := by
        intro i j m n hm hn' hid
        have hpt : (c.tensors pos var).map (fun u => u[j]?) = (b.tensors pos var).map fun u => u[i]? := by
          apply List.ext_getElem (by simp [hr.1])
          intro k h1 h2
          simp only [List.getElem_map]
          simp only [List.length_map] at h1 h2
          obtain ⟨r, e1, e2⟩ := hr.2 k i j _ _ (List.getElem?_eq_getElem h2) (List.getElem?_eq_getElem h1) m n hm hn' hid
          rw [e1, e2]
        have := congrArg (List.filterMap id) hpt
        simpa [List.filterMap_map, Function.comp_def] using this
      subst ht
      -- both sides as functions of the muons
      let row : Muon → List Row := fun m => match b.muons.findIdx? (fun x => x.id == m.id) with
        | some i => (b.tensors pos var).filterMap fun u => u[i]?
        | none => []
      have rowb : ∀ (i : Nat) (m : Muon), b.muons[i]? = some m → row m = (b.tensors pos var).filterMap fun u => u[i]? := by
        intro i m hm
        have hf : b.muons.findIdx? (fun x => x.id == m.id) = some i := by
          rw [List.findIdx?_eq_some_iff_getElem]
          obtain ⟨hi, he'⟩ := List.getElem?_eq_some_iff.mp hm
          refine ⟨hi, by simp [he'], ?_⟩
          intro j hji
          simp only [beq_iff_eq, Bool.not_eq_true, beq_eq_false_iff_ne, ne_eq]
          intro hEq
          have hj : j < b.muons.length := by omega
          have : b.ids[j]'(by simpa [Batch.ids] using hj) = b.ids[i]'(by simpa [Batch.ids] using hi) := by
            simp [Batch.ids, hEq, he']
          have := (List.Nodup.getElem_inj_iff hn).mp this
          omega
        simp only [row, hf]
      have e1 : ((List.range b.muons.length).map fun i => (b.tensors pos var).filterMap fun u => u[i]?) = b.muons.map row := by
        apply List.ext_getElem (by simp)
        intro i h1 h2
        simp only [List.length_map, List.length_range] at h1
        simp only [List.getElem_map, List.getElem_range]
        exact (rowb i _ (List.getElem?_eq_getElem h1)).symm
      have e2 : ((List.range c.muons.length).map fun i => (c.tensors pos var).filterMap fun u => u[i]?) = c.muons.map row := by
        apply List.ext_getElem (by simp)
        intro j h1 h2
        simp only [List.length_map, List.length_range] at h1
        simp only [List.getElem_map, List.getElem_range]
        have hmem : c.muons[j] ∈ b.muons := by
          have hsub : ∀ x ∈ c.muons, x ∈ b.muons := fun x hx => by
            rw [hs.muons] at hx
            exact (List.mem_filter.mp hx).1
          exact hsub _ (List.getElem_mem h1)
        obtain ⟨i, hi, he'⟩ := List.getElem_of_mem hmem
        rw [rowb i c.muons[j] (by rw [← he']; exact List.getElem?_eq_getElem hi)]
        exact rows i j _ _ (List.getElem?_eq_getElem hi) (List.getElem?_eq_getElem h1) (by rw [he'])
      rw [e1, e2, hs.muons, pick_map, pick_map_filter]

/-- extraction looks at nothing but the entries -/
theorem extract_congr {d e : Dict String (Dict String (List (List Row)))} (h : ∀ pos var t, hitVar d pos var = .ok t → hitVar e pos var = .ok t) {H : Hits}
    (hd : extract d = .ok H) : extract e = .ok H := by
  have hb : ∀ var t, bothSides d var = .ok t → bothSides e var = .ok t := by
    intro var t ht
    unfold bothSides at ht ⊢
    obtain ⟨a, h1, ht⟩ := bind_ok ht
    obtain ⟨b, h2, ht⟩ := bind_ok ht
    simp only [bind, Except.bind, h _ _ _ h1, h _ _ _ h2]
    exact ht
  unfold extract at hd ⊢
  obtain ⟨a, h1, hd⟩ := bind_ok hd
  obtain ⟨b, h2, hd⟩ := bind_ok hd
  obtain ⟨r, h3, hd⟩ := bind_ok hd
  obtain ⟨g, h4, hd⟩ := bind_ok hd
  obtain ⟨u, h5, hd⟩ := bind_ok hd
  obtain ⟨f, h6, hd⟩ := bind_ok hd
  simp only [bind, Except.bind, h _ _ _ h1, h _ _ _ h2, hb _ _ h3, hb _ _ h4, hb _ _ h5, hb _ _ h6]
  exact hd

/-- the tracks of some of the muons are some of the tracks -/
theorem tracks_pick {gen : Bool} {lw : ℝ × ℝ} {s : SB} (hc : C32.Consistent gen lw s) (m : List Bool) (hlen : m.length = s.mu.muons.length) :
    ∃ H', extract ((stackedHits s.mu.muons.length s.mu.hits).mapVals fun vars => vars.mapVals (pick m)) = .ok H' ∧ H'.rows = pick m s.hits.rows ∧
      computeTracks gen lw H' = .ok (pick m s.tracks) := by
  obtain ⟨lr, lt⟩ := C32.lengths hc
  obtain ⟨h, hg, he⟩ := hc.hits
  rw [getHits_stacked s.mu hc.aligned hc.recorded] at hg
  simp only [Except.ok.injEq] at hg
  subst hg
  have hw := fun pos var t ht => stackedHits_width s.mu.muons.length s.mu.hits hc.aligned pos var t ht
  obtain ⟨H', hH', hrows, hnA⟩ := C32.extract_pick s.mu.muons.length _ (fun pos var t ht => (hw pos var t ht).1) m hlen s.hits he
  refine ⟨H', hH', hrows, ?_⟩
  have h0 := hc.tracks
  unfold computeTracks at h0 ⊢
  rw [hrows]
  have hp := mapE_pick _ m _ _ h0
  cases hpr : pick m s.hits.rows with
  | nil =>
    rw [hpr] at hp
    simp only [mapE] at hp ⊢
    exact hp
  | cons r0 rest =>
    have hnn : H'.nAbove = s.hits.nAbove := by
      rw [hnA]
      obtain ⟨ra, rb, ga, gb, ua, ub, ea, eb, r, g, u, e, h1, h2, h3, h4, h5, h6, h7, h8, c1, c2, c3, c4, m1, m2, m3, m4, n1, n2⟩ := extract_parts he
      simp only [h1]
      obtain ⟨wl, k, wk⟩ := hw _ _ _ h1
      have hpos : 0 < countTrue m := by
        have := pick_length m s.hits.rows (by rw [hlen, lr])
        rw [hpr] at this; simp at this; omega
      have hpl := pick_length m ra (by rw [hlen, wl])
      rw [n1]
      cases hpa : pick m ra with
      | nil => rw [hpa] at hpl; simp at hpl; omega
      | cons x xs =>
        have hx : x ∈ ra := (pick_sublist m ra).subset (by rw [hpa]; simp)
        cases hra : ra with
        | nil => rw [hra] at hx; simp at hx
        | cons y ys => simp only [shape1]; rw [wk x hx, wk y (by rw [hra]; simp)]
    rw [hnn, ← hpr]; exact hp

/-- before the filter: the smaller batch has the tracks of its muons -/
theorem consistent_sub {gen : Bool} {lw : ℝ × ℝ} {b c : Batch Row} {H : Hits} {ts : List (Option Track × Option Track)} (hs : Sub q b c)
    (hcon : C32.Consistent gen lw ⟨b, H, ts⟩) (hc : HitsOk c.muons.length c.hits) (hn : b.ids.Nodup) (hr : ∀ pos var, SameRows b c pos var) :
    ∃ H', C32.Consistent gen lw ⟨c, H', pick (b.muons.map fun m => q m.id) ts⟩ ∧ H'.rows = pick (b.muons.map fun m => q m.id) H.rows := by
  obtain ⟨H', e1, e2, e3⟩ := tracks_pick hcon (b.muons.map fun m => q m.id) (by simp)
  simp only at e1 e2 e3
  have hrec : c.hits ≠ [] := by
    intro h0
    obtain ⟨h, hg, he⟩ := hcon.hits
    simp only at hg he
    rw [getHits_stacked b hcon.aligned hcon.recorded] at hg
    simp only [Except.ok.injEq] at hg
    subst hg
    obtain ⟨ra, rb, ga, gb, ua, ub, ea, eb, r, g, u, e, h1, -⟩ := extract_parts he
    have := hitVar_sub hs hcon.aligned hc hn _ _ (hr _ _) _ h1
    rw [h0] at this
    simp [stackedHits, hitVar, Dict.mapVals, Dict.get?] at this
  refine ⟨H', ⟨hc, hrec, ⟨_, getHits_stacked c hc hrec, ?_⟩, e3⟩, e2⟩
  refine extract_congr ?_ e1
  intro pos var t ht
  rw [hitVar_pick] at ht
  cases hv : hitVar (stackedHits b.muons.length b.hits) pos var with
  | error e => rw [hv] at ht; simp [Except.map] at ht
  | ok t0 =>
    rw [hv] at ht
    simp only [Except.map, Except.ok.injEq] at ht
    rw [← ht]
    exact hitVar_sub hs hcon.aligned hc hn _ _ (hr _ _) _ hv

theorem pick_pick_comm {β : Type} : ∀ (m k : List Bool) (xs : List β), m.length = k.length → pick (pick m k) (pick m xs) = pick (pick k m) (pick k xs)
  | [], [], xs, _ => by simp
  | x :: m, y :: k, [], _ => by simp
  | x :: m, y :: k, z :: xs, h => by
    have ih := pick_pick_comm m k xs (by simpa using h)
    cases x <;> cases y <;> simp [ih]

/-- what a scatter batch is made of -/
theorem build_parts {gen : Bool} {V : Volume} {b : Batch Row} {s : SB} {cs : List (Track × Track × (ℝ × ℝ × ℝ))} (hok : HitsOk b.muons.length b.hits) (hne : b.hits ≠ [])
    (hb : build gen V b = .ok (s, cs)) :
    ∃ lw zr H ts, V.lw = .ok lw ∧ V.zRange = .ok zr ∧ C32.Consistent gen lw ⟨b, H, ts⟩ ∧ filterScatters gen lw zr ⟨b, H, ts⟩ = .ok s ∧ mapE coefsOf s.tracks = .ok cs ∧
      s.mu.muons = pick (keepMask gen lw zr ⟨b, H, ts⟩) b.muons ∧ s.tracks = pick (keepMask gen lw zr ⟨b, H, ts⟩) ts := by
  unfold build at hb
  obtain ⟨h, hh, hb⟩ := bind_ok hb
  obtain ⟨H, hH, hb⟩ := bind_ok hb
  obtain ⟨lw, hlw, hb⟩ := bind_ok hb
  obtain ⟨zr, hzr, hb⟩ := bind_ok hb
  obtain ⟨ts, hts, hb⟩ := bind_ok hb
  obtain ⟨s', hs', hb⟩ := bind_ok hb
  obtain ⟨cs', hcs, hb⟩ := bind_ok hb
  simp only [Except.ok.injEq, Prod.mk.injEq] at hb
  obtain ⟨rfl, rfl⟩ := hb
  have hc : C32.Consistent gen lw ⟨b, H, ts⟩ := ⟨hok, hne, ⟨h, hh, hH⟩, hts⟩
  have h1 : b.muons.length ≠ 1 ∨ (keepMask gen lw zr ⟨b, H, ts⟩).all id = true := by
    by_contra hcon
    push Not at hcon
    rw [C32.single_violated gen lw zr _ hc hcon.1 (by simpa using hcon.2)] at hs'
    simp at hs'
  obtain ⟨_, s'', hs'', _, hpick, htr, _⟩ := C32.filter_spec_partial gen lw zr ⟨b, H, ts⟩ hc h1
  rw [hs'] at hs''
  simp only [Except.ok.injEq] at hs''
  subst hs''
  exact ⟨lw, zr, H, ts, hlw, hzr, hc, hs', hcs, hpick, htr⟩

theorem mem_pick_of_all {β : Type} : ∀ (m k : List Bool) (xs : List β), m.length = k.length → (pick m k).all id = true → ∀ x ∈ pick m xs, x ∈ pick k xs
  | [], [], xs, _, _ => by simp
  | x :: m, y :: k, [], _, _ => by simp
  | x :: m, y :: k, z :: xs, h, ha => by
    have ih := mem_pick_of_all m k xs (by simpa using h)
    intro w hw
    cases x
    · simp only [pick_false] at ha hw
      have := ih ha w hw
      cases y <;> simp [this]
    · simp only [pick_true, List.all_cons, Bool.and_eq_true, id] at ha
      obtain ⟨rfl, ha⟩ := ha
      simp only [pick_true, List.mem_cons] at hw ⊢
      exact hw.imp_right (ih ha w)

theorem mem_of_pick {β : Type} {k : List Bool} {xs : List β} {x : β} (h : x ∈ pick k xs) : x ∈ xs :=
  (pick_sublist k xs).subset h

theorem all_of_mem_pick {β : Type} : ∀ (m k : List Bool) (xs : List β), m.length = k.length → xs.length = k.length → xs.Nodup → (∀ x ∈ pick m xs, x ∈ pick k xs) →
    (pick m k).all id = true
  | [], [], xs, _, _, _, _ => by simp
  | x :: m, y :: k, [], _, h, _, _ => by simp at h
  | x :: m, y :: k, z :: xs, h, h', hn, ha => by
    obtain ⟨hz, hn⟩ := List.nodup_cons.mp hn
    have hstep : ∀ w ∈ pick m xs, w ∈ pick k xs := by
      intro w hw
      have hne : w ≠ z := fun e => hz (e ▸ mem_of_pick hw)
      have := ha w (by cases x <;> simp [hw])
      cases y <;> simp_all
    have ih := all_of_mem_pick m k xs (by simpa using h) (by simpa using h') hn hstep
    cases x
    · simpa using ih
    · have hy : y = true := by
        have := ha z (by simp)
        cases y
        · simp only [pick_false] at this
          exact absurd (mem_of_pick this) hz
        · rfl
      simp [hy, ih]

theorem build_sub {gen : Bool} {V : Volume} {b c : Batch Row} {s : SB} {cs : List (Track × Track × (ℝ × ℝ × ℝ))} (hs : Sub q b c)
    (hok : HitsOk b.muons.length b.hits) (hne : b.hits ≠ []) (hc : HitsOk c.muons.length c.hits) (hn : b.ids.Nodup) (hr : ∀ pos var, SameRows b c pos var)
    (hb : build gen V b = .ok (s, cs)) :
    ((∃ s' cs', build gen V c = .ok (s', cs')) ↔ c.muons.length ≠ 1 ∨ ∀ m ∈ c.muons, m ∈ s.mu.muons) ∧
    ∀ s' cs', build gen V c = .ok (s', cs') → s'.mu.muons.zip cs' = (s.mu.muons.zip cs).filter fun mc => q mc.1.id := by
  obtain ⟨lw, zr, H, ts, hlw, hzr, hcon, hfil, hcs, hmu, htr⟩ := build_parts hok hne hb
  obtain ⟨H', hcon', hrows⟩ := consistent_sub hs hcon hc hn hr
  obtain ⟨lr, lt⟩ := C32.lengths hcon
  simp only at lr lt
  have hkl : (keepMask gen lw zr ⟨b, H, ts⟩).length = b.muons.length := by simp [keepMask, lr, lt]
  have hkeep : keepMask gen lw zr ⟨c, H', pick (b.muons.map fun m => q m.id) ts⟩ = pick (b.muons.map fun m => q m.id) (keepMask gen lw zr ⟨b, H, ts⟩) := by
    simp only [keepMask]
    rw [hrows, pick_zipWith]
  have hcm : c.muons = pick (b.muons.map fun m => q m.id) b.muons := by rw [pick_map_filter, hs.muons]
  generalize hk : keepMask gen lw zr ⟨b, H, ts⟩ = keep at *
  have hcoef : mapE coefsOf (pick (pick (b.muons.map fun m => q m.id) keep) (pick (b.muons.map fun m => q m.id) ts)) =
      .ok (pick (pick keep (b.muons.map fun m => q m.id)) cs) := by
    rw [pick_pick_comm _ _ _ (by simp [hkl]), ← htr]
    exact mapE_pick _ _ _ _ hcs
  obtain ⟨h, hg, he⟩ := hcon'.hits
  have hnd : b.muons.Nodup := List.Nodup.of_map _ hn
  refine ⟨⟨?_, fun h1 => ?_⟩, ?_⟩
  · rintro ⟨s', cs', hb'⟩
    by_cases h1 : c.muons.length ≠ 1
    · exact .inl h1
    · right
      push Not at h1
      have ht := hcon'.tracks
      unfold build at hb'
      simp only at hg he ht
      simp only [hg, he, hlw, hzr, ht, bind, Except.bind] at hb'
      by_cases hall : (keepMask gen lw zr ⟨c, H', pick (b.muons.map fun m => q m.id) ts⟩).all id = true
      · rw [hkeep] at hall
        rw [hcm, hmu]
        exact mem_pick_of_all _ _ _ (by simp [hkl]) hall
      · rw [C32.single_violated gen lw zr _ hcon' h1 (by simpa using hall)] at hb'
        simp at hb'
  · have h1 : c.muons.length ≠ 1 ∨ (keepMask gen lw zr ⟨c, H', pick (b.muons.map fun m => q m.id) ts⟩).all id = true := by
      refine h1.imp_right fun h => ?_
      rw [hkeep]
      rw [hcm, hmu] at h
      exact all_of_mem_pick _ _ _ (by simp [hkl]) hkl.symm hnd h
    obtain ⟨_, s', e1, e2, e3, e4, _⟩ := C32.filter_spec_partial gen lw zr _ hcon' h1
    refine ⟨s', pick (pick keep (b.muons.map fun m => q m.id)) cs, ?_⟩
    unfold build
    have ht := hcon'.tracks
    simp only at hg he ht
    simp only [hg, he, hlw, hzr, ht, e1, bind, Except.bind]
    rw [e4, hkeep, hcoef]
  · intro s' cs' hb'
    obtain ⟨lw', zr', H2, ts2, hlw', hzr', hcon2, hfil2, hcs2, hmu2, htr2⟩ := build_parts hc hcon'.recorded hb'
    rw [hlw] at hlw'
    rw [hzr] at hzr'
    simp only [Except.ok.injEq] at hlw' hzr'
    subst hlw'
    subst hzr'
    obtain ⟨h2, hg2, he2⟩ := hcon2.hits
    rw [hg] at hg2
    simp only [Except.ok.injEq] at hg2
    subst hg2
    rw [he] at he2
    simp only [Except.ok.injEq] at he2
    subst he2
    have ht := hcon'.tracks
    have ht2 := hcon2.tracks
    simp only at ht ht2
    rw [ht] at ht2
    simp only [Except.ok.injEq] at ht2
    subst ht2
    rw [hkeep] at hmu2 htr2
    rw [htr2, hcoef] at hcs2
    simp only [Except.ok.injEq] at hcs2
    subst hcs2
    rw [hmu2, hmu]
    conv_lhs => rw [hcm, pick_pick_comm _ _ _ (by simp [hkl])]
    rw [← pick_zip]
    have e : pick keep (b.muons.map fun m => q m.id) = (pick keep b.muons).map fun m => q m.id := pick_map _ _ _
    have hl2 : cs.length = (pick keep b.muons).length := by
      rw [mapE_length _ _ _ hcs, htr, pick_length _ _ (by rw [hkl, lt]), pick_length _ _ hkl]
    rw [e]
    generalize pick keep b.muons = ms at hl2
    clear * - hl2
    induction ms generalizing cs with
    | nil => simp
    | cons x ms ih =>
      cases cs with
      | nil => simp
      | cons y cs =>
        have := ih (cs := cs) (by simpa using hl2)
        cases hx : q x.id <;> simp [hx, this]

end

end Tomopt
