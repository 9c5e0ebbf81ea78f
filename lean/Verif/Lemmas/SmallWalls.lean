import Verif.Model.SmallWalls
import Verif.Spec.Walls
import Mathlib.Data.Finset.Prod
import Mathlib.Data.Finset.Card
import Mathlib.Tactic.Linarith

/- Lemmas on building walls. -/
namespace Tomopt

open Spec

namespace SmallWalls

/-- a position in the grid -/
def InGrid (c : Cfg) (p : ℤ × ℤ) : Prop := 0 ≤ p.1 ∧ p.1 < c.nx ∧ 0 ≤ p.2 ∧ p.2 < c.ny

theorem not_outside {c : Cfg} {p : ℤ × ℤ} : ¬ outside c p ↔ InGrid c p := by
  unfold outside InGrid; omega

theorem free_iff {c : Cfg} {m : Map} {p : ℤ × ℤ} : free c m p = true ↔ ∀ z, z < c.nz → m z p.1.toNat p.2.toNat = false := by
  unfold free
  simp only [List.all_eq_true, List.mem_range, Bool.not_eq_true']

theorem slice_iff (n : Nat) (g h : ℤ) (hg : 0 ≤ g) (hn : g < n) (hh : 0 ≤ h) (hn' : h ≤ n) (z : Nat) : Passives.inSlice n g h z = true ↔ g ≤ z ∧ (z : ℤ) < h := by
  unfold Passives.inSlice Passives.sliceIdx
  rw [if_neg (by omega), if_neg (by omega), Bool.and_eq_true, decide_eq_true_iff, decide_eq_true_iff, min_eq_left hn.le, min_eq_left hn']

theorem fill_iff {c : Cfg} {g h : ℤ} (hg : 0 ≤ g) (hgh : g < h) (hh : h < c.nz) {m : Map} {p : ℤ × ℤ} (hp : InGrid c p) (z x y : Nat) :
    fill c g h m p z x y = true ↔ m z x y = true ∨ (((x : ℤ), (y : ℤ)) = p ∧ g ≤ z ∧ (z : ℤ) < h) := by
  unfold fill
  obtain ⟨a, b⟩ := p
  obtain ⟨h1, -, h2, -⟩ := hp
  simp only [Prod.mk.injEq] at *
  have e := slice_iff c.nz g h hg (by omega) (by omega) hh.le z
  split
  · next hc =>
    obtain ⟨c1, c2, c3, c4⟩ := hc
    have := e.mp c4
    simp only [true_iff]
    exact Or.inr ⟨⟨by omega, by omega⟩, this⟩
  · next hc =>
    constructor
    · exact Or.inl
    · rintro (h | ⟨⟨e1, e2⟩, h3⟩)
      · exact h
      · exact absurd ⟨by omega, by omega, by omega, e.mpr h3⟩ hc

theorem free_of_fill {c : Cfg} {g h : ℤ} {m : Map} {p q : ℤ × ℤ} (hf : free c (fill c g h m p) q = true) : free c m q = true := by
  rw [free_iff] at *
  intro z hz
  have := hf z hz
  unfold fill at this
  split at this
  · simp at this
  · exact this

theorem not_free_fill {c : Cfg} {g h : ℤ} (hg : 0 ≤ g) (hgh : g < h) (hh : h < c.nz) {m : Map} {p : ℤ × ℤ} (hp : InGrid c p) : ¬ free c (fill c g h m p) p = true := by
  rw [free_iff]
  intro hf
  have := hf g.toNat (by omega)
  have h2 := (fill_iff hg hgh hh (m := m) hp g.toNat p.1.toNat p.2.toNat).mpr (Or.inr ⟨by
    obtain ⟨h1, -, h2, -⟩ := hp
    ext <;> simp <;> omega, by omega, by omega⟩)
  rw [this] at h2
  exact absurd h2 (by simp)

theorem moved_neighbours (mv : Move) (p : ℤ × ℤ) : Neighbours p (moved mv p) := by
  obtain ⟨a, b⟩ := p
  cases mv <;> simp [Neighbours, moved]

/-- what one wall adds -/
theorem walk_run {c : Cfg} {g h : ℤ} (hg : 0 ≤ g) (hgh : g < h) (hh : h < c.nz) : ∀ (n : Nat) (m : Map) (w : Walk) (steps : Nat → Step) (m' : Map),
    InGrid c w.pos → walk c g h n m w steps = some m' →
    ∃ ps, IsRun c.nx c.ny ps ∧ (∀ p ∈ ps, free c m p = true) ∧ (free c m w.pos = true → ps.head? = some w.pos) ∧
      (free c m w.pos = false → ps = []) ∧
      (∀ z x y, m' z x y = true ↔ m z x y = true ∨ (((x : ℤ), (y : ℤ)) ∈ ps ∧ g ≤ (z : ℤ) ∧ (z : ℤ) < h)) ∧
      (c.minLength ≤ w.length + ps.length ∨ ∃ q, ((ps = [] ∧ q = w.pos) ∨ ∃ l, ps.getLast? = some l ∧ Neighbours l q) ∧ (¬ InGrid c q ∨ free c m' q = false)) ∧
      (free c m w.pos = true → w.length + 1 < c.minLength → Real.exp (-c.turnK / ↑(w.since + 1)) ≤ (steps 0).turn → InGrid c (moved w.move w.pos) →
        free c m (moved w.move w.pos) = true → ps.take 2 = [w.pos, moved w.move w.pos])
  | 0, _, _, _, _, _, h => by simp [walk] at h
  | n + 1, m, w, steps, m', hp, hw => by
    unfold walk at hw
    split at hw
    · next hf =>
      have single : IsRun c.nx c.ny [w.pos] := ⟨.singleton _, by intro p h; rw [List.mem_singleton] at h; subst h; exact hp, by simp⟩
      have hfree : ∀ p ∈ [w.pos], free c m p = true := by intro p h; rw [List.mem_singleton] at h; subst h; exact hf
      have hvox : ∀ z x y, fill c g h m w.pos z x y = true ↔ m z x y = true ∨ (((x : ℤ), (y : ℤ)) ∈ [w.pos] ∧ g ≤ (z : ℤ) ∧ (z : ℤ) < h) := by
        intro z x y
        rw [fill_iff hg hgh hh hp, List.mem_singleton]
      dsimp only at hw
      split at hw
      · next hstop =>
        simp only [Option.some.injEq] at hw
        subst hw
        exact ⟨[w.pos], single, hfree, fun _ => rfl, by simp [hf], hvox, .inl (by simpa using hstop.1), fun _ h1 => absurd hstop.1 (by omega)⟩
      · generalize hq : (if (steps 0).turn < Real.exp (-c.turnK / ↑(w.since + 1)) then ((0 : ℤ), turned w.move (steps 0).dir) else (w.since + 1, w.move)) = q at hw
        have hq' : Real.exp (-c.turnK / ↑(w.since + 1)) ≤ (steps 0).turn → q.2 = w.move := by
          intro ht
          rw [← hq, if_neg (not_lt.mpr ht)]
        clear hq
        obtain ⟨since, mv⟩ := q
        dsimp only at hw hq'
        split at hw
        · next ho =>
          simp only [Option.some.injEq] at hw
          subst hw
          refine ⟨[w.pos], single, hfree, fun _ => rfl, by simp [hf], hvox, .inr ⟨moved mv w.pos, .inr ⟨w.pos, rfl, moved_neighbours _ _⟩, .inl fun hi => not_outside.mpr hi ho⟩, ?_⟩
          intro _ _ ht hin _
          rw [hq' ht] at ho
          exact absurd ho (not_outside.mpr hin)
        · next ho =>
          have ih := walk_run hg hgh hh n _ _ _ m' (not_outside.mp ho) hw
          obtain ⟨ps, hr, hfr, hhd, hnil, hv, hend, -⟩ := ih
          dsimp only at hhd hnil hend
          refine ⟨w.pos :: ps, ⟨?_, ?_, ?_⟩, ?_, fun _ => rfl, by simp [hf], ?_, ?_, ?_⟩
          · cases ps with
            | nil => exact .singleton _
            | cons q qs =>
              refine List.IsChain.cons_cons ?_ hr.adjacent
              by_cases hfq : free c (fill c g h m w.pos) (moved mv w.pos) = true
              · have e := hhd hfq
                simp only [List.head?_cons, Option.some.injEq] at e
                rw [e]
                exact moved_neighbours _ _
              · exact absurd (hnil (by simpa using hfq)) (by simp)
          · intro p hpm
            rcases List.mem_cons.mp hpm with rfl | h'
            · exact hp
            · exact hr.inside p h'
          · rw [List.nodup_cons]
            exact ⟨fun hm => not_free_fill hg hgh hh hp (hfr _ hm), hr.nodup⟩
          · intro p hpm
            rcases List.mem_cons.mp hpm with rfl | h'
            · exact hf
            · exact free_of_fill (hfr p h')
          · intro z x y
            rw [hv, hvox, List.mem_singleton, List.mem_cons, or_assoc, ← or_and_right]
          · rcases hend with h1 | ⟨q, h1, h2⟩
            · left; rw [List.length_cons]; push_cast; omega
            · refine .inr ⟨q, .inr ?_, h2⟩
              rcases h1 with ⟨rfl, rfl⟩ | ⟨l, hl, hn⟩
              · exact ⟨w.pos, rfl, moved_neighbours _ _⟩
              · exact ⟨l, by rw [List.getLast?_cons, hl]; rfl, hn⟩
          · intro _ _ ht hin hfree2
            rw [hq' ht] at hhd
            have hff : free c (fill c g h m w.pos) (moved w.move w.pos) = true := by
              rw [free_iff] at hfree2 ⊢
              intro z hz
              by_contra hcon
              rw [Bool.not_eq_false, fill_iff hg hgh hh hp] at hcon
              rcases hcon with hcon | ⟨hcon, -⟩
              · rw [hfree2 z hz] at hcon; simp at hcon
              · obtain ⟨i1, -, i2, -⟩ := hin
                have e : (((moved w.move w.pos).1.toNat : ℤ), ((moved w.move w.pos).2.toNat : ℤ)) = moved w.move w.pos := by
                  rw [Int.toNat_of_nonneg i1, Int.toNat_of_nonneg i2]
                rw [e] at hcon
                have := moved_neighbours w.move w.pos
                rw [hcon] at this
                simp [Neighbours] at this
            have := hhd hff
            cases ps with
            | nil => simp at this
            | cons a ps =>
              simp only [List.head?_cons, Option.some.injEq] at this
              simp [this]
    · next hf =>
      simp only [Option.some.injEq] at hw
      subst hw
      refine ⟨[], ⟨.nil, by simp, by simp⟩, by simp, fun h' => absurd h' hf, fun _ => rfl, by simp, .inr ⟨w.pos, .inl ⟨rfl, rfl⟩, .inr (by simpa using hf)⟩, fun h' => absurd h' hf⟩

/-- the number of columns that are free -/
def freeCount (c : Cfg) (m : Map) : Nat := ((Finset.range c.nx ×ˢ Finset.range c.ny).filter fun p => free c m ((p.1 : ℤ), (p.2 : ℤ)) = true).card

theorem freeCount_le (c : Cfg) (m : Map) : freeCount c m ≤ c.nx * c.ny := by
  unfold freeCount
  refine le_trans (Finset.card_filter_le _ _) ?_
  rw [Finset.card_product, Finset.card_range, Finset.card_range]

theorem freeCount_fill {c : Cfg} {g h : ℤ} (hg : 0 ≤ g) (hgh : g < h) (hh : h < c.nz) {m : Map} {p : ℤ × ℤ} (hp : InGrid c p) (hf : free c m p = true) :
    freeCount c (fill c g h m p) < freeCount c m := by
  unfold freeCount
  apply Finset.card_lt_card
  have e : (((p.1.toNat : Nat) : ℤ), ((p.2.toNat : Nat) : ℤ)) = p := by
    obtain ⟨h1, -, h2, -⟩ := hp
    ext <;> simp <;> omega
  constructor
  · intro q hq
    rw [Finset.mem_filter] at *
    exact ⟨hq.1, free_of_fill hq.2⟩
  · intro hsub
    have hmem : (p.1.toNat, p.2.toNat) ∈ (Finset.range c.nx ×ˢ Finset.range c.ny).filter fun p => free c m ((p.1 : ℤ), (p.2 : ℤ)) = true := by
      obtain ⟨h1, h2, h3, h4⟩ := hp
      rw [Finset.mem_filter, Finset.mem_product, Finset.mem_range, Finset.mem_range]
      refine ⟨⟨by dsimp only; omega, by dsimp only; omega⟩, ?_⟩
      dsimp only
      rw [e]
      exact hf
    have := (Finset.mem_filter.mp (hsub hmem)).2
    dsimp only at this
    rw [e] at this
    exact not_free_fill hg hgh hh hp this

/-- a wall ends after at most as many passes as there are columns -/
theorem walk_ends {c : Cfg} {g h : ℤ} (hg : 0 ≤ g) (hgh : g < h) (hh : h < c.nz) : ∀ (n : Nat) (m : Map) (w : Walk) (steps : Nat → Step),
    InGrid c w.pos → freeCount c m < n → ∃ m', walk c g h n m w steps = some m'
  | 0, _, _, _, _, h => by omega
  | n + 1, m, w, steps, hp, hn => by
    unfold walk
    split
    · next hf =>
      dsimp only
      split
      · exact ⟨_, rfl⟩
      · generalize (if (steps 0).turn < Real.exp (-c.turnK / ↑(w.since + 1)) then ((0 : ℤ), turned w.move (steps 0).dir) else (w.since + 1, w.move)) = q
        obtain ⟨since, mv⟩ := q
        dsimp only
        split
        · exact ⟨_, rfl⟩
        · next ho =>
          have := freeCount_fill hg hgh hh hp hf
          exact walk_ends hg hgh hh n _ _ _ (not_outside.mp ho) (by omega)
    · exact ⟨_, rfl⟩

/-- a wall may start towards exactly the neighbouring columns inside the grid -/
theorem startMoves_iff {c : Cfg} (hx : 2 ≤ c.nx) (hy : 2 ≤ c.ny) {x y : ℤ} (hp : InGrid c (x, y)) (mv : Move) :
    mv ∈ startMoves c x y ↔ InGrid c (moved mv (x, y)) := by
  obtain ⟨h1, h2, h3, h4⟩ := hp
  simp only at h1 h2 h3 h4
  have hx0 : x = 0 ∨ x ≠ 0 ∧ x = c.nx - 1 ∨ (x ≠ 0 ∧ x ≠ c.nx - 1) := by omega
  have hy0 : y = 0 ∨ y ≠ 0 ∧ y = c.ny - 1 ∨ (y ≠ 0 ∧ y ≠ c.ny - 1) := by omega
  unfold startMoves
  rcases hx0 with hx0 | ⟨hx0, hx1⟩ | ⟨hx0, hx1⟩ <;> rcases hy0 with hy0 | ⟨hy0, hy1⟩ | ⟨hy0, hy1⟩ <;>
    simp only [hx0, hy0, if_true, if_false] <;> (try simp only [hx1, if_true, if_false]) <;> (try simp only [hy1, if_true, if_false]) <;>
    cases mv <;> simp [InGrid, moved] <;> first | omega | decide

theorem choose_mem {ms : List Move} (h : ms ≠ []) (u : Nat) : choose ms u ∈ ms := by
  have hl : 0 < ms.length := List.length_pos_iff.mpr h
  have := Nat.mod_lt u hl
  unfold choose
  rw [List.getD_eq_getElem?_getD, List.getElem?_eq_getElem this]
  exact List.getElem_mem _

theorem choose_onto {ms : List Move} {mv : Move} (h : mv ∈ ms) : ∃ u, choose ms u = mv := by
  obtain ⟨i, hi, e⟩ := List.getElem_of_mem h
  refine ⟨i, ?_⟩
  unfold choose
  rw [Nat.mod_eq_of_lt hi, List.getD_eq_getElem?_getD, List.getElem?_eq_getElem hi, e]; rfl

theorem randint_ok {lo hi : ℤ} {u : Nat} {r : ℤ} (h : randint lo hi u = .ok r) : lo ≤ r ∧ r < hi := by
  unfold randint at h
  split at h
  · simp at h
  · next hh =>
    simp only [Except.ok.injEq] at h
    have h1 := Int.emod_nonneg u (by omega : hi - lo ≠ 0)
    have h2 := Int.emod_lt_of_pos u (by omega : 0 < hi - lo)
    omega

theorem randint_of_lt {lo hi : ℤ} (u : Nat) (h : lo < hi) : ∃ r, randint lo hi u = .ok r := by
  unfold randint
  rw [if_neg (by omega)]
  exact ⟨_, rfl⟩

/-- a draw can give every number of the range -/
theorem randint_onto {lo hi r : ℤ} (h1 : lo ≤ r) (h2 : r < hi) : randint lo hi (r - lo).toNat = .ok r := by
  unfold randint
  rw [if_neg (by omega)]
  have : (((r - lo).toNat : ℤ)) % (hi - lo) = r - lo := by
    rw [Int.toNat_of_nonneg (by omega)]
    exact Int.emod_eq_of_lt (by omega) (by omega)
  rw [this]
  congr 1
  omega

end SmallWalls

end Tomopt
