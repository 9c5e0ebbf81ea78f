import Verif.Lemmas.SmallWalls

/- C88: layouts of small walls. -/
namespace Tomopt

open Spec SmallWalls Real

noncomputable section

namespace C88

/-- one more wall on a layout -/
theorem wall_layout {c : Cfg} (hm : 1 ≤ c.minHeight) {ground : ℤ} {ws : List Wall} {m m' : Map} {fuel : Nat} {d : WallDraw}
    (hl : IsLayout c.nz c.nx c.ny c.minHeight ground ws m) (h : SmallWalls.wall c ground fuel m d = .ok (some m')) :
    ∃ w, IsLayout c.nz c.nx c.ny c.minHeight ground (ws ++ [w]) m' ∧ (ws = [] → w.run ≠ []) ∧
      (c.minLength ≤ w.run.length ∨ Blocked c.nx c.ny (ws ++ [w]) w.run) := by
  unfold SmallWalls.wall at h
  obtain ⟨ht, eh⟩ | eh := (em (∃ r, randint (ground + c.minHeight) c.nz d.height = .ok r))
  swap
  · cases he : randint (ground + c.minHeight) c.nz d.height with
    | ok r => exact absurd ⟨r, he⟩ eh
    | error e => simp [he, bind, Except.bind] at h
  cases ex : randint 0 c.nx d.x with
  | error e => simp [eh, ex, bind, Except.bind] at h
  | ok x =>
    cases ey : randint 0 c.ny d.y with
    | error e => simp [eh, ex, ey, bind, Except.bind] at h
    | ok y =>
      simp only [eh, ex, ey, bind, Except.bind, Except.ok.injEq] at h
      have bh := randint_ok eh
      have bx := randint_ok ex
      have bdy := randint_ok ey
      have hg := hl.ground_nonneg
      obtain ⟨ps, hr, hfr, hhd, -, hv, hend, -⟩ := walk_run hg (by omega) bh.2 _ _ _ _ _ (show InGrid c (x, y) from ⟨bx.1, bx.2, bdy.1, bdy.2⟩) h
      have hvoxels : ∀ z x y, m' z x y = true ↔ ∃ w ∈ ws ++ [⟨ps, ht⟩], ((x : ℤ), (y : ℤ)) ∈ w.run ∧ ground ≤ (z : ℤ) ∧ (z : ℤ) < w.height := by
        intro z x y
        rw [hv, hl.voxels]
        simp only [List.mem_append, List.mem_singleton]
        constructor
        · rintro (⟨w, h1, h2⟩ | h2)
          · exact ⟨w, Or.inl h1, h2⟩
          · exact ⟨_, Or.inr rfl, h2⟩
        · rintro ⟨w, h1 | h1, h2⟩
          · exact Or.inl ⟨w, h1, h2⟩
          · subst h1; exact Or.inr h2
      refine ⟨⟨ps, ht⟩, ⟨hg, ?_, ?_, ?_, hvoxels⟩, ?_, ?_⟩
      · intro w hw
        rcases List.mem_append.mp hw with h' | h'
        · exact hl.runs w h'
        · rw [List.mem_singleton] at h'; subst h'; exact hr
      · intro w hw
        rcases List.mem_append.mp hw with h' | h'
        · exact hl.heights w h'
        · rw [List.mem_singleton] at h'; subst h'; exact bh
      · rw [List.pairwise_append]
        refine ⟨hl.disjoint, by simp, ?_⟩
        intro a ha b hb p hp hpb
        rw [List.mem_singleton] at hb
        subst hb
        have hf := free_iff.mp (hfr p hpb) ground.toNat (by have := hl.heights a ha; omega)
        have hin := (hl.runs a ha).inside p hp
        have := (hl.voxels ground.toNat p.1.toNat p.2.toNat).mpr ⟨a, ha, by
          have e : (((p.1.toNat : Nat) : ℤ), ((p.2.toNat : Nat) : ℤ)) = p := by ext <;> simp <;> omega
          rw [e]; exact hp, by omega, by have := hl.heights a ha; omega⟩
        rw [hf] at this
        exact absurd this (by simp)
      · intro hws
        subst hws
        have hf : free c m (x, y) = true := by
          rw [free_iff]
          intro z _
          by_contra hb
          obtain ⟨w, hw, -⟩ := (hl.voxels _ _ _).mp (by simpa using hb)
          simp at hw
        have := hhd hf
        intro hp
        have hp' : ps = [] := hp
        rw [hp'] at this
        simp at this
      · rcases hend with h1 | ⟨q, h1, h2⟩
        · exact .inl (by simpa using h1)
        · refine .inr ⟨q, h1.imp And.left id, ?_⟩
          by_cases hq : InGrid c q
          · right
            have h3 := h2.resolve_left (not_not.mpr hq)
            obtain ⟨z, -, hz⟩ : ∃ z, z < c.nz ∧ m' z q.1.toNat q.2.toNat = true := by
              by_contra hcon
              push Not at hcon
              rw [free_iff.mpr fun z hz => by simpa using hcon z hz] at h3
              simp at h3
            obtain ⟨w, hw, hqw, -⟩ := (hvoxels _ _ _).mp hz
            rw [Int.toNat_of_nonneg hq.1, Int.toNat_of_nonneg hq.2.2.1] at hqw
            exact ⟨w, hw, hqw⟩
          · exact .inl hq

theorem _root_.Tomopt.Spec.Blocked.mono {nx ny : Nat} {ws ws' : List Wall} {run : List (ℤ × ℤ)} (h : Blocked nx ny ws run) (hs : ∀ w ∈ ws, w ∈ ws') : Blocked nx ny ws' run := by
  obtain ⟨q, h1, h2⟩ := h
  exact ⟨q, h1, h2.imp_right fun ⟨w, hw, hq⟩ => ⟨w, hs w hw, hq⟩⟩

theorem walls_layout {c : Cfg} (hm : 1 ≤ c.minHeight) {ground : ℤ} {fuel : Nat} : ∀ (ds : List WallDraw) (ws : List Wall) (m m' : Map),
    IsLayout c.nz c.nx c.ny c.minHeight ground ws m → walls c ground fuel m ds = .ok (some m') →
    ∃ ws', IsLayout c.nz c.nx c.ny c.minHeight ground (ws ++ ws') m' ∧ ws'.length = ds.length ∧ (ws = [] → ∀ w ∈ ws'.head?, w.run ≠ []) ∧
      ∀ w ∈ ws', c.minLength ≤ w.run.length ∨ Blocked c.nx c.ny (ws ++ ws') w.run
  | [], ws, m, m', hl, h => by
    simp only [walls, Except.ok.injEq, Option.some.injEq] at h
    subst h
    exact ⟨[], by simpa using hl, rfl, by simp, by simp⟩
  | d :: ds, ws, m, m', hl, h => by
    unfold walls at h
    split at h
    · simp at h
    · simp at h
    · next m1 h1 =>
      obtain ⟨w, hw, hne, hb⟩ := wall_layout hm hl h1
      obtain ⟨ws', hl', hlen, -, hbs⟩ := walls_layout hm ds _ _ _ hw h
      refine ⟨w :: ws', by simpa using hl', by simp [hlen], ?_, ?_⟩
      · intro hws w' hw'
        simp only [List.head?_cons, Option.mem_def, Option.some.injEq] at hw'
        subst hw'
        exact hne hws
      · intro w' hw'
        rcases List.mem_cons.mp hw' with rfl | hw'
        · exact hb.imp_right fun h => h.mono (by simp; tauto)
        · exact (hbs w' hw').imp_right fun h => h.mono (by simp)

/-- **C88, what holds: layout.** Whatever is drawn, the target is a layout of walls: as many runs of neighbouring columns as were asked for, on common ground in the lower half,
at least as high as required, inside the volume and below its top layer; the first one is not empty, and those shorter than required ran into the edge or a wall. Missing: the layout cannot be loaded, see `load_violated`;
too low volumes, see `accepts_iff`; walls may be shorter than required, see `short_violated`. -/
theorem layout_partial (c : Cfg) (hm : 1 ≤ c.minHeight) (fuel g : Nat) (ds : List WallDraw) (m : Map) (h : target c fuel g ds = .ok (some m)) :
    ∃ ground ws, IsLayout c.nz c.nx c.ny c.minHeight ground ws m ∧ ground < c.nz / 2 ∧ ws.length = ds.length ∧ (∀ w ∈ ws.head?, w.run ≠ []) ∧
      ∀ w ∈ ws, c.minLength ≤ w.run.length ∨ Blocked c.nx c.ny ws w.run := by
  unfold target at h
  cases eg : randint 0 (c.nz / 2) g with
  | error e => simp [eg, bind, Except.bind] at h
  | ok ground =>
    simp only [eg, bind, Except.bind] at h
    have bg := randint_ok eg
    obtain ⟨ws, h1, h2, h3, h4⟩ := walls_layout hm ds [] _ _ ⟨bg.1, by simp, by simp, by simp, by simp⟩ h
    exact ⟨ground, ws, by simpa using h1, bg.2, h2, h3 rfl, by simpa using h4⟩

/-- the result of one wall if the range of heights is not empty -/
theorem wall_ends {c : Cfg} (hm : 1 ≤ c.minHeight) (hx : 0 < c.nx) (hy : 0 < c.ny) {ground : ℤ} (hg : 0 ≤ ground) (hh : ground + c.minHeight < c.nz) {fuel : Nat}
    (hf : c.nx * c.ny < fuel) (m : Map) (d : WallDraw) : ∃ m', SmallWalls.wall c ground fuel m d = .ok (some m') := by
  obtain ⟨ht, eh⟩ := randint_of_lt d.height hh
  obtain ⟨x, ex⟩ := randint_of_lt (lo := 0) (hi := c.nx) d.x (by omega)
  obtain ⟨y, ey⟩ := randint_of_lt (lo := 0) (hi := c.ny) d.y (by omega)
  have bh := randint_ok eh
  have bx := randint_ok ex
  have bdy := randint_ok ey
  have hc := freeCount_le c m
  obtain ⟨m', h'⟩ := walk_ends hg (by omega) bh.2 fuel m ⟨(x, y), choose (startMoves c x y) d.move, 0, 0⟩ d.steps ⟨bx.1, bx.2, bdy.1, bdy.2⟩ (by omega)
  exact ⟨m', by unfold SmallWalls.wall; simp only [eh, ex, ey, bind, Except.bind, h']⟩

theorem walls_end {c : Cfg} (hm : 1 ≤ c.minHeight) (hx : 0 < c.nx) (hy : 0 < c.ny) {ground : ℤ} (hg : 0 ≤ ground) (hh : ground + c.minHeight < c.nz) {fuel : Nat}
    (hf : c.nx * c.ny < fuel) : ∀ (ds : List WallDraw) (m : Map), ∃ m', walls c ground fuel m ds = .ok (some m')
  | [], m => ⟨m, rfl⟩
  | d :: ds, m => by
    obtain ⟨m1, h1⟩ := wall_ends hm hx hy hg hh hf m d
    obtain ⟨m2, h2⟩ := walls_end hm hx hy hg hh hf ds m1
    exact ⟨m2, by unfold walls; rw [h1]; exact h2⟩

/-- **C88: end.** In a volume that is high enough the generation ends without an error, whatever is drawn: no wall takes more passes than there are columns. -/
theorem ends (c : Cfg) (hm : 1 ≤ c.minHeight) (hx : 0 < c.nx) (hy : 0 < c.ny) (h2 : 2 ≤ c.nz) (hh : c.nz / 2 + c.minHeight ≤ c.nz) (g : Nat) (ds : List WallDraw) :
    ∃ m, target c (c.nx * c.ny + 1) g ds = .ok (some m) := by
  obtain ⟨ground, eg⟩ := randint_of_lt (lo := 0) (hi := (c.nz : ℤ) / 2) g (by omega)
  have bg := randint_ok eg
  obtain ⟨m, h⟩ := walls_end hm hx hy bg.1 (by omega) (Nat.lt_succ_self _) ds fun _ _ _ => false
  exact ⟨m, by unfold target; simp only [eg, bind, Except.bind, h]⟩

/-- **C88 (violated): low volumes.** The generation never raises exactly if there are at least two layers and the highest ground leaves room for the lowest wall;
otherwise some draws raise a ValueError, for any number of passes. -/
theorem accepts_iff (c : Cfg) (hx : 0 < c.nx) (hy : 0 < c.ny) (d0 : WallDraw) :
    (∀ fuel g d, ∃ r, target c fuel g [d] = .ok r) ↔ 2 ≤ c.nz ∧ c.nz / 2 + c.minHeight ≤ c.nz := by
  constructor
  · intro h
    by_contra hn
    by_cases h2 : 2 ≤ c.nz
    · obtain ⟨r, hr⟩ := h 0 (c.nz / 2 - 1) d0
      unfold target at hr
      have eg := randint_onto (lo := 0) (hi := (c.nz : ℤ) / 2) (r := (c.nz : ℤ) / 2 - 1) (by omega) (by omega)
      rw [show ((c.nz : ℤ) / 2 - 1 - 0).toNat = c.nz / 2 - 1 from by omega] at eg
      simp only [eg, bind, Except.bind, walls, SmallWalls.wall] at hr
      rw [show randint ((c.nz : ℤ) / 2 - 1 + c.minHeight) c.nz d0.height = .error .valueError from by unfold randint; rw [if_pos (by omega)]] at hr
      simp at hr
    · obtain ⟨r, hr⟩ := h 0 0 d0
      unfold target at hr
      rw [show randint 0 ((c.nz : ℤ) / 2) 0 = .error .valueError from by unfold randint; rw [if_pos (by omega)]] at hr
      simp [bind, Except.bind] at hr
  · rintro ⟨h2, hh⟩ fuel g d
    obtain ⟨ground, eg⟩ := randint_of_lt (lo := 0) (hi := (c.nz : ℤ) / 2) g (by omega)
    have bg := randint_ok eg
    obtain ⟨ht, eh⟩ := randint_of_lt (lo := ground + c.minHeight) (hi := c.nz) d.height (by omega)
    obtain ⟨x, ex⟩ := randint_of_lt (lo := 0) (hi := c.nx) d.x (by omega)
    obtain ⟨y, ey⟩ := randint_of_lt (lo := 0) (hi := c.ny) d.y (by omega)
    unfold target
    simp only [eg, bind, Except.bind, walls, SmallWalls.wall, eh, ex, ey]
    split
    · next he => simp at he
    · exact ⟨_, rfl⟩
    · exact ⟨_, rfl⟩

/-- a single wall -/
theorem one_wall {c : Cfg} (hm : 1 ≤ c.minHeight) {fuel g : Nat} {d : WallDraw} {m : Map} (h : target c fuel g [d] = .ok (some m)) :
    ∃ ground ht x y ps, randint 0 c.nx d.x = .ok x ∧ randint 0 c.ny d.y = .ok y ∧ InGrid c (x, y) ∧ IsLayout c.nz c.nx c.ny c.minHeight ground [⟨ps, ht⟩] m ∧
      (1 < c.minLength → exp (-c.turnK) ≤ (d.steps 0).turn → InGrid c (moved (choose (startMoves c x y) d.move) (x, y)) →
        ps.take 2 = [(x, y), moved (choose (startMoves c x y) d.move) (x, y)]) := by
  unfold target at h
  cases eg : randint 0 (c.nz / 2) g with
  | error e => simp [eg, bind, Except.bind] at h
  | ok ground =>
    simp only [eg, bind, Except.bind, walls, SmallWalls.wall] at h
    have bg := randint_ok eg
    cases eh : randint (ground + c.minHeight) c.nz d.height with
    | error e => simp [eh] at h
    | ok ht =>
      cases ex : randint 0 c.nx d.x with
      | error e => simp [eh, ex] at h
      | ok x =>
        cases ey : randint 0 c.ny d.y with
        | error e => simp [eh, ex, ey] at h
        | ok y =>
          simp only [eh, ex, ey] at h
          have bh := randint_ok eh
          have bx := randint_ok ex
          have bdy := randint_ok ey
          have hin : InGrid c (x, y) := ⟨bx.1, bx.2, bdy.1, bdy.2⟩
          cases hw : walk c ground ht fuel (fun _ _ _ => false) ⟨(x, y), choose (startMoves c x y) d.move, 0, 0⟩ d.steps with
          | none => simp [hw] at h
          | some m1 =>
            simp only [hw, Except.ok.injEq, Option.some.injEq] at h
            subst h
            obtain ⟨ps, hr, -, -, -, hv, -, htwo⟩ := walk_run bg.1 (by omega) bh.2 _ _ _ _ _ (show InGrid c (x, y) from hin) hw
            refine ⟨ground, ht, x, y, ps, rfl, rfl, hin, ⟨bg.1, by simpa using hr, by simpa using bh, by simp, by simpa using hv⟩, ?_⟩
            intro h1 h2 h3
            exact htwo (by simp [free_iff]) (by simpa using h1) (by simpa using h2) h3 (by simp [free_iff])

/-- **C88: start.** A wall starts into the volume: if it does not turn at once, it has a second column, unless the grid is only one column wide. -/
theorem start_inside (c : Cfg) (hm : 1 ≤ c.minHeight) (hl : 2 ≤ c.minLength) (hx : 2 ≤ c.nx) (hy : 2 ≤ c.ny) (fuel g : Nat) (d : WallDraw) (m : Map)
    (h : target c fuel g [d] = .ok (some m)) (ht : exp (-c.turnK) ≤ (d.steps 0).turn) :
    ∃ ground w, IsLayout c.nz c.nx c.ny c.minHeight ground [w] m ∧ 2 ≤ w.run.length := by
  obtain ⟨ground, ht', x, y, ps, -, -, hin, hlay, htwo⟩ := one_wall hm h
  have hne : startMoves c x y ≠ [] := by
    have h1 := (startMoves_iff hx hy hin .right)
    have h2 := (startMoves_iff hx hy hin .left)
    intro h0
    rw [h0] at h1 h2
    obtain ⟨i1, i2, i3, i4⟩ := hin
    simp [InGrid, moved] at h1 h2 i1 i2 i3 i4
    omega
  have := htwo (by omega) ht ((startMoves_iff hx hy hin _).mp (choose_mem hne _))
  refine ⟨ground, _, hlay, ?_⟩
  have hlen := congrArg List.length this
  simp only [List.length_take, List.length_cons, List.length_nil] at hlen
  show 2 ≤ ps.length
  omega

/-- **C88: every start is possible.** For any two neighbouring columns of the grid there are draws for which the wall begins with them. -/
theorem start_any (c : Cfg) (hm : 1 ≤ c.minHeight) (hl : 2 ≤ c.minLength) (hx : 2 ≤ c.nx) (hy : 2 ≤ c.ny) (h2 : 2 ≤ c.nz) (hh : c.nz / 2 + c.minHeight ≤ c.nz)
    (p q : ℤ × ℤ) (hp : 0 ≤ p.1 ∧ p.1 < c.nx ∧ 0 ≤ p.2 ∧ p.2 < c.ny) (hq : 0 ≤ q.1 ∧ q.1 < c.nx ∧ 0 ≤ q.2 ∧ q.2 < c.ny) (hn : Neighbours p q) :
    ∃ d m ground w, target c (c.nx * c.ny + 1) 0 [d] = .ok (some m) ∧ IsLayout c.nz c.nx c.ny c.minHeight ground [w] m ∧ w.run.take 2 = [p, q] := by
  obtain ⟨mv, hmv⟩ : ∃ mv, moved mv p = q := by
    obtain ⟨a, b⟩ := p
    obtain ⟨a', b'⟩ := q
    simp only [Neighbours] at hn
    rcases hn with ⟨h1, h3⟩ | ⟨h1, h3⟩ <;> rcases (abs_eq (by norm_num)).mp h3 with h4 | h4
    · exact ⟨.down, by simp [moved]; omega⟩
    · exact ⟨.up, by simp [moved]; omega⟩
    · exact ⟨.left, by simp [moved]; omega⟩
    · exact ⟨.right, by simp [moved]; omega⟩
  obtain ⟨u, hu⟩ := choose_onto ((startMoves_iff (c := c) hx hy (x := p.1) (y := p.2) hp mv).mpr (by rw [show moved mv (p.1, p.2) = q from hmv]; exact hq))
  set d : WallDraw := ⟨0, (p.1 - 0).toNat, (p.2 - 0).toNat, u, fun _ => ⟨0, exp (-c.turnK), false⟩⟩ with hd
  obtain ⟨m, h⟩ := ends c hm (by omega) (by omega) h2 hh 0 [d]
  obtain ⟨ground, ht', x, y, ps, ex, ey, hin, hlay, htwo⟩ := one_wall hm h
  have e1 : randint 0 c.nx (p.1 - 0).toNat = .ok p.1 := randint_onto hp.1 hp.2.1
  have e2 : randint 0 c.ny (p.2 - 0).toNat = .ok p.2 := randint_onto hp.2.2.1 hp.2.2.2
  simp only [hd] at ex ey
  rw [e1] at ex
  rw [e2] at ey
  simp only [Except.ok.injEq] at ex ey
  subst ex
  subst ey
  have hu' : choose (startMoves c p.1 p.2) d.move = mv := hu
  rw [hu', show moved mv (p.1, p.2) = q from hmv] at htwo
  exact ⟨d, m, ground, _, h, hlay, htwo (by omega) le_rfl hq⟩

/-- the draws of a wall that runs straight on for `n` columns -/
def run (c : Cfg) (n : Nat) (i : Nat) : Step := ⟨if i + 1 < n then exp (-c.stopK / ((i + 1 : ℤ) : ℝ)) else 0, exp (-c.turnK / ((i + 1 : ℤ) : ℝ)), true⟩

theorem walk_straight {c : Cfg} {g h : ℤ} (hg : 0 ≤ g) (hgh : g < h) (hh : h < c.nz) (hy : 0 < c.ny) (n : Nat) (hn : c.minLength ≤ n) (hx : n ≤ c.nx) :
    ∀ (k i fuel : Nat) (m : Map), i + k + 1 = n → k < fuel → (∀ z (x : Nat), i ≤ x → m z x 0 = false) →
    ∃ m', walk c g h fuel m ⟨((i : ℤ), 0), .right, i, i⟩ (fun j => run c n (i + j)) = some m' ∧
      ∀ z x y, m' z x y = true ↔ m z x y = true ∨ (i ≤ x ∧ x < n ∧ y = 0 ∧ g ≤ (z : ℤ) ∧ (z : ℤ) < h)
  | k, i, 0, m, _, hf, _ => by omega
  | k, i, fuel + 1, m, hk, hf, hm => by
    have hin : InGrid c ((i : ℤ), 0) := ⟨by simp, by simp; omega, by simp, by simpa using hy⟩
    have hfree : free c m ((i : ℤ), 0) = true := free_iff.mpr fun z _ => by simpa using hm z i le_rfl
    have hfill : ∀ z x y, fill c g h m ((i : ℤ), 0) z x y = true ↔ m z x y = true ∨ (x = i ∧ y = 0 ∧ g ≤ (z : ℤ) ∧ (z : ℤ) < h) := by
      intro z x y
      rw [fill_iff hg hgh hh hin]
      simp [and_assoc]
    unfold walk
    simp only [hfree, if_true, Nat.add_zero]
    cases k with
    | zero =>
      rw [if_pos ⟨by omega, by simp only [run]; rw [if_neg (by omega)]; exact exp_pos _⟩]
      refine ⟨_, rfl, fun z x y => ?_⟩
      rw [hfill]
      constructor
      · rintro (h1 | ⟨h1, h2⟩)
        · exact .inl h1
        · exact .inr ⟨by omega, by omega, h2⟩
      · rintro (h1 | ⟨h1, h2, h3⟩)
        · exact .inl h1
        · exact .inr ⟨by omega, h3⟩
    | succ k =>
      have e1 : ¬ (run c n i).stop < exp (-c.stopK / (((i : ℤ) + 1 : ℤ) : ℝ)) := by
        simp only [run]
        rw [if_pos (by omega)]
        exact lt_irrefl _
      have e2 : ¬ (run c n i).turn < exp (-c.turnK / (((i : ℤ) + 1 : ℤ) : ℝ)) := by
        simp only [run]
        exact lt_irrefl _
      rw [if_neg fun hc => e1 hc.2, if_neg e2]
      have hno : ¬ outside c (moved .right ((i : ℤ), 0)) := by unfold outside; simp [moved]; omega
      dsimp only
      rw [if_neg hno]
      obtain ⟨m', h1, h2⟩ := walk_straight hg hgh hh hy n hn hx k (i + 1) fuel (fill c g h m ((i : ℤ), 0)) (by omega) (by omega) (by
        intro z x hx'
        by_contra hcon
        rw [Bool.not_eq_false, hfill] at hcon
        rcases hcon with hcon | ⟨hcon, -⟩
        · rw [hm z x (by omega)] at hcon; simp at hcon
        · omega)
      refine ⟨m', ?_, fun z x y => ?_⟩
      · rw [← h1]
        simp only [moved]
        push_cast
        congr 1
        funext j
        rw [Nat.add_right_comm, Nat.add_assoc]
      · rw [h2, hfill]
        constructor
        · rintro ((h3 | ⟨h3, h4⟩) | ⟨h3, h4⟩)
          · exact .inl h3
          · exact .inr ⟨by omega, by omega, h4⟩
          · exact .inr ⟨by omega, h4⟩
        · rintro (h3 | ⟨h3, h4, h5⟩)
          · exact .inl (.inl h3)
          · by_cases hi : x = i
            · exact .inl (.inr ⟨hi, h5⟩)
            · exact .inr ⟨by omega, h4, h5⟩

/-- **C88: length.** A wall can have any length from the minimum to the width of the grid: there are draws between 0 and 1 for which the only wall has exactly `n` columns. -/
theorem length_any (c : Cfg) (hs : 0 < c.stopK) (ht : 0 < c.turnK) (hm : 1 ≤ c.minHeight) (hx : 2 ≤ c.nx) (hy : 2 ≤ c.ny) (h2 : 2 ≤ c.nz) (hh : c.minHeight < c.nz)
    (n : Nat) (h1 : 1 ≤ n) (hl : c.minLength ≤ n) (hn : n ≤ c.nx) :
    ∃ d m, (∀ i, 0 ≤ (d.steps i).stop ∧ (d.steps i).stop < 1 ∧ 0 ≤ (d.steps i).turn ∧ (d.steps i).turn < 1) ∧ target c (c.nx * c.ny + 1) 0 [d] = .ok (some m) ∧
      ∀ z x y, m z x y = true ↔ x < n ∧ y = 0 ∧ (z : ℤ) < c.minHeight := by
  obtain ⟨u, hu⟩ := choose_onto ((startMoves_iff (c := c) hx hy (x := 0) (y := 0) ⟨by simp, by simp; omega, by simp, by simp; omega⟩ .right).mpr
    ⟨by simp [moved], by simp [moved]; omega, by simp [moved], by simp [moved]; omega⟩)
  obtain ⟨m, e, hv⟩ := walk_straight (c := c) (g := 0) (h := c.minHeight) le_rfl (by omega) hh (by omega) n hl hn (n - 1) 0 (c.nx * c.ny + 1) (fun _ _ _ => false) (by omega)
    (by have : c.nx ≤ c.nx * c.ny := Nat.le_mul_of_pos_right _ (by omega)
        omega) (by simp)
  refine ⟨⟨0, 0, 0, u, run c n⟩, m, ?_, ?_, ?_⟩
  · intro i
    have hi : (0 : ℝ) < ((i + 1 : ℤ) : ℝ) := by exact_mod_cast Nat.succ_pos i
    have lt1 : ∀ k : ℝ, 0 < k → exp (-k / ((i + 1 : ℤ) : ℝ)) < 1 := by
      intro k hk
      rw [exp_lt_one_iff]
      exact div_neg_of_neg_of_pos (by linarith) hi
    simp only [run]
    refine ⟨?_, ?_, (exp_pos _).le, lt1 _ ht⟩
    · split
      · exact (exp_pos _).le
      · exact le_rfl
    · split
      · exact lt1 _ hs
      · exact one_pos
  · have r1 : randint 0 ((c.nz : ℤ) / 2) 0 = .ok 0 := randint_onto (lo := 0) (r := 0) le_rfl (by omega)
    have r2 : randint (0 + c.minHeight) c.nz 0 = .ok c.minHeight := by
      have := randint_onto (lo := 0 + c.minHeight) (hi := c.nz) (r := c.minHeight) (by omega) (by omega)
      rwa [show (c.minHeight - (0 + c.minHeight)).toNat = 0 from by omega] at this
    have r3 : randint 0 (c.nx : ℤ) 0 = .ok 0 := randint_onto (lo := 0) (r := 0) le_rfl (by omega)
    have r4 : randint 0 (c.ny : ℤ) 0 = .ok 0 := randint_onto (lo := 0) (r := 0) le_rfl (by omega)
    unfold target
    simp only [r1, bind, Except.bind, walls, SmallWalls.wall, r2, r3, r4, hu]
    simp only [Nat.cast_zero, Nat.zero_add] at e
    rw [e]
  · intro z x y
    rw [hv]
    simp

/-- **C88 (violated): short walls.** Whatever minimal length is asked for, there are draws for which the only wall is a single column. -/
theorem short_violated (c : Cfg) (hm : 1 ≤ c.minHeight) (hl : 2 ≤ c.minLength) (hx : 0 < c.nx) (hy : 0 < c.ny) (h2 : 2 ≤ c.nz) (hh : c.minHeight < c.nz) :
    ∃ d m, target c (c.nx * c.ny + 1) 0 [d] = .ok (some m) ∧ ∀ z x y, m z x y = true ↔ x = 0 ∧ y = 0 ∧ (z : ℤ) < c.minHeight := by
  refine ⟨⟨0, 0, 0, 0, fun _ => ⟨0, 0, false⟩⟩, fill c 0 c.minHeight (fun _ _ _ => false) (0, 0), ?_, ?_⟩
  · have r1 : randint 0 ((c.nz : ℤ) / 2) 0 = .ok 0 := randint_onto (lo := 0) (r := 0) le_rfl (by omega)
    have r2 : randint (0 + c.minHeight) c.nz 0 = .ok c.minHeight := by
      have := randint_onto (lo := 0 + c.minHeight) (hi := c.nz) (r := c.minHeight) (by omega) (by omega)
      rwa [show (c.minHeight - (0 + c.minHeight)).toNat = 0 from by omega] at this
    have r3 : randint 0 (c.nx : ℤ) 0 = .ok 0 := randint_onto (lo := 0) (r := 0) le_rfl (by omega)
    have r4 : randint 0 (c.ny : ℤ) 0 = .ok 0 := randint_onto (lo := 0) (r := 0) le_rfl (by omega)
    have hmv : choose (startMoves c 0 0) 0 = .up := by simp [startMoves, choose]
    have hf : free c (fun _ _ _ => false) (0, 0) = true := by rw [free_iff]; intros; rfl
    unfold target
    simp only [r1, bind, Except.bind, walls, SmallWalls.wall, r2, r3, r4, hmv, walk, hf, if_true]
    rw [if_neg (by omega), if_pos (Real.exp_pos _)]
    dsimp only
    rw [if_pos (show outside c (moved (turned .up false) (0, 0)) from Or.inr (Or.inl (by decide)))]
  · intro z x y
    rw [fill_iff le_rfl (by omega) hh ⟨le_rfl, by dsimp only; omega, le_rfl, by dsimp only; omega⟩]
    simp only [Bool.false_eq_true, false_or, Prod.mk.injEq]
    omega

/-- **C88 (violated): loading.** The layout cannot be loaded into any volume with a passive layer: every call raises an AttributeError. -/
theorem load_violated (m : Map) (V : Volume) (L : PassiveLayer) (pre post : List AnyLayer) (hV : V.layers = pre ++ .passive L :: post)
    (hpre : ∀ l ∈ pre, ∃ D, l = .detector D) : V.load (layout m) = .error .attributeError := by
  have h : ∀ pre : List AnyLayer, (∀ l ∈ pre, ∃ D, l = AnyLayer.detector D) → Volume.loadLayers (layout m) (pre ++ .passive L :: post) = .error .attributeError := by
    intro pre
    induction pre with
    | nil => intro _; simp [Volume.loadLayers, PassiveLayer.load, layout]
    | cons a pre ih =>
      intro hp
      obtain ⟨D, rfl⟩ := hp a (by simp)
      simp only [List.cons_append, Volume.loadLayers]
      rw [ih fun l hl => hp l (List.mem_cons_of_mem _ hl)]
  unfold Volume.load
  rw [hV, h pre hpre]

/-! ### Examples -/

/-- the default volume: ten layers of ten by ten voxels -/
def demo : Cfg := ⟨10, 10, 10, 10, 5, 4, 4⟩

/-- draws of walls that run straight on -/
def straight (h x y : Nat) : WallDraw := ⟨h, x, y, 1, fun _ => ⟨1, 1, true⟩⟩

example : ∃ m ground ws, target demo 101 2 [straight 1 2 3, straight 0 5 5] = .ok (some m) ∧ IsLayout 10 10 10 4 ground ws m ∧ ws.length = 2 := by
  obtain ⟨m, h⟩ := ends demo (by decide) (by decide) (by decide) (by decide) (by decide) 2 [straight 1 2 3, straight 0 5 5]
  obtain ⟨g, ws, h1, -, h3, -⟩ := layout_partial demo (by decide) _ _ _ _ h
  exact ⟨m, g, ws, h, h1, h3⟩

/-- a wall of exactly the minimal length -/
example : ∃ d m, target demo 101 0 [d] = .ok (some m) ∧ ∀ z x y, m z x y = true ↔ x < 4 ∧ y = 0 ∧ z < 4 := by
  obtain ⟨d, m, -, h, hv⟩ := length_any demo (by norm_num [demo]) (by norm_num [demo]) (by decide) (by decide) (by decide) (by decide) (by decide) 4 (by decide) (by decide) (by decide)
  refine ⟨d, m, h, fun z x y => ?_⟩
  rw [hv]
  simp [demo]

/-- a wall that starts from the far edge -/
example : ∃ d m ground w, target demo 101 0 [d] = .ok (some m) ∧ IsLayout 10 10 10 4 ground [w] m ∧ w.run.take 2 = [(9, 5), (9, 6)] :=
  start_any demo (by decide) (by decide) (by decide) (by decide) (by decide) (by decide) (9, 5) (9, 6) (by decide) (by decide) (by simp [Neighbours])

/-- six layers are too low for walls of four -/
example : ∃ fuel g d, ¬ ∃ r, target ⟨6, 10, 10, 10, 5, 4, 4⟩ fuel g [d] = .ok r := by
  by_contra h
  push Not at h
  have := (accepts_iff ⟨6, 10, 10, 10, 5, 4, 4⟩ (by decide) (by decide) (straight 0 0 0)).mp (fun f g d => by
    obtain ⟨r, hr⟩ := h f g d
    exact ⟨r, hr⟩)
  exact absurd this (by decide)

example : ∃ d m, target demo 101 0 [d] = .ok (some m) ∧ ∀ z x y, m z x y = true ↔ x = 0 ∧ y = 0 ∧ (z : ℤ) < 4 :=
  short_violated demo (by decide) (by decide) (by decide) (by decide) (by decide) (by decide)

end C88

end

end Tomopt
