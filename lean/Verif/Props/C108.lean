import Verif.Props.C26
import Verif.Props.C27_31

/- C108: the reconstruction has no preferred origin, axis, handedness or unit of length. -/
namespace Tomopt

noncomputable section

open Real Scatter

namespace C108

/-- A change of coordinates: a turn about the vertical by `angle` after an optional mirroring of y (`hand = -1`), a change of the unit of length (`unit`), and a shift. -/
structure Motion where
  angle : ℝ
  hand : ℝ
  hand_or : hand = 1 ∨ hand = -1
  unit : ℝ
  unit_pos : 0 < unit
  shift : V3

namespace Motion

/-- what becomes of a difference of positions -/
def vec (m : Motion) (p : V3) : V3 :=
  (m.unit * (cos m.angle * p.1 - m.hand * sin m.angle * p.2.1), m.unit * (sin m.angle * p.1 + m.hand * cos m.angle * p.2.1), m.unit * p.2.2)

/-- what becomes of a position -/
def pt (m : Motion) (p : V3) : V3 := ((m.vec p).1 + m.shift.1, (m.vec p).2.1 + m.shift.2.1, (m.vec p).2.2 + m.shift.2.2)

/-- what becomes of a track -/
def track (m : Motion) (t : Track) : Track := (m.vec t.1, m.pt t.2)

end Motion

/-- A measured hit in the other coordinates. The uncertainties in x and y become each other's for turns by a quarter; other turns make sense only if they are equal. -/
def Moved (m : Motion) (h h' : C26.Meas) : Prop :=
  h'.1 = m.pt h.1 ∧
    ((h.2.1 = h.2.2 ∧ h'.2 = (m.unit * h.2.1, m.unit * h.2.2)) ∨ (sin m.angle = 0 ∧ h'.2 = (m.unit * h.2.1, m.unit * h.2.2)) ∨
      (cos m.angle = 0 ∧ h'.2 = (m.unit * h.2.2, m.unit * h.2.1)))

/-! ### The fit -/

/-- the weighted residuals of a line, and their moments, vanish -/
def Solves (l : List FitPt) (a b : ℝ) : Prop := (l.map fun h => h.w * (h.x - a - b * h.z)).sum = 0 ∧ (l.map fun h => h.w * h.z * (h.x - a - b * h.z)).sum = 0

theorem solves_iff (l : List FitPt) (a b : ℝ) : Solves l a b ↔ sx l = a * s0 l + b * sz l ∧ sxz l = a * sz l + b * szz l := by
  have e1 : (l.map fun h => h.w * (h.x - a - b * h.z)).sum = sx l - (a * s0 l + b * sz l) := by
    induction l with
    | nil => simp [sx, s0, sz]
    | cons p l ih =>
      simp only [sx, s0, sz, List.map_cons, List.sum_cons] at ih ⊢
      rw [ih]; ring
  have e2 : (l.map fun h => h.w * h.z * (h.x - a - b * h.z)).sum = sxz l - (a * sz l + b * szz l) := by
    induction l with
    | nil => simp [sxz, sz, szz]
    | cons p l ih =>
      simp only [sxz, szz, sz, List.map_cons, List.sum_cons] at ih ⊢
      rw [ih (by
        simp only [sx, s0, sz, List.map_cons, List.sum_cons] at e1 ⊢
        linarith)]
      ring
  rw [Solves, e1, e2, sub_eq_zero, sub_eq_zero]

theorem fit_iff (l : List FitPt) (hw : ∀ h ∈ l, 0 ≤ h.w) (h2 : C26.TwoHeights l) (a b : ℝ) : fitAxis l = some (a, b) ↔ Solves l a b := by
  obtain ⟨p, hp, q, hq, pw, qw, hz⟩ := h2
  obtain ⟨d0, d1, d2⟩ := det_pos hw p q hp hq pw qw hz
  obtain ⟨a', b', hab, n1, n2⟩ := fitAxis_normal d0.ne' d1.ne' d2.ne'
  rw [hab, solves_iff]
  constructor
  · intro h
    obtain ⟨rfl, rfl⟩ := Prod.mk.inj (Option.some.inj h)
    exact ⟨n1, n2⟩
  · rintro ⟨k1, k2⟩
    have hb : (b' - b) * (s0 l * szz l - sz l ^ 2) = 0 := by linear_combination s0 l * (k2 - n2) - sz l * (k1 - n1)
    have ha : (a' - a) * (s0 l * szz l - sz l ^ 2) = 0 := by linear_combination szz l * (k1 - n1) - sz l * (k2 - n2)
    rw [sub_eq_zero.mp ((mul_eq_zero.mp hb).resolve_right d2.ne'), sub_eq_zero.mp ((mul_eq_zero.mp ha).resolve_right d2.ne')]

/-- lines fitted to combinations of coordinates -/
theorem solves_move {ι : Type} (l : List ι) (x y z w : ι → ℝ) (ax bx ay bY α β τ k ζ κ : ℝ) (hk : k ≠ 0) (h1 : Solves (l.map fun i => ⟨x i, z i, w i⟩) ax bx)
    (h2 : Solves (l.map fun i => ⟨y i, z i, w i⟩) ay bY) :
    Solves (l.map fun i => ⟨α * x i + β * y i + τ, k * z i + ζ, κ * w i⟩) (α * ax + β * ay + τ - (α * bx + β * bY) / k * ζ) ((α * bx + β * bY) / k) := by
  unfold Solves at *
  simp only [List.map_map, Function.comp_def] at *
  have r : ∀ i, α * x i + β * y i + τ - (α * ax + β * ay + τ - (α * bx + β * bY) / k * ζ) - (α * bx + β * bY) / k * (k * z i + ζ) =
      α * (x i - ax - bx * z i) + β * (y i - ay - bY * z i) := by
    intro i
    field_simp
    ring
  have lin : ∀ (f g : ι → ℝ) (u v : ℝ), (l.map fun i => u * f i + v * g i).sum = u * (l.map f).sum + v * (l.map g).sum := by
    intro f g u v
    clear h1 h2
    induction l with
    | nil => simp
    | cons i l ih => simp only [List.map_cons, List.sum_cons, ih]; ring
  simp only [r]
  constructor
  · have := lin (fun i => w i * (x i - ax - bx * z i)) (fun i => w i * (y i - ay - bY * z i)) (κ * α) (κ * β)
    rw [h1.1, h2.1] at this
    refine Eq.trans ?_ (this.trans (by ring))
    congr 2
    funext i
    ring
  · have e1 := lin (fun i => w i * z i * (x i - ax - bx * z i)) (fun i => w i * z i * (y i - ay - bY * z i)) (κ * k * α) (κ * k * β)
    have e2 := lin (fun i => w i * (x i - ax - bx * z i)) (fun i => w i * (y i - ay - bY * z i)) (κ * ζ * α) (κ * ζ * β)
    rw [h1.1, h2.1] at e2
    rw [h1.2, h2.2] at e1
    have e3 := lin (fun i => κ * k * α * (w i * z i * (x i - ax - bx * z i)) + κ * k * β * (w i * z i * (y i - ay - bY * z i)))
      (fun i => κ * ζ * α * (w i * (x i - ax - bx * z i)) + κ * ζ * β * (w i * (y i - ay - bY * z i))) 1 1
    rw [e1, e2] at e3
    refine Eq.trans ?_ (e3.trans (by ring))
    congr 2
    funext i
    ring

/-- the parameters of a trajectory -/
theorem traj (lw : ℝ × ℝ) (m0 m1 : C26.Meas) (ms : List C26.Meas) (hu : ∀ m ∈ m0 :: m1 :: ms, 0 < m.2.1 ∧ 0 < m.2.2) (hz : m0.1.2.2 ≠ m1.1.2.2) (ax bx ay bY : ℝ)
    (hx : Solves (C26.xPts (m0 :: m1 :: ms)) ax bx) (hy : Solves (C26.yPts (m0 :: m1 :: ms)) ay bY) :
    trajectory lw (C26.rows (m0 :: m1 :: ms)) =
      .ok (some (((m1.1.2.2 - m0.1.2.2) * bx, (m1.1.2.2 - m0.1.2.2) * bY, m1.1.2.2 - m0.1.2.2), (ax + bx * m0.1.2.2, ay + bY * m0.1.2.2, m0.1.2.2))) := by
  obtain ⟨u0, v0⟩ := hu m0 (by simp)
  obtain ⟨u1, v1⟩ := hu m1 (by simp)
  have ex := (fit_iff (C26.xPts (m0 :: m1 :: ms)) (by
      intro h hh
      obtain ⟨m, _, rfl⟩ := List.mem_map.mp hh
      positivity)
    ⟨_, List.mem_cons_self, _, List.mem_cons_of_mem _ List.mem_cons_self, by simp only; positivity, by simp only; positivity, hz⟩ ax bx).mpr hx
  have ey := (fit_iff (C26.yPts (m0 :: m1 :: ms)) (by
      intro h hh
      obtain ⟨m, _, rfl⟩ := List.mem_map.mp hh
      positivity)
    ⟨_, List.mem_cons_self, _, List.mem_cons_of_mem _ List.mem_cons_self, by simp only; positivity, by simp only; positivity, hz⟩ ay bY).mpr hy
  have e1 := C26.axisPts_x lw (m0 :: m1 :: ms) (fun m hm => (hu m hm).1)
  have e2 := C26.axisPts_y lw (m0 :: m1 :: ms) (fun m hm => (hu m hm).2)
  have h0 : (C26.rows (m0 :: m1 :: ms))[0]? = some ((.num m0.1.1, .num m0.1.2.1, .num m0.1.2.2), (.num m0.2.1, .num m0.2.2, .num 0)) := rfl
  have h1 : (C26.rows (m0 :: m1 :: ms))[1]? = some ((.num m1.1.1, .num m1.1.2.1, .num m1.1.2.2), (.num m1.2.1, .num m1.2.2, .num 0)) := rfl
  simp only [trajectory, h0, h1, e1, e2, Option.bind_eq_bind, Option.bind_some, ex, ey, hitCoord, calcXYZ]
  congr 3
  · congr 1
    · ring
    · congr 1; ring

theorem traj_ex (m0 m1 : C26.Meas) (ms : List C26.Meas) (hu : ∀ m ∈ m0 :: m1 :: ms, 0 < m.2.1 ∧ 0 < m.2.2) (hz : m0.1.2.2 ≠ m1.1.2.2) :
    ∃ ax bx ay bY, Solves (C26.xPts (m0 :: m1 :: ms)) ax bx ∧ Solves (C26.yPts (m0 :: m1 :: ms)) ay bY := by
  obtain ⟨u0, v0⟩ := hu m0 (by simp)
  obtain ⟨u1, v1⟩ := hu m1 (by simp)
  have hx : ∀ h ∈ C26.xPts (m0 :: m1 :: ms), 0 ≤ h.w := by
    intro h hh
    obtain ⟨m, _, rfl⟩ := List.mem_map.mp hh
    positivity
  have hy : ∀ h ∈ C26.yPts (m0 :: m1 :: ms), 0 ≤ h.w := by
    intro h hh
    obtain ⟨m, _, rfl⟩ := List.mem_map.mp hh
    positivity
  have tx : C26.TwoHeights (C26.xPts (m0 :: m1 :: ms)) :=
    ⟨_, List.mem_cons_self, _, List.mem_cons_of_mem _ List.mem_cons_self, by simp only; positivity, by simp only; positivity, hz⟩
  have ty : C26.TwoHeights (C26.yPts (m0 :: m1 :: ms)) :=
    ⟨_, List.mem_cons_self, _, List.mem_cons_of_mem _ List.mem_cons_self, by simp only; positivity, by simp only; positivity, hz⟩
  obtain ⟨ax, bx, ex, -, -⟩ := C26.fit_minimises _ hx tx
  obtain ⟨ay, bY, ey, -, -⟩ := C26.fit_minimises _ hy ty
  exact ⟨ax, bx, ay, bY, (fit_iff _ hx tx _ _).mp ex, (fit_iff _ hy ty _ _).mp ey⟩

/-- uncertainties in the other coordinates, for all hits alike -/
theorem moved_uncs (m : Motion) (hs hs' : List C26.Meas) (h : List.Forall₂ (Moved m) hs hs') :
    (sin m.angle = 0 ∧ hs' = hs.map fun x => (m.pt x.1, m.unit * x.2.1, m.unit * x.2.2)) ∨
    (cos m.angle = 0 ∧ hs' = hs.map fun x => (m.pt x.1, m.unit * x.2.2, m.unit * x.2.1)) ∨
    ((∀ x ∈ hs, x.2.1 = x.2.2) ∧ hs' = hs.map fun x => (m.pt x.1, m.unit * x.2.1, m.unit * x.2.2)) := by
  have hsc : ¬ (sin m.angle = 0 ∧ cos m.angle = 0) := by
    rintro ⟨h1, h2⟩
    have := sin_sq_add_cos_sq m.angle
    rw [h1, h2] at this
    norm_num at this
  by_cases s0 : sin m.angle = 0
  · refine Or.inl ⟨s0, ?_⟩
    induction h with
    | nil => rfl
    | @cons x y _ _ hxy _ ih =>
      rw [List.map_cons, ← ih]
      congr 1
      obtain ⟨hp, h | h | h⟩ := hxy
      · exact Prod.ext hp h.2
      · exact Prod.ext hp h.2
      · exact absurd ⟨s0, h.1⟩ hsc
  · by_cases c0 : cos m.angle = 0
    · refine Or.inr (Or.inl ⟨c0, ?_⟩)
      induction h with
      | nil => rfl
      | @cons x y _ _ hxy _ ih =>
        rw [List.map_cons, ← ih]
        congr 1
        obtain ⟨hp, h | h | h⟩ := hxy
        · refine Prod.ext hp ?_
          rw [h.2, h.1]
        · exact absurd h.1 s0
        · exact Prod.ext hp h.2
    · refine Or.inr (Or.inr ?_)
      induction h with
      | nil => exact ⟨by simp, rfl⟩
      | @cons x y _ _ hxy _ ih =>
        obtain ⟨hp, h | h | h⟩ := hxy
        · refine ⟨?_, ?_⟩
          · intro z hz
            rcases List.mem_cons.mp hz with rfl | hz
            · exact h.1
            · exact ih.1 z hz
          · rw [List.map_cons, ← ih.2]
            congr 1
            exact Prod.ext hp h.2
        · exact absurd h.1 s0
        · exact absurd h.1 c0

/-- the fits in the other coordinates -/
theorem fits_moved (m : Motion) (hs hs' : List C26.Meas) (h : List.Forall₂ (Moved m) hs hs') (ax bx ay bY : ℝ)
    (hx : Solves (C26.xPts hs) ax bx) (hy : Solves (C26.yPts hs) ay bY) :
    let B := cos m.angle * bx - m.hand * sin m.angle * bY
    let C := sin m.angle * bx + m.hand * cos m.angle * bY
    Solves (C26.xPts hs') (m.unit * (cos m.angle * ax - m.hand * sin m.angle * ay) + m.shift.1 - B * m.shift.2.2) B ∧
    Solves (C26.yPts hs') (m.unit * (sin m.angle * ax + m.hand * cos m.angle * ay) + m.shift.2.1 - C * m.shift.2.2) C := by
  have hk := m.unit_pos.ne'
  have hw : ∀ u : ℝ, 1 / (m.unit * u) ^ 2 = 1 / m.unit ^ 2 * (1 / u ^ 2) := by
    intro u
    rw [mul_pow, one_div_mul_one_div]
  simp only
  have go : ∀ (x x' y z z' w w' : C26.Meas → ℝ) (ax bx ay bY α β τ A B : ℝ), Solves (hs.map fun i => ⟨x i, z i, w i⟩) ax bx → Solves (hs.map fun i => ⟨y i, z i, w i⟩) ay bY →
      (∀ i ∈ hs, x' i = m.unit * α * x i + m.unit * β * y i + τ) → (∀ i ∈ hs, z' i = m.unit * z i + m.shift.2.2) → (∀ i ∈ hs, w' i = 1 / m.unit ^ 2 * w i) →
      A = m.unit * (α * ax + β * ay) + τ - B * m.shift.2.2 → B = α * bx + β * bY → Solves (hs.map fun i => ⟨x' i, z' i, w' i⟩) A B := by
    intro x x' y z z' w w' ax bx ay bY α β τ A B h1 h2 ex ez ew hA hB
    have hm : (hs.map fun i => (⟨x' i, z' i, w' i⟩ : FitPt)) = hs.map fun i => ⟨m.unit * α * x i + m.unit * β * y i + τ, m.unit * z i + m.shift.2.2, 1 / m.unit ^ 2 * w i⟩ :=
      List.map_congr_left fun i hi => by rw [ex i hi, ez i hi, ew i hi]
    have eB : (m.unit * α * bx + m.unit * β * bY) / m.unit = B := by rw [hB]; field_simp
    have := solves_move hs x y z w ax bx ay bY (m.unit * α) (m.unit * β) τ m.unit m.shift.2.2 (1 / m.unit ^ 2) hk h1 h2
    rw [hm]
    rw [eB] at this
    have eA : A = m.unit * α * ax + m.unit * β * ay + τ - B * m.shift.2.2 := by rw [hA]; ring
    rw [eA]
    exact this
  rcases moved_uncs m hs hs' h with ⟨s0, rfl⟩ | ⟨c0, rfl⟩ | ⟨heq, rfl⟩
  · simp only [C26.xPts, C26.yPts, List.map_map, Function.comp_def]
    constructor
    · exact go (fun i => i.1.1) _ (fun i => i.1.1) (fun i => i.1.2.2) _ (fun i => 1 / i.2.1 ^ 2) _ ax bx ax bx (cos m.angle) 0 m.shift.1 _ _ hx hx
        (fun i _ => by simp only [Motion.pt, Motion.vec, s0]; ring) (fun i _ => rfl) (fun i _ => hw _) (by rw [s0]; ring) (by rw [s0]; ring)
    · exact go (fun i => i.1.2.1) _ (fun i => i.1.2.1) (fun i => i.1.2.2) _ (fun i => 1 / i.2.2 ^ 2) _ ay bY ay bY (m.hand * cos m.angle) 0 m.shift.2.1 _ _ hy hy
        (fun i _ => by simp only [Motion.pt, Motion.vec, s0]; ring) (fun i _ => rfl) (fun i _ => hw _) (by rw [s0]; ring) (by rw [s0]; ring)
  · simp only [C26.xPts, C26.yPts, List.map_map, Function.comp_def]
    constructor
    · exact go (fun i => i.1.2.1) _ (fun i => i.1.2.1) (fun i => i.1.2.2) _ (fun i => 1 / i.2.2 ^ 2) _ ay bY ay bY (-(m.hand * sin m.angle)) 0 m.shift.1 _ _ hy hy
        (fun i _ => by simp only [Motion.pt, Motion.vec, c0]; ring) (fun i _ => rfl) (fun i _ => hw _) (by rw [c0]; ring) (by rw [c0]; ring)
    · exact go (fun i => i.1.1) _ (fun i => i.1.1) (fun i => i.1.2.2) _ (fun i => 1 / i.2.1 ^ 2) _ ax bx ax bx (sin m.angle) 0 m.shift.2.1 _ _ hx hx
        (fun i _ => by simp only [Motion.pt, Motion.vec, c0]; ring) (fun i _ => rfl) (fun i _ => hw _) (by rw [c0]; ring) (by rw [c0]; ring)
  · have hxy : Solves (hs.map fun i => (⟨i.1.2.1, i.1.2.2, 1 / i.2.1 ^ 2⟩ : FitPt)) ay bY := by
      have : (hs.map fun i => (⟨i.1.2.1, i.1.2.2, 1 / i.2.1 ^ 2⟩ : FitPt)) = C26.yPts hs := List.map_congr_left fun i hi => by rw [heq i hi]
      rw [this]; exact hy
    simp only [C26.xPts, C26.yPts, List.map_map, Function.comp_def]
    constructor
    · exact go (fun i => i.1.1) _ (fun i => i.1.2.1) (fun i => i.1.2.2) _ (fun i => 1 / i.2.1 ^ 2) _ ax bx ay bY (cos m.angle) (-(m.hand * sin m.angle)) m.shift.1 _ _ hx hxy
        (fun i _ => by simp only [Motion.pt, Motion.vec]; ring) (fun i _ => rfl) (fun i _ => hw _) (by ring) (by ring)
    · exact go (fun i => i.1.1) _ (fun i => i.1.2.1) (fun i => i.1.2.2) _ (fun i => 1 / i.2.1 ^ 2) _ ax bx ay bY (sin m.angle) (m.hand * cos m.angle) m.shift.2.1 _ _ hx hxy
        (fun i _ => by simp only [Motion.pt, Motion.vec]; ring) (fun i _ => rfl) (fun i hi => by rw [heq i hi]; exact hw _) (by ring) (by ring)

/-- **C108: tracks.** For every set of two or more hits at different heights: if all hits and their uncertainties are expressed in other coordinates - shifted, turned about the vertical,
mirrored, in other units -, the fitted track is the same track in these coordinates. -/
theorem tracks (lw lw' : ℝ × ℝ) (m : Motion) (h0 h1 : C26.Meas) (hs hs' : List C26.Meas) (hu : ∀ x ∈ h0 :: h1 :: hs, 0 < x.2.1 ∧ 0 < x.2.2) (hz : h0.1.2.2 ≠ h1.1.2.2)
    (h : List.Forall₂ (Moved m) (h0 :: h1 :: hs) hs') :
    ∃ t, trajectory lw (C26.rows (h0 :: h1 :: hs)) = .ok (some t) ∧ trajectory lw' (C26.rows hs') = .ok (some (m.track t)) := by
  obtain ⟨ax, bx, ay, bY, hx, hy⟩ := traj_ex h0 h1 hs hu hz
  refine ⟨_, traj lw h0 h1 hs hu hz ax bx ay bY hx hy, ?_⟩
  obtain ⟨fx, fy⟩ := fits_moved m _ _ h ax bx ay bY hx hy
  have hp : ∀ x y, Moved m x y → 0 < x.2.1 → 0 < x.2.2 → 0 < y.2.1 ∧ 0 < y.2.2 := by
    rintro x y ⟨-, ⟨-, e⟩ | ⟨-, e⟩ | ⟨-, e⟩⟩ p q
    all_goals rw [e]; exact ⟨mul_pos m.unit_pos (by assumption), mul_pos m.unit_pos (by assumption)⟩
  have hu' : ∀ y ∈ hs', 0 < y.2.1 ∧ 0 < y.2.2 := by
    have : ∀ {l l' : List C26.Meas}, List.Forall₂ (Moved m) l l' → (∀ x ∈ l, 0 < x.2.1 ∧ 0 < x.2.2) → ∀ y ∈ l', 0 < y.2.1 ∧ 0 < y.2.2 := by
      intro l l' h
      induction h with
      | nil => simp
      | @cons x y _ _ hxy _ ih =>
        intro hu z hz
        rcases List.mem_cons.mp hz with rfl | hz
        · exact hp x _ hxy (hu x (by simp)).1 (hu x (by simp)).2
        · exact ih (fun x hx => hu x (by simp [hx])) z hz
    exact this h hu
  cases h with
  | @cons _ k0 _ ks e0 h =>
    cases h with
    | @cons _ k1 _ ks e1 h =>
      have z0 : k0.1.2.2 = m.unit * h0.1.2.2 + m.shift.2.2 := by rw [e0.1]; rfl
      have z1 : k1.1.2.2 = m.unit * h1.1.2.2 + m.shift.2.2 := by rw [e1.1]; rfl
      have hz' : k0.1.2.2 ≠ k1.1.2.2 := by
        rw [z0, z1]
        intro hc
        exact hz (mul_left_cancel₀ m.unit_pos.ne' (by linarith))
      rw [traj lw' k0 k1 ks hu' hz' _ _ _ _ fx fy, z0, z1]
      simp only [Motion.track, Motion.vec, Motion.pt]
      refine congrArg _ (congrArg _ (Prod.ext (Prod.ext ?_ (Prod.ext ?_ ?_)) (Prod.ext ?_ (Prod.ext ?_ ?_)))) <;> simp only <;> ring

/-! ### Angles and points of closest approach -/

section
variable (m : Motion)

theorem hand_sq : m.hand ^ 2 = 1 := by rcases m.hand_or with h | h <;> rw [h] <;> norm_num

theorem dot_vec (p q : V3) : vdot (m.vec p) (m.vec q) = m.unit ^ 2 * vdot p q := by
  have h1 := hand_sq m
  have h2 := sin_sq_add_cos_sq m.angle
  simp only [vdot, Motion.vec]
  linear_combination m.unit ^ 2 * (p.1 * q.1 + m.hand ^ 2 * (p.2.1 * q.2.1)) * h2 + m.unit ^ 2 * (p.2.1 * q.2.1) * h1

theorem norm_vec (p : V3) : vnorm (m.vec p) = m.unit * vnorm p := by
  rw [vnorm, dot_vec, sqrt_mul (sq_nonneg _), sqrt_sq m.unit_pos.le, vnorm]

theorem cross_vec (p q : V3) : vcross (m.vec p) (m.vec q) = scale3 (m.unit * m.hand) (m.vec (vcross p q)) := by
  have h1 := hand_sq m
  have h2 := sin_sq_add_cos_sq m.angle
  refine Prod.ext ?_ (Prod.ext ?_ ?_) <;> simp only [vcross, Motion.vec, scale3]
  · linear_combination m.unit ^ 2 * sin m.angle * (p.2.2 * q.1 - p.1 * q.2.2) * h1
  · linear_combination -(m.unit ^ 2 * cos m.angle * (p.2.2 * q.1 - p.1 * q.2.2)) * h1
  · linear_combination m.unit ^ 2 * m.hand * (p.1 * q.2.1 - p.2.1 * q.1) * h2

theorem det_vec (a b c : V3) : det3 (m.vec a) (m.vec b) (m.vec c) = m.unit ^ 3 * m.hand * det3 a b c := by
  unfold det3
  rw [cross_vec]
  have : ∀ (c : ℝ) (p q : V3), vdot p (scale3 c q) = c * vdot p q := by
    intro c p q
    simp only [vdot, scale3]
    ring
  rw [this, dot_vec]
  ring

theorem det_scale (a b c : V3) (k : ℝ) : det3 a b (scale3 k c) = k * det3 a b c := by
  simp only [det3, vdot, vcross, scale3]
  ring

theorem coefs_vec (tin tout : Track) (c : ℝ × ℝ × ℝ) (h : trackCoefs tin tout = some c) :
    trackCoefs (m.track tin) (m.track tout) = some (c.1, c.2.1, m.hand / m.unit * c.2.2) := by
  have hk := m.unit_pos.ne'
  have hh := hand_sq m
  have hh0 : m.hand ≠ 0 := by
    intro h0
    rw [h0] at hh
    norm_num at hh
  unfold trackCoefs at h ⊢
  simp only at h ⊢
  have e1 : (-(m.track tout).1.1, -(m.track tout).1.2.1, -(m.track tout).1.2.2) = m.vec (-tout.1.1, -tout.1.2.1, -tout.1.2.2) := by
    refine Prod.ext ?_ (Prod.ext ?_ ?_) <;> simp only [Motion.track, Motion.vec] <;> ring
  have e2 : ((m.track tout).2.1 - (m.track tin).2.1, (m.track tout).2.2.1 - (m.track tin).2.2.1, (m.track tout).2.2.2 - (m.track tin).2.2.2) =
      m.vec (tout.2.1 - tin.2.1, tout.2.2.1 - tin.2.2.1, tout.2.2.2 - tin.2.2.2) := by
    refine Prod.ext ?_ (Prod.ext ?_ ?_) <;> simp only [Motion.track, Motion.vec, Motion.pt] <;> ring
  have e3 : (m.track tin).1 = m.vec tin.1 := rfl
  have e4 : (m.track tout).1 = m.vec tout.1 := rfl
  rw [e1, e2, e3, e4, cross_vec]
  simp only [det_scale, det_vec]
  generalize det3 tin.1 (-tout.1.1, -tout.1.2.1, -tout.1.2.2) (vcross tin.1 tout.1) = d at *
  by_cases hd : d = 0
  · rw [if_pos hd] at h
    cases h
  · rw [if_neg hd] at h
    rw [if_neg (mul_ne_zero (mul_ne_zero hk hh0) (mul_ne_zero (mul_ne_zero (pow_ne_zero 3 hk) hh0) hd))]
    obtain rfl := Option.some.inj h
    refine congrArg _ (Prod.ext ?_ (Prod.ext ?_ ?_)) <;> simp only
    · field_simp
    · field_simp
    · generalize det3 tin.1 (-tout.1.1, -tout.1.2.1, -tout.1.2.2) (tout.2.1 - tin.2.1, tout.2.2.1 - tin.2.2.1, tout.2.2.2 - tin.2.2.2) = D
      rw [div_mul_div_comm, div_eq_div_iff (by positivity) (by positivity)]
      linear_combination -(m.unit ^ 4 * m.hand * D * d) * hh

/-- **C108: scatters.** For every pair of tracks that are not parallel: in other coordinates the point of closest approach is the same point, the gap between the tracks is the same
gap, the scattering angle and the polar angles of both tracks are the same, and so are the points where the tracks enter and leave the volume. -/
theorem scatters (tin tout : Track) (c : ℝ × ℝ × ℝ) (h : trackCoefs tin tout = some c) (zr : ℝ × ℝ) :
    ∃ c', trackCoefs (m.track tin) (m.track tout) = some c' ∧ poca (m.track tin) (m.track tout) c' = m.pt (poca tin tout c) ∧
      (∃ gap, dxy tin tout c = (gap.1, gap.2.1) ∧ dxy (m.track tin) (m.track tout) c' = ((m.vec gap).1, (m.vec gap).2.1)) ∧
      thetaMsc (m.track tin).1 (m.track tout).1 = thetaMsc tin.1 tout.1 ∧ thetaOf (m.track tin).1 = thetaOf tin.1 ∧ thetaOf (m.track tout).1 = thetaOf tout.1 ∧
      xyzIn (m.unit * zr.1 + m.shift.2.2, m.unit * zr.2 + m.shift.2.2) (m.track tin) = (xyzIn zr tin).map m.pt ∧
      xyzOut (m.unit * zr.1 + m.shift.2.2, m.unit * zr.2 + m.shift.2.2) (m.track tout) = (xyzOut zr tout).map m.pt := by
  have hk := m.unit_pos.ne'
  have hh := hand_sq m
  have hcross : vcross (m.track tin).1 (m.track tout).1 = scale3 (m.unit * m.hand) (m.vec (vcross tin.1 tout.1)) := cross_vec m tin.1 tout.1
  have hfac : m.hand / m.unit * (m.unit * m.hand) = 1 := by
    field_simp
    exact hh
  have hth : ∀ p : V3, thetaOf (m.vec p) = thetaOf p := by
    intro p
    unfold thetaOf
    rw [norm_vec]
    have e : -(m.vec p).2.2 / (m.unit * vnorm p) = -p.2.2 / vnorm p := by
      simp only [Motion.vec]
      rw [← mul_neg, mul_div_mul_left _ _ hk]
    by_cases h0 : vnorm p = 0
    · rw [if_pos h0, if_pos (by rw [h0, mul_zero])]
    · rw [if_neg h0, if_neg (mul_ne_zero hk h0)]
      simp only [e]
  refine ⟨_, coefs_vec m tin tout c h, ?_, ⟨scale3 c.2.2 (vcross tin.1 tout.1), rfl, ?_⟩, ?_, hth _, hth _, ?_, ?_⟩
  · simp only [poca]
    rw [hcross]
    generalize vcross tin.1 tout.1 = w
    refine Prod.ext ?_ (Prod.ext ?_ ?_) <;> simp only [Motion.track, Motion.vec, Motion.pt, scale3]
    · linear_combination c.2.2 / 2 * (m.unit * (cos m.angle * w.1 - m.hand * sin m.angle * w.2.1)) * hfac
    · linear_combination c.2.2 / 2 * (m.unit * (sin m.angle * w.1 + m.hand * cos m.angle * w.2.1)) * hfac
    · linear_combination c.2.2 / 2 * (m.unit * w.2.2) * hfac
  · simp only [dxy]
    rw [hcross]
    generalize vcross tin.1 tout.1 = w
    refine Prod.ext ?_ ?_ <;> simp only [Motion.vec, scale3]
    · linear_combination c.2.2 * (m.unit * (cos m.angle * w.1 - m.hand * sin m.angle * w.2.1)) * hfac
    · linear_combination c.2.2 * (m.unit * (sin m.angle * w.1 + m.hand * cos m.angle * w.2.1)) * hfac
  · show thetaMsc (m.vec tin.1) (m.vec tout.1) = _
    unfold thetaMsc
    rw [norm_vec, norm_vec, dot_vec]
    have e : m.unit * vnorm tin.1 * (m.unit * vnorm tout.1) = m.unit ^ 2 * (vnorm tin.1 * vnorm tout.1) := by ring
    rw [e, mul_div_mul_left _ _ (pow_ne_zero 2 hk)]
    by_cases h0 : vnorm tin.1 * vnorm tout.1 = 0
    · rw [if_pos h0, if_pos (by rw [h0, mul_zero])]
    · rw [if_neg h0, if_neg (mul_ne_zero (pow_ne_zero 2 hk) h0)]
  · unfold xyzIn
    by_cases h0 : tin.1.2.2 = 0
    · rw [if_pos h0, if_pos (by simp [Motion.track, Motion.vec, h0])]
      rfl
    · rw [if_neg h0, if_neg (by simpa [Motion.track, Motion.vec] using ⟨hk, h0⟩)]
      have e : (m.unit * zr.2 + m.shift.2.2 - (m.track tin).2.2.2) / (m.track tin).1.2.2 = (zr.2 - tin.2.2.2) / tin.1.2.2 := by
        simp only [Motion.track, Motion.vec, Motion.pt]
        rw [add_sub_add_right_eq_sub, ← mul_sub, mul_div_mul_left _ _ hk]
      simp only [e]
      refine congrArg some (Prod.ext ?_ (Prod.ext ?_ ?_)) <;> simp only [Motion.track, Motion.vec, Motion.pt] <;> ring
  · unfold xyzOut
    by_cases h0 : tout.1.2.2 = 0
    · rw [if_pos h0, if_pos (by simp [Motion.track, Motion.vec, h0])]
      rfl
    · rw [if_neg h0, if_neg (by simpa [Motion.track, Motion.vec] using ⟨hk, h0⟩)]
      have e : ((m.track tout).2.2.2 - (m.unit * zr.1 + m.shift.2.2)) / (m.track tout).1.2.2 = (tout.2.2.2 - zr.1) / tout.1.2.2 := by
        simp only [Motion.track, Motion.vec, Motion.pt]
        rw [add_sub_add_right_eq_sub, ← mul_sub, mul_div_mul_left _ _ hk]
      simp only [e]
      refine congrArg some (Prod.ext ?_ (Prod.ext ?_ ?_)) <;> simp only [Motion.track, Motion.vec, Motion.pt] <;> ring

/-- A scatter is singular (parallel tracks) in one system of coordinates iff it is in the other. -/
theorem singular (tin tout : Track) : trackCoefs (m.track tin) (m.track tout) = none ↔ trackCoefs tin tout = none := by
  constructor
  · intro h
    cases hc : trackCoefs tin tout with
    | none => rfl
    | some c => rw [coefs_vec m tin tout c hc] at h; cases h
  · intro h
    rw [C27.singular_iff] at h ⊢
    obtain ⟨a, b, hab, e⟩ := h
    refine ⟨a, b, hab, ?_⟩
    have e1 := congrArg (fun p => p.1) e
    have e2 := congrArg (fun p => p.2.1) e
    have e3 := congrArg (fun p => p.2.2) e
    simp only [scale3] at e1 e2 e3
    refine Prod.ext ?_ (Prod.ext ?_ ?_) <;> simp only [Motion.track, Motion.vec, scale3]
    · linear_combination m.unit * cos m.angle * e1 - m.unit * m.hand * sin m.angle * e2
    · linear_combination m.unit * sin m.angle * e1 + m.unit * m.hand * cos m.angle * e2
    · linear_combination m.unit * e3

end

/-! ### Non-vacuity -/

/-- x and y exchanged, centimetres for metres, origin moved -/
def swap : Motion := ⟨π / 2, -1, Or.inr rfl, 100, by norm_num, (0, 0, 7)⟩

example (p : V3) : swap.pt p = (100 * p.2.1, 100 * p.1, 100 * p.2.2 + 7) := by
  simp [swap, Motion.pt, Motion.vec]

/-- two hits with different uncertainties in x and y -/
example : List.Forall₂ (Moved swap) [((1, 2, 3), (4, 5)), ((2, 2, 1), (1, 3))] [((200, 100, 307), (500, 400)), ((200, 200, 107), (300, 100))] := by
  refine .cons ⟨?_, Or.inr (Or.inr ⟨by simp [swap], ?_⟩)⟩ (.cons ⟨?_, Or.inr (Or.inr ⟨by simp [swap], ?_⟩)⟩ .nil) <;> simp [swap, Motion.pt, Motion.vec] <;> norm_num

/-- two tracks that are not parallel -/
example : ∃ c, trackCoefs ((0, 0, -1), (0, 0, 1)) ((1, 0, -1), (0, 0, 0)) = some c := by
  simp [trackCoefs, det3, vdot, vcross]

end C108

end

end Tomopt
