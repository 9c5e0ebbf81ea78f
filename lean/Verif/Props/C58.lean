import Verif.Model.Generation
import Verif.Lemmas.Geometry
import Mathlib.MeasureTheory.Measure.Lebesgue.Basic
import Mathlib.Analysis.MeanInequalities
import Mathlib.Tactic.Linarith
import Mathlib.Tactic.Positivity
import Mathlib.Tactic.FieldSimp

/- C58, C75, C76: the muon generator. -/
namespace Tomopt

noncomputable section
open Real

namespace C58

open Gen

theorem cumsumFrom_ge (s : ℝ) (xs : List ℝ) (h : ∀ x ∈ xs, 0 ≤ x) : ∀ c ∈ cumsumFrom s xs, s ≤ c := by
  induction xs generalizing s with
  | nil => simp [cumsumFrom]
  | cons x xs ih =>
    have hx := h x List.mem_cons_self
    intro c hc
    rcases List.mem_cons.mp hc with rfl | hc
    · linarith
    · have := ih (s + x) (fun y hy => h y (List.mem_cons_of_mem _ hy)) c hc
      linarith

theorem cumsumFrom_last (s : ℝ) (xs : List ℝ) (h : xs ≠ []) : (cumsumFrom s xs).getLast? = some (s + xs.sum) := by
  induction xs generalizing s with
  | nil => exact absurd rfl h
  | cons x xs ih =>
    cases xs with
    | nil => simp [cumsumFrom]
    | cons y ys =>
      have := ih (s + x) (by simp)
      rw [cumsumFrom, List.getLast?_cons, this]
      simp [add_assoc]

/-- the position found by a sorted search in a cumulative sum -/
theorem search_cons (s x v : ℝ) (xs : List ℝ) (h : ∀ y ∈ xs, 0 ≤ y) :
    searchsorted (cumsumFrom s (x :: xs)) v = if s + x < v then searchsorted (cumsumFrom (s + x) xs) v + 1 else 0 := by
  unfold searchsorted
  rw [cumsumFrom]
  split
  · rename_i hlt
    rw [List.filter_cons_of_pos (by simpa using hlt)]
    rfl
  · rename_i hlt
    rw [List.filter_cons_of_neg (by simpa using hlt)]
    rw [List.length_eq_zero_iff, List.filter_eq_nil_iff]
    intro c hc
    have := cumsumFrom_ge (s + x) xs h c hc
    simp only [decide_eq_true_eq]
    linarith

theorem search_spec (s v : ℝ) (xs : List ℝ) (h : ∀ y ∈ xs, 0 ≤ y) (k : Nat) (hk : k < xs.length) :
    (s + (xs.take k).sum < v → v ≤ s + (xs.take (k + 1)).sum → searchsorted (cumsumFrom s xs) v = k) ∧
      (searchsorted (cumsumFrom s xs) v = k → s ≤ v → s + (xs.take k).sum ≤ v ∧ v ≤ s + (xs.take (k + 1)).sum) := by
  induction xs generalizing s k with
  | nil => simp at hk
  | cons x xs ih =>
    have hx := h x List.mem_cons_self
    have hxs : ∀ y ∈ xs, 0 ≤ y := fun y hy => h y (List.mem_cons_of_mem _ hy)
    rw [search_cons s x v xs hxs]
    cases k with
    | zero =>
      simp only [List.take_zero, List.sum_nil, add_zero, List.take_succ_cons, List.sum_cons]
      constructor
      · intro _ h2; rw [if_neg (by linarith)]
      · intro h1 h2
        refine ⟨h2, ?_⟩
        by_contra hc
        rw [if_pos (by linarith)] at h1
        simp at h1
    | succ k =>
      have hk' : k < xs.length := by simpa using hk
      obtain ⟨i1, i2⟩ := ih (s + x) hxs k hk'
      simp only [List.take_succ_cons, List.sum_cons, ← add_assoc]
      constructor
      · intro h1 h2
        have h0 : 0 ≤ (xs.take k).sum := List.sum_nonneg fun y hy => hxs y (List.mem_of_mem_take hy)
        rw [if_pos (by linarith), i1 h1 h2]
      · intro h1 h2
        split at h1
        · rename_i hlt
          exact i2 (by omega) hlt.le
        · omega

theorem search_lt (s v : ℝ) (xs : List ℝ) (h : ∀ y ∈ xs, 0 ≤ y) (h0 : xs ≠ []) (hv : v ≤ s + xs.sum) : searchsorted (cumsumFrom s xs) v < xs.length := by
  induction xs generalizing s with
  | nil => exact absurd rfl h0
  | cons x xs ih =>
    have hxs : ∀ y ∈ xs, 0 ≤ y := fun y hy => h y (List.mem_cons_of_mem _ hy)
    rw [search_cons s x v xs hxs]
    split
    · rename_i hlt
      cases xs with
      | nil => simp at hv; linarith
      | cons y ys =>
        have := ih (s + x) hxs (by simp) (by rw [List.sum_cons] at hv; linarith)
        simp only [List.length_cons] at this ⊢
        omega
    · simp

/-- a usable configuration: bins, fluxes that are not negative, and some flux at all -/
structure Usable (c : Conf) : Prop where
  nE : 0 < c.nE
  nT : 0 < c.nT
  nonneg : ∀ e < c.nE, ∀ t < c.nT, 0 ≤ c.flux (c.energy e) (c.theta t)
  total : 0 < c.fluxes.sum

variable {c : Conf}

theorem fluxes_length (c : Conf) : c.fluxes.length = c.nT * c.nE := by
  unfold Conf.fluxes
  exact flatMap_range_length c.nE _ (by simp) c.nT

theorem fluxes_get (c : Conf) (t e : Nat) (ht : t < c.nT) (he : e < c.nE) : c.fluxes[t * c.nE + e]? = some (c.flux (c.energy e) (c.theta t)) := by
  unfold Conf.fluxes
  rw [flatMap_range_get c.nE _ (by simp) c.nT t e ht he, List.getElem?_map, List.getElem?_range he]
  rfl

theorem fluxes_nonneg (h : Usable c) : ∀ y ∈ c.fluxes, 0 ≤ y := by
  intro y hy
  unfold Conf.fluxes at hy
  obtain ⟨t, ht, hy⟩ := List.mem_flatMap.mp hy
  obtain ⟨e, he, rfl⟩ := List.mem_map.mp hy
  exact h.nonneg e (List.mem_range.mp he) t (List.mem_range.mp ht)

theorem fluxes_ne (h : Usable c) : c.fluxes ≠ [] := by
  intro he
  have := h.total
  rw [he] at this
  simp at this

theorem bin_eq (h : Usable c) (u : ℝ) : c.bin u = some (searchsorted (cumsum c.fluxes) (c.fluxes.sum * u)) := by
  unfold Conf.bin
  have : (cumsum c.fluxes).getLast? = some (c.fluxes.sum) := by
    unfold cumsum; rw [cumsumFrom_last 0 _ (fluxes_ne h)]; simp
  rw [this]
  simp

/-- **C58: probabilities.** The draws (uniform in [0,1)) that end in the bin of angle `t` and energy `e` have total length flux(e, t) / sum of all fluxes: each
bin is chosen with probability proportional to its own flux, for every table of fluxes. -/
theorem probability (h : Usable c) (t e : Nat) (ht : t < c.nT) (he : e < c.nE) :
    MeasureTheory.volume {u : ℝ | u ∈ Set.Ico 0 1 ∧ c.bin u = some (t * c.nE + e)} = ENNReal.ofReal (c.flux (c.energy e) (c.theta t) / c.fluxes.sum) := by
  have hT := h.total
  have hlen := fluxes_length c
  have hk : t * c.nE + e < c.fluxes.length := by
    rw [hlen]
    calc t * c.nE + e < t * c.nE + c.nE := by omega
      _ = (t + 1) * c.nE := by ring
      _ ≤ c.nT * c.nE := Nat.mul_le_mul_right _ ht
  have hget := fluxes_get c t e ht he
  generalize t * c.nE + e = k at *
  have hnn := fluxes_nonneg h
  set S := c.fluxes.sum with hS
  set a := (c.fluxes.take k).sum with ha
  have hb : (c.fluxes.take (k + 1)).sum = a + c.flux (c.energy e) (c.theta t) := by
    rw [List.take_add_one, hget, List.sum_append]
    simp [ha]
  have ha0 : 0 ≤ a := List.sum_nonneg fun y hy => hnn y (List.mem_of_mem_take hy)
  have hbS : a + c.flux (c.energy e) (c.theta t) ≤ S := by
    rw [← hb, hS]
    conv_rhs => rw [← List.take_append_drop (k + 1) c.fluxes, List.sum_append]
    have : 0 ≤ (c.fluxes.drop (k + 1)).sum := List.sum_nonneg fun y hy => hnn y (List.mem_of_mem_drop hy)
    linarith
  set f := c.flux (c.energy e) (c.theta t) with hf
  have key := fun v => search_spec 0 v c.fluxes hnn k hk
  simp only [zero_add, hb, ← ha] at key
  have sub1 : Set.Ioo (a / S) ((a + f) / S) ⊆ {u : ℝ | u ∈ Set.Ico 0 1 ∧ c.bin u = some k} := by
    rintro u ⟨h1, h2⟩
    rw [div_lt_iff₀ hT] at h1
    rw [lt_div_iff₀ hT] at h2
    refine ⟨⟨?_, ?_⟩, ?_⟩
    · by_contra hc
      push Not at hc
      nlinarith
    · by_contra hc
      push Not at hc
      nlinarith
    · rw [bin_eq h, Option.some.injEq]
      exact (key _).1 (by linarith) (by linarith)
  have sub2 : {u : ℝ | u ∈ Set.Ico 0 1 ∧ c.bin u = some k} ⊆ Set.Icc (a / S) ((a + f) / S) := by
    rintro u ⟨⟨h1, h2⟩, h3⟩
    rw [bin_eq h, Option.some.injEq] at h3
    obtain ⟨q1, q2⟩ := (key _).2 h3 (mul_nonneg hT.le h1)
    constructor
    · rw [div_le_iff₀ hT]; linarith
    · rw [le_div_iff₀ hT]; linarith
  have e1 : (a + f) / S - a / S = f / S := by rw [← sub_div]; congr 1; ring
  apply le_antisymm
  · calc _ ≤ MeasureTheory.volume (Set.Icc (a / S) ((a + f) / S)) := MeasureTheory.measure_mono sub2
      _ = _ := by rw [Real.volume_Icc, e1]
  · calc _ = MeasureTheory.volume (Set.Ioo (a / S) ((a + f) / S)) := by rw [Real.volume_Ioo, e1]
      _ ≤ _ := MeasureTheory.measure_mono sub1

theorem lin_centre (a b : ℝ) (n i : Nat) (h : a ≤ b) (hi : i < n) : a ≤ centre (linEdge a b n) i ∧ centre (linEdge a b n) i ≤ b := by
  have hn : (0 : ℝ) < n := by exact_mod_cast (by omega : 0 < n)
  have hi1 : (i : ℝ) + 1 ≤ n := by exact_mod_cast hi
  have hi0 : (0 : ℝ) ≤ i := by positivity
  have e : centre (linEdge a b n) i = a + (b - a) * ((i + (i + 1)) / (2 * n)) := by
    unfold centre linEdge
    push_cast
    field_simp
    ring
  rw [e]
  have q0 : 0 ≤ ((i : ℝ) + (i + 1)) / (2 * n) := by positivity
  have q1 : ((i : ℝ) + (i + 1)) / (2 * n) ≤ 1 := by rw [div_le_one (by positivity)]; linarith
  constructor <;> nlinarith

theorem geom_bounds (a b : ℝ) (n i : Nat) (ha : 0 < a) (h : a ≤ b) (hi : i ≤ n) (hn : 0 < n) : a ≤ geomEdge a b n i ∧ geomEdge a b n i ≤ b := by
  have hnR : (0 : ℝ) < n := by exact_mod_cast hn
  have h1 : 1 ≤ b / a := (one_le_div ha).mpr h
  have q0 : 0 ≤ (i : ℝ) / n := by positivity
  have q1 : (i : ℝ) / n ≤ 1 := by rw [div_le_one hnR]; exact_mod_cast hi
  have p1 : 1 ≤ (b / a) ^ ((i : ℝ) / n) := Real.one_le_rpow h1 q0
  have p2 : (b / a) ^ ((i : ℝ) / n) ≤ b / a := by
    calc (b / a) ^ ((i : ℝ) / n) ≤ (b / a) ^ (1 : ℝ) := Real.rpow_le_rpow_of_exponent_le h1 q1
      _ = b / a := Real.rpow_one _
  unfold geomEdge
  constructor
  · nlinarith
  · calc a * (b / a) ^ ((i : ℝ) / n) ≤ a * (b / a) := by nlinarith
      _ = b := by field_simp

theorem geom_centre (a b : ℝ) (n i : Nat) (ha : 0 < a) (h : a ≤ b) (hi : i < n) : a ≤ centre (geomEdge a b n) i ∧ centre (geomEdge a b n) i ≤ b := by
  obtain ⟨p, q⟩ := geom_bounds a b n i ha h hi.le (by omega)
  obtain ⟨r, s⟩ := geom_bounds a b n (i + 1) ha h hi (by omega)
  unfold centre
  constructor <;> linarith

/-- draws of `np.random.uniform` -/
def Valid (d : Gen.Draw) : Prop := (0 ≤ d.sample ∧ d.sample < 1) ∧ (0 ≤ d.phi ∧ d.phi < 1) ∧ (0 ≤ d.x ∧ d.x < 1) ∧ (0 ≤ d.y ∧ d.y < 1)

theorem uniform_bounds (a b u : ℝ) (h : a ≤ b) (h0 : 0 ≤ u) (h1 : u < 1) : a ≤ a + (b - a) * u ∧ a + (b - a) * u ≤ b := by constructor <;> nlinarith

/-- **C58: ranges.** For every draw: generation never fails, position, direction and energy are in the configured ranges; the momentum is the fixed one,
or that of a muon with an energy in the range, a number if energies exceed the muon mass. -/
theorem ranges (h : Usable c) (hx : c.xr.1 ≤ c.xr.2) (hy : c.yr.1 ≤ c.yr.2) (ht : c.tr.1 ≤ c.tr.2) (he0 : 0 < c.er.1) (he : c.er.1 ≤ c.er.2) (d : Gen.Draw) (hd : Valid d) :
    ∃ x y p th ph, c.muon d = .ok (x, y, p, th, ph) ∧ c.xr.1 ≤ x ∧ x ≤ c.xr.2 ∧ c.yr.1 ≤ y ∧ y ≤ c.yr.2 ∧ c.tr.1 ≤ th ∧ th ≤ c.tr.2 ∧ 0 ≤ ph ∧ ph < 2 * π ∧
      (∀ q, c.mom = some q → p = some q) ∧
      (c.mom = none → mass2 ≤ c.er.1 ^ 2 → ∃ E q, c.er.1 ≤ E ∧ E ≤ c.er.2 ∧ p = some q ∧ 0 ≤ q ∧ q ^ 2 + mass2 = E ^ 2) := by
  obtain ⟨⟨u0, u1⟩, ⟨f0, f1⟩, ⟨x0, x1⟩, y0, y1⟩ := hd
  have hlt : searchsorted (cumsum c.fluxes) (c.fluxes.sum * d.sample) < c.nT * c.nE := by
    rw [← fluxes_length]
    apply search_lt 0 _ _ (fluxes_nonneg h) (fluxes_ne h)
    have := h.total
    nlinarith
  have hbin := bin_eq h d.sample
  generalize searchsorted (cumsum c.fluxes) (c.fluxes.sum * d.sample) = i at *
  have ht' : i / c.nE < c.nT := Nat.div_lt_of_lt_mul (by rw [Nat.mul_comm]; exact hlt)
  have he' : i % c.nE < c.nE := Nat.mod_lt _ h.nE
  obtain ⟨a1, a2⟩ := lin_centre c.tr.1 c.tr.2 c.nT (i / c.nE) ht ht'
  obtain ⟨b1, b2⟩ := geom_centre c.er.1 c.er.2 c.nE (i % c.nE) he0 he he'
  have hmu : c.muon d = .ok (c.xr.1 + (c.xr.2 - c.xr.1) * d.x, c.yr.1 + (c.yr.2 - c.yr.1) * d.y,
      (match c.mom with | none => sqrt? (c.energy (i % c.nE) ^ 2 - mass2) | some p => some p), c.theta (i / c.nE), 0 + (2 * π - 0) * d.phi) := by
    unfold Conf.muon; rw [hbin]; simp only; rw [if_pos ⟨ht', he'⟩]; rfl
  refine ⟨_, _, _, _, _, hmu, (uniform_bounds _ _ _ hx x0 x1).1, (uniform_bounds _ _ _ hx x0 x1).2,
    (uniform_bounds _ _ _ hy y0 y1).1, (uniform_bounds _ _ _ hy y0 y1).2, a1, a2, ?_, ?_, ?_, ?_⟩
  · have := Real.pi_pos; have : 0 ≤ (2 * π - 0) * d.phi := mul_nonneg (by linarith) f0
    linarith
  · have := Real.pi_pos; nlinarith
  · intro q hq; rw [hq]
  · intro hm hE
    rw [hm]
    have hpos : 0 ≤ c.energy (i % c.nE) ^ 2 - mass2 := by
      have : c.er.1 ≤ c.energy (i % c.nE) := b1
      nlinarith
    refine ⟨c.energy (i % c.nE), _, b1, b2, by unfold sqrt?; rw [if_neg (by linarith)], Real.sqrt_nonneg _, ?_⟩
    rw [Real.sq_sqrt hpos]
    ring

/-- **C58: bins.** The flattened index decodes to exactly one angle and energy bin, those of the flux it was drawn with. -/
theorem decode (t e : Nat) (ht : t < c.nT) (he : e < c.nE) :
    c.fluxes[t * c.nE + e]? = some (c.flux (c.energy e) (c.theta t)) ∧ (t * c.nE + e) / c.nE = t ∧ (t * c.nE + e) % c.nE = e := by
  have h0 : 0 < c.nE := by omega
  refine ⟨fluxes_get c t e ht he, ?_, ?_⟩
  · rw [Nat.mul_comm, Nat.mul_add_div h0, Nat.div_eq_of_lt he, Nat.add_zero]
  · rw [Nat.mul_comm, Nat.mul_add_mod, Nat.mod_eq_of_lt he]

/-- **C58 (violated): slow muons.** Energies below the muon mass are accepted; their momentum is NaN. -/
theorem low_energy_violated (h : Usable c) (hm : c.mom = none) (he0 : 0 < c.er.1) (he : c.er.1 ≤ c.er.2) (hE : c.er.2 ^ 2 < mass2) (d : Gen.Draw) (hd : Valid d) :
    ∃ x y th ph, c.muon d = .ok (x, y, none, th, ph) := by
  have hlt : searchsorted (cumsum c.fluxes) (c.fluxes.sum * d.sample) < c.nT * c.nE := by
    rw [← fluxes_length]
    apply search_lt 0 _ _ (fluxes_nonneg h) (fluxes_ne h)
    have := h.total
    obtain ⟨⟨u0, u1⟩, -⟩ := hd
    nlinarith
  have hbin := bin_eq h d.sample
  generalize searchsorted (cumsum c.fluxes) (c.fluxes.sum * d.sample) = i at *
  have ht' : i / c.nE < c.nT := Nat.div_lt_of_lt_mul (by rw [Nat.mul_comm]; exact hlt)
  have he' : i % c.nE < c.nE := Nat.mod_lt _ h.nE
  obtain ⟨b1, b2⟩ := geom_centre c.er.1 c.er.2 c.nE (i % c.nE) he0 he he'
  refine ⟨_, _, _, _, by
    unfold Conf.muon; rw [hbin]; simp only; rw [if_pos ⟨ht', he'⟩, hm]; simp only
    unfold sqrt?
    rw [if_pos (by
      have h1 : c.er.1 ≤ c.energy (i % c.nE) := b1
      have h2 : c.energy (i % c.nE) ≤ c.er.2 := b2
      nlinarith)]⟩

/-- **C58: the 2015 flux** is positive for every energy and every angle between vertical and horizontal. -/
theorem flux2015_pos (E th : ℝ) (hE : 0 < E) (h0 : 0 < th) (h1 : th < π / 2) : 0 < flux2015 E th := by
  have hc0 : 0 < cos th := cos_pos_of_mem_Ioo ⟨by linarith, h1⟩
  have hc1 : cos th ≤ 1 := cos_le_one th
  have hs : 0 < sin th := sin_pos_of_pos_of_lt_pi h0 (by linarith [pi_pos])
  unfold flux2015
  simp only
  generalize hc : cos th = c at *
  -- the quantity under the root is positive
  have hp1 : c ^ (0.958633 : ℝ) ≤ c ^ (0.817285 : ℝ) := Real.rpow_le_rpow_of_exponent_ge hc0 hc1 (by norm_num)
  have hp2 : c ^ (0.958633 : ℝ) ≤ 0.958633 * c + 0.041367 * 1 := by
    have := Real.geom_mean_le_arith_mean2_weighted (w₁ := 0.958633) (w₂ := 0.041367) (p₁ := c) (p₂ := 1) (by norm_num) (by norm_num) hc0.le (by norm_num) (by norm_num)
    rwa [Real.one_rpow, mul_one] at this
  have hnum : 0 < c ^ 2 + 0.102573 ^ 2 + -0.068287 * c ^ (0.958633 : ℝ) + 0.0407253 * c ^ (0.817285 : ℝ) := by nlinarith [sq_nonneg (c - 0.0132)]
  have hroot : 0 < Real.sqrt ((c ^ 2 + 0.102573 ^ 2 + -0.068287 * c ^ (0.958633 : ℝ) + 0.0407253 * c ^ (0.817285 : ℝ)) / (1 + 0.102573 ^ 2 + -0.068287 + 0.0407253)) :=
    Real.sqrt_pos.mpr (div_pos hnum (by norm_num))
  generalize Real.sqrt ((c ^ 2 + 0.102573 ^ 2 + -0.068287 * c ^ (0.958633 : ℝ) + 0.0407253 * c ^ (0.817285 : ℝ)) / (1 + 0.102573 ^ 2 + -0.068287 + 0.0407253)) = r at *
  have hb : 0 < E * (1 + 3.64 / (E * r ^ (1.29 : ℝ))) := by
    have := Real.rpow_pos_of_pos hroot 1.29
    positivity
  have := Real.rpow_pos_of_pos hb (-2.7)
  positivity

/-- **C58: the 2016 flux** is positive there, too. -/
theorem flux2016_pos (E th : ℝ) (hE : 0 < E) (h0 : 0 < th) (h1 : th < π / 2) : 0 < flux2016 E th := by
  have hc0 : 0 < cos th := cos_pos_of_mem_Ioo ⟨by linarith, h1⟩
  have hs : 0 < sin th := sin_pos_of_pos_of_lt_pi h0 (by linarith [pi_pos])
  unfold flux2016
  simp only
  generalize hc : cos th = c at *
  have hroot : 174 * c < Real.sqrt (174 ^ 2 * c ^ 2 + 2 * 174 + 1) := by
    rw [Real.lt_sqrt (by positivity)]
    nlinarith
  have h2 : 0 < Real.sqrt (174 ^ 2 * c ^ 2 + 2 * 174 + 1) - 174 * c := by linarith
  have h3 := Real.rpow_pos_of_pos h2 (-(3 - 1))
  have h4 : (0 : ℝ) < (3 - 1) * (3.87 + 0.5) ^ ((3 : ℝ) - 1) := by
    have := Real.rpow_pos_of_pos (show (0 : ℝ) < 3.87 + 0.5 by norm_num) ((3 : ℝ) - 1)
    linarith
  have h5 := Real.rpow_pos_of_pos (show 0 < 3.87 + E by linarith) (-3)
  have h6 := Real.rpow_pos_of_pos (show 0 < 1 + E * (1 / 854) by positivity) (-1 : ℝ)
  positivity

/-- So both generators are usable for every positive range of energies and every range of angles up to the horizontal. -/
theorem usable (c : Conf) (hE : 0 < c.nE) (hT : 0 < c.nT) (he0 : 0 < c.er.1) (he : c.er.1 ≤ c.er.2) (ht0 : 0 ≤ c.tr.1) (ht : c.tr.1 < c.tr.2) (ht1 : c.tr.2 ≤ π / 2)
    (hf : c.flux = flux2015 ∨ c.flux = flux2016) : Usable c := by
  have pos : ∀ e < c.nE, ∀ t < c.nT, 0 < c.flux (c.energy e) (c.theta t) := by
    intro e hee t htt
    have hEpos : 0 < c.energy e := lt_of_lt_of_le he0 (geom_centre _ _ _ _ he0 he hee).1
    have hn : (0 : ℝ) < c.nT := by exact_mod_cast hT
    have hi1 : (t : ℝ) + 1 ≤ c.nT := by exact_mod_cast htt
    have hi0 : (0 : ℝ) ≤ t := by positivity
    have e1 : c.theta t = c.tr.1 + (c.tr.2 - c.tr.1) * ((t + (t + 1)) / (2 * c.nT)) := by
      unfold Conf.theta centre linEdge
      push_cast
      field_simp
      ring
    have q0 : 0 < ((t : ℝ) + (t + 1)) / (2 * c.nT) := by positivity
    have q1 : ((t : ℝ) + (t + 1)) / (2 * c.nT) < 1 := by rw [div_lt_one (by positivity)]; linarith
    have t0 : 0 < c.theta t := by rw [e1]; nlinarith
    have t1 : c.theta t < π / 2 := by rw [e1]; nlinarith
    rcases hf with hf | hf
    · rw [hf]; exact flux2015_pos _ _ hEpos t0 t1
    · rw [hf]; exact flux2016_pos _ _ hEpos t0 t1
  refine ⟨hE, hT, fun e he t ht => (pos e he t ht).le, ?_⟩
  apply List.sum_pos
  · intro x hx
    unfold Conf.fluxes at hx
    obtain ⟨t, ht, hx⟩ := List.mem_flatMap.mp hx
    obtain ⟨e, he, rfl⟩ := List.mem_map.mp hx
    exact pos e (List.mem_range.mp he) t (List.mem_range.mp ht)
  · intro hnil
    have := fluxes_length c
    rw [hnil] at this
    have : 0 < c.nT * c.nE := Nat.mul_pos hT hE
    simp at *
    omega

example : Usable ⟨(0, 1), (0, 1), none, (0.5, 500), (0, 70 * π / 180), 200, 200, flux2016⟩ :=
  usable _ (by norm_num) (by norm_num) (by norm_num) (by norm_num) (by norm_num) (by simp only; positivity) (by simp only; linarith [pi_pos]) (.inr rfl)

end C58

namespace C75

open Gen C58

/-- **C75 (violated).** Energy bins grow with the energy, but their width plays no part: with a flux that is the same at all energies, every energy bin is equally likely,
however wide. Here the second bin covers ten times the energies of the first, and gets the same number of muons. -/
theorem spectrum_violated : ∃ c : Conf, Usable c ∧ (∀ E th, c.flux E th = 1) ∧
    geomEdge c.er.1 c.er.2 c.nE 2 - geomEdge c.er.1 c.er.2 c.nE 1 = 10 * (geomEdge c.er.1 c.er.2 c.nE 1 - geomEdge c.er.1 c.er.2 c.nE 0) ∧
    (∀ e < c.nE, MeasureTheory.volume {u : ℝ | u ∈ Set.Ico 0 1 ∧ c.bin u = some e} = ENNReal.ofReal (1 / 2)) := by
  let c : Conf := ⟨(0, 1), (0, 1), none, (1, 100), (0, 1), 2, 1, fun _ _ => 1⟩
  have hs : c.fluxes.sum = 2 := by simp [c, Conf.fluxes, List.range_succ]; norm_num
  have hu : Usable c := ⟨by norm_num [c], by norm_num [c], fun _ _ _ _ => by norm_num [c], by rw [hs]; norm_num⟩
  refine ⟨c, hu, fun _ _ => rfl, ?_, ?_⟩
  · have h1 : ((100 : ℝ) / 1) ^ ((1 : ℝ) / 2) = 10 := by
      rw [div_one, ← Real.sqrt_eq_rpow, show (100 : ℝ) = 10 ^ 2 by norm_num, Real.sqrt_sq (by norm_num)]
    simp only [geomEdge, c, Nat.cast_ofNat, Nat.cast_one, Nat.cast_zero, zero_div, Real.rpow_zero, h1]
    norm_num
  · intro e he
    have := probability hu 0 e (by norm_num [c]) he
    rw [Nat.zero_mul, Nat.zero_add, hs] at this
    exact this

/-- **C75: what holds.** Between bins of one energy and different angles (which are equally wide), probabilities are in the ratio of the fluxes. -/
theorem angles_partial {c : Conf} (h : Usable c) (t t' e : Nat) (ht : t < c.nT) (ht' : t' < c.nT) (he : e < c.nE) :
    linEdge c.tr.1 c.tr.2 c.nT (t + 1) - linEdge c.tr.1 c.tr.2 c.nT t = linEdge c.tr.1 c.tr.2 c.nT (t' + 1) - linEdge c.tr.1 c.tr.2 c.nT t' ∧
    MeasureTheory.volume {u : ℝ | u ∈ Set.Ico 0 1 ∧ c.bin u = some (t * c.nE + e)} * ENNReal.ofReal (c.flux (c.energy e) (c.theta t')) =
      MeasureTheory.volume {u : ℝ | u ∈ Set.Ico 0 1 ∧ c.bin u = some (t' * c.nE + e)} * ENNReal.ofReal (c.flux (c.energy e) (c.theta t)) := by
  constructor
  · unfold linEdge
    push_cast
    ring
  · rw [probability h t e ht he, probability h t' e ht' he, ← ENNReal.ofReal_mul (div_nonneg (h.nonneg e he t ht) h.total.le),
      ← ENNReal.ofReal_mul (div_nonneg (h.nonneg e he t' ht') h.total.le)]
    congr 1
    ring

end C75

namespace C76

open Gen

/-- **C76: generation margin.** A muon that starts at the edge of the range from `from_volume` (or beyond), going straight towards the volume at an angle
of at most `minAngle` from the vertical, never gets over the footprint before it has passed the bottom of the passive volume. -/
theorem margin (V : Volume) (minAngle : ℝ) (hm0 : 0 ≤ minAngle) (hm1 : minAngle < π / 2) (xr yr : ℝ × ℝ) (hr : fromVolume V minAngle = .ok (xr, yr)) (lw : ℝ × ℝ) (hlw : V.lw = .ok lw)
    (h : ℝ) (hh : heightOf V = .ok h) (zr : ℝ × ℝ) (hz : V.zRange = .ok zr) (s : ℝ) (hsz : V.passiveSize = .ok s) (hs : 0 < s) (hle : zr.1 ≤ h) (hpos : 0 < tan minAngle)
    (th : ℝ) (ht0 : 0 ≤ th) (ht : th ≤ minAngle) (z : ℝ) (hz1 : zr.1 ≤ z) :
    (∀ x, x ≤ xr.1 → x + (h - z) * tan th < 0) ∧ (∀ x, xr.2 ≤ x → lw.1 < x - (h - z) * tan th) ∧
      (∀ y, y ≤ yr.1 → y + (h - z) * tan th < 0) ∧ (∀ y, yr.2 ≤ y → lw.2 < y - (h - z) * tan th) := by
  simp only [fromVolume, hlw, hh, hz, hsz, Except.ok.injEq, Prod.mk.injEq] at hr
  obtain ⟨rfl, rfl⟩ := hr
  have htan : tan th ≤ tan minAngle := by
    rcases eq_or_lt_of_le ht with rfl | hlt
    · exact le_rfl
    · exact (tan_lt_tan_of_lt_of_lt_pi_div_two (by linarith [pi_pos]) hm1 hlt).le
  have ht0' : 0 ≤ tan th := tan_nonneg_of_nonneg_of_le_pi_div_two ht0 (by linarith)
  have key : (h - z) * tan th < tan minAngle * (h - zr.1 + s) := by
    have h1 : (h - z) * tan th ≤ (h - zr.1) * tan minAngle := by
      apply mul_le_mul (by linarith) htan ht0' (by linarith)
    nlinarith
  refine ⟨fun x hx => ?_, fun x hx => ?_, fun y hy => ?_, fun y hy => ?_⟩ <;> simp only at * <;> linarith

/-- … but the smallest angle at which such a muon reaches the bottom of the volume is larger than `minAngle`: the layer thickness is added to the height, although the
bottom is already measured. -/
theorem needed (h zb s : ℝ) (hle : zb < h) (hs : 0 < s) (m : ℝ) (hm : 0 < tan m) (x tanth : ℝ) (hx : x = 0 - tan m * (h - zb + s)) :
    (0 ≤ x + (h - zb) * tanth ↔ tan m * ((h - zb + s) / (h - zb)) ≤ tanth) ∧ tan m < tan m * ((h - zb + s) / (h - zb)) := by
  have hp : 0 < h - zb := by linarith
  subst hx
  constructor
  · rw [← mul_div_assoc, div_le_iff₀ hp]
    constructor <;> intro _ <;> linarith
  · have : 1 < (h - zb + s) / (h - zb) := by rw [one_lt_div hp]; linarith
    nlinarith

example : (0 : ℝ) < tan (π / 4) := by rw [tan_pi_div_four]; norm_num

end C76

end

end Tomopt
