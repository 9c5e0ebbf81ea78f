import Verif.Props.C55_57
import Mathlib.MeasureTheory.Constructions.Pi
import Mathlib.MeasureTheory.Measure.Lebesgue.EqHaar
import Mathlib.MeasureTheory.Measure.Haar.Unique
import Mathlib.Algebra.BigOperators.Fin
import Mathlib.MeasureTheory.Constructions.BorelSpace.Real

/- C139: where random blocks are and what they are made of. -/
namespace Tomopt

noncomputable section

namespace C139

open Passives C55 MeasureTheory
open scoped ENNReal

/-- the law of `np.random.uniform(0, 1)` -/
def unif : Measure ℝ := volume.restrict (Set.Ico 0 1)

instance : IsProbabilityMeasure unif := ⟨by rw [unif, Measure.restrict_apply_univ, Real.volume_Ico]; norm_num⟩

/-- the law of three independent uniform numbers -/
def unif3 : Measure (Fin 3 → ℝ) := Measure.pi fun _ => unif

instance : IsProbabilityMeasure unif3 := by unfold unif3; infer_instance

/-- the law of the draws for a block: three for the sizes, three for the position, all independent -/
def draws : Measure ((Fin 3 → ℝ) × (Fin 3 → ℝ)) := unif3.prod unif3

instance : IsProbabilityMeasure draws := by unfold draws; infer_instance

/-- the corners of the block of these draws, for a given orientation -/
def corners (g : Geo) (b : BlockSize) (σ : Equiv.Perm (Fin 3)) (u : (Fin 3 → ℝ) × (Fin 3 → ℝ)) : (Fin 3 → ℝ) × (Fin 3 → ℝ) := blockCoords g b ⟨u.1, σ, u.2⟩

/-- the mirror image of a block in the middle of the volume, along one axis -/
def mirrored (g : Geo) (i : Fin 3) (c : (Fin 3 → ℝ) × (Fin 3 → ℝ)) : (Fin 3 → ℝ) × (Fin 3 → ℝ) :=
  (Function.update c.1 i (2 * org g i + ext g i - c.2 i), Function.update c.2 i (2 * org g i + ext g i - c.1 i))

/-! ### Helpers -/

theorem low_eq (g : Geo) (b : BlockSize) (σ : Equiv.Perm (Fin 3)) (u : (Fin 3 → ℝ) × (Fin 3 → ℝ)) (i : Fin 3) :
    (corners g b σ u).1 i = org g i + (ext g i - blockDims g b ⟨u.1, σ, u.2⟩ i) * u.2 i := by
  fin_cases i
  · show uniform _ _ _ = _; unfold uniform; simp [org, ext]
  · show uniform _ _ _ = _; unfold uniform; simp [org, ext]
  · show uniform _ _ _ = _; unfold uniform; simp [org, ext]; left; ring

theorem high_eq (g : Geo) (b : BlockSize) (σ : Equiv.Perm (Fin 3)) (u : (Fin 3 → ℝ) × (Fin 3 → ℝ)) (i : Fin 3) :
    (corners g b σ u).2 i = (corners g b σ u).1 i + blockDims g b ⟨u.1, σ, u.2⟩ i := rfl

theorem dims_low (g : Geo) (b : BlockSize) (σ : Equiv.Perm (Fin 3)) (s u v : Fin 3 → ℝ) : blockDims g b ⟨s, σ, u⟩ = blockDims g b ⟨s, σ, v⟩ := by cases b <;> rfl

theorem unif_flip : MeasurePreserving (fun x : ℝ => 1 - x) unif unif := by
  have h := (volume : Measure ℝ).measurePreserving_sub_left 1
  have h2 := h.restrict_preimage (s := Set.Ico (0 : ℝ) 1) measurableSet_Ico
  have e : (fun x : ℝ => 1 - x) ⁻¹' Set.Ico 0 1 = Set.Ioc 0 1 := by
    ext x
    simp only [Set.mem_preimage, Set.mem_Ico, Set.mem_Ioc]
    constructor <;> rintro ⟨a, b⟩ <;> constructor <;> linarith
  rw [e] at h2
  unfold unif
  rwa [← Measure.restrict_congr_set (Ico_ae_eq_Ioc (a := (0 : ℝ)) (b := 1))] at h2

/-- one of three numbers is replaced by what it lacks to one -/
def flip (i : Fin 3) (u : Fin 3 → ℝ) : Fin 3 → ℝ := fun j => if j = i then 1 - u j else u j

theorem unif3_flip (i : Fin 3) : MeasurePreserving (flip i) unif3 unif3 := by
  unfold unif3 flip
  refine measurePreserving_pi (fun _ => unif) (fun _ => unif) (f := fun j x => if j = i then 1 - x else x) fun j => ?_
  by_cases h : j = i
  · simp only [h, if_true]; exact unif_flip
  · simp only [h, if_false]; exact MeasurePreserving.id _

theorem corners_flip (g : Geo) (b : BlockSize) (σ : Equiv.Perm (Fin 3)) (i : Fin 3) (u : (Fin 3 → ℝ) × (Fin 3 → ℝ)) :
    corners g b σ (Prod.map id (flip i) u) = mirrored g i (corners g b σ u) := by
  have hd : blockDims g b ⟨u.1, σ, flip i u.2⟩ = blockDims g b ⟨u.1, σ, u.2⟩ := dims_low _ _ _ _ _ _
  refine Prod.ext (funext fun j => ?_) (funext fun j => ?_)
  · by_cases h : j = i
    · subst h
      simp only [mirrored, Function.update_self, low_eq, high_eq, Prod.map_fst, Prod.map_snd, id, hd, flip, if_true]
      ring
    · simp only [mirrored, Function.update_of_ne h, low_eq, Prod.map_fst, Prod.map_snd, id, hd, flip, h, if_false]
  · by_cases h : j = i
    · subst h
      simp only [mirrored, Function.update_self, low_eq, high_eq, Prod.map_fst, Prod.map_snd, id, hd, flip, if_true]
      ring
    · simp only [mirrored, Function.update_of_ne h, low_eq, high_eq, Prod.map_fst, Prod.map_snd, id, hd, flip, h, if_false]

theorem dims_measurable (g : Geo) (b : BlockSize) (σ : Equiv.Perm (Fin 3)) (i : Fin 3) : Measurable fun u : (Fin 3 → ℝ) × (Fin 3 → ℝ) => blockDims g b ⟨u.1, σ, u.2⟩ i := by
  cases b with
  | fixed s =>
    show Measurable fun _ : (Fin 3 → ℝ) × (Fin 3 → ℝ) => s (σ i)
    exact measurable_const
  | random half =>
    show Measurable fun u : (Fin 3 → ℝ) × (Fin 3 → ℝ) => uniform g.size (sizeMax g half i) (u.1 i)
    unfold uniform
    fun_prop

theorem corners_measurable (g : Geo) (b : BlockSize) (σ : Equiv.Perm (Fin 3)) : Measurable (corners g b σ) := by
  have h1 : ∀ i, Measurable fun u => (corners g b σ u).1 i := fun i => by
    simp only [low_eq]
    exact measurable_const.add ((measurable_const.sub (dims_measurable g b σ i)).mul (by fun_prop))
  refine Measurable.prodMk (measurable_pi_lambda _ h1) (measurable_pi_lambda _ fun i => ?_)
  exact (h1 i).add (dims_measurable g b σ i)

theorem mirrored_measurable (g : Geo) (i : Fin 3) : Measurable (mirrored g i) := by
  refine Measurable.prodMk (measurable_pi_lambda _ fun j => ?_) (measurable_pi_lambda _ fun j => ?_)
  · by_cases h : j = i
    · subst h; simp only [Function.update_self]; fun_prop
    · simp only [Function.update_of_ne h]; fun_prop
  · by_cases h : j = i
    · subst h; simp only [Function.update_self]; fun_prop
    · simp only [Function.update_of_ne h]; fun_prop

/-! ### No side is favoured -/

/-- **C139: no side is favoured.** The corners of random blocks and those of their mirror images in the middle of the volume have the same law, along every axis, for fixed and random sizes and every
orientation. -/
theorem mirror (g : Geo) (b : BlockSize) (σ : Equiv.Perm (Fin 3)) (i : Fin 3) : draws.map (corners g b σ) = draws.map (fun u => mirrored g i (corners g b σ u)) := by
  have h : MeasurePreserving (Prod.map id (flip i)) draws draws := (MeasurePreserving.id unif3).prod (unif3_flip i)
  have e : (fun u => mirrored g i (corners g b σ u)) = corners g b σ ∘ Prod.map id (flip i) := funext fun u => (corners_flip g b σ i u).symm
  rw [e, ← Measure.map_map (corners_measurable g b σ) h.measurable, h.map_eq]

/-! ### The chance of a place -/

/-- how far the lower corner may move along an axis such that the block contains `x`: `x` is measured from the lower end of a volume of length `l`, and the block is `d` long -/
def room (l d x : ℝ) : ℝ := min x (l - d) - max 0 (x - d)

theorem unif_interval {a b : ℝ} (h0 : 0 ≤ a) (h1 : b ≤ 1) : unif {u | a < u ∧ u ≤ b} = ENNReal.ofReal (b - a) := by
  have e : {u : ℝ | a < u ∧ u ≤ b} = Set.Ioc a b := rfl
  have e2 : Set.Ico (0 : ℝ) 1 =ᵐ[volume] Set.Icc 0 1 := Ico_ae_eq_Icc
  rw [unif, Measure.restrict_congr_set e2, Measure.restrict_apply (e ▸ measurableSet_Ioc), e, Set.inter_eq_left.mpr (show Set.Ioc a b ⊆ Set.Icc 0 1 from fun x hx => ⟨by linarith [hx.1], by linarith [hx.2]⟩), Real.volume_Ioc]

/-- the chance that a block of length `d` in a volume of length `l` contains a point -/
theorem axis_chance {l d : ℝ} (x : ℝ) (hl : d < l) : unif {u | (l - d) * u ≤ x ∧ x < (l - d) * u + d} = ENNReal.ofReal (room l d x / (l - d)) := by
  have hp : 0 < l - d := by linarith
  have e : unif {u | (l - d) * u ≤ x ∧ x < (l - d) * u + d} = unif {u | max 0 (x - d) / (l - d) < u ∧ u ≤ min x (l - d) / (l - d)} := by
    refine measure_congr ?_
    have n : ∀ᵐ u ∂unif, u ∈ Set.Ioo (0 : ℝ) 1 := by
      rw [unif, Measure.restrict_congr_set (Ioo_ae_eq_Ico (a := (0 : ℝ)) (b := 1)).symm]
      exact ae_restrict_mem measurableSet_Ioo
    filter_upwards [n] with u hu
    obtain ⟨a, b⟩ := hu
    refine propext ?_
    show ((l - d) * u ≤ x ∧ x < (l - d) * u + d) ↔ (max 0 (x - d) / (l - d) < u ∧ u ≤ min x (l - d) / (l - d))
    rw [div_lt_iff₀ hp, le_div_iff₀ hp, max_lt_iff, le_min_iff]
    have p := mul_pos hp a
    have q := mul_lt_mul_of_pos_left b hp
    constructor
    · rintro ⟨h, h'⟩; refine ⟨⟨by linarith, by linarith⟩, by linarith, by linarith⟩
    · rintro ⟨⟨_, h⟩, h', _⟩; exact ⟨by linarith, by linarith⟩
  rw [e, unif_interval (div_nonneg (le_max_left _ _) hp.le) (by rw [div_le_one hp]; exact min_le_right _ _), room, sub_div]

/-- **C139: the chance of a place.** A block of a fixed size contains a given point with a chance that is the product of those along the axes: the distance the block can be moved while containing
the point over the distance it can be moved at all. -/
theorem chance (g : Geo) (s : Fin 3 → ℝ) (σ : Equiv.Perm (Fin 3)) (x : Fin 3 → ℝ) (hs : ∀ i, s (σ i) < ext g i) :
    draws {u | ∀ i, (corners g (.fixed s) σ u).1 i ≤ x i ∧ x i < (corners g (.fixed s) σ u).2 i} = ∏ i, ENNReal.ofReal (room (ext g i) (s (σ i)) (x i - org g i) / (ext g i - s (σ i))) := by
  have e : {u | ∀ i, (corners g (.fixed s) σ u).1 i ≤ x i ∧ x i < (corners g (.fixed s) σ u).2 i} =
      Set.univ ×ˢ Set.univ.pi fun i => {t : ℝ | (ext g i - s (σ i)) * t ≤ x i - org g i ∧ x i - org g i < (ext g i - s (σ i)) * t + s (σ i)} := by
    ext u
    simp only [Set.mem_ofPred_eq, Set.mem_prod, Set.mem_univ, true_and, Set.mem_pi, forall_true_left]
    refine forall_congr' fun i => ?_
    rw [high_eq, low_eq]
    show _ ≤ _ ∧ _ < _ + s (σ i) ↔ _
    show org g i + (ext g i - s (σ i)) * u.2 i ≤ _ ∧ _ < org g i + (ext g i - s (σ i)) * u.2 i + s (σ i) ↔ _
    constructor <;> rintro ⟨a, b⟩ <;> constructor <;> linarith
  rw [e, draws, Measure.prod_prod, measure_univ, one_mul, unif3, Measure.pi_pi]
  exact Finset.prod_congr rfl fun i _ => axis_chance _ (hs i)

/-- a volume of ten voxels along every axis -/
def decimetres : Geo := ⟨(1, 1), (0, 1), 1 / 10⟩

/-- **C139 (violated): no place is favoured.** The middle of the volume is in a block of a quarter of its length more than fifteen thousand times as often as a point near a corner. -/
theorem place_violated (σ : Equiv.Perm (Fin 3)) :
    draws {u | ∀ i, (corners decimetres (.fixed fun _ => 1 / 4) σ u).1 i ≤ 1 / 2 ∧ 1 / 2 < (corners decimetres (.fixed fun _ => 1 / 4) σ u).2 i} =
      15625 * draws {u | ∀ i, (corners decimetres (.fixed fun _ => 1 / 4) σ u).1 i ≤ 1 / 100 ∧ 1 / 100 < (corners decimetres (.fixed fun _ => 1 / 4) σ u).2 i} := by
  have he : ∀ i, ext decimetres i = 1 := fun i => by fin_cases i <;> simp [ext, decimetres]
  have ho : ∀ i, org decimetres i = 0 := fun i => by fin_cases i <;> simp [org, decimetres]
  rw [chance decimetres _ σ (fun _ => 1 / 2) fun i => by rw [he]; norm_num, chance decimetres _ σ (fun _ => 1 / 100) fun i => by rw [he]; norm_num]
  have r1 : room 1 (1 / 4) (1 / 2) / (1 - 1 / 4) = 1 / 3 := by norm_num [room]
  have r2 : room 1 (1 / 4) (1 / 100) / (1 - 1 / 4) = 1 / 75 := by norm_num [room]
  simp only [he, ho, sub_zero, r1, r2, Finset.prod_const, Finset.card_univ, Fintype.card_fin]
  rw [← ENNReal.ofReal_pow (by norm_num), ← ENNReal.ofReal_pow (by norm_num), show (15625 : ℝ≥0∞) = ENNReal.ofReal 15625 by norm_num, ← ENNReal.ofReal_mul (by norm_num)]
  norm_num

/-! ### Layers -/

/-- some voxel of the layer with this top is filled with the block -/
def Filled (nx ny : Nat) (s z : ℝ) (c : (Fin 3 → ℝ) × (Fin 3 → ℝ)) : Prop :=
  ∀ base block : ℝ, ∃ rows, blockLayout c.1 c.2 base block z (nx * s, ny * s) s = .ok rows ∧ ∃ r ∈ rows, block ∈ r

/-- every voxel of the layer with this top has the X0 of the background -/
def Bare (nx ny : Nat) (s z : ℝ) (c : (Fin 3 → ℝ) × (Fin 3 → ℝ)) : Prop :=
  ∀ base block : ℝ, ∃ rows, blockLayout c.1 c.2 base block z (nx * s, ny * s) s = .ok rows ∧ ∀ r ∈ rows, ∀ x ∈ r, x = base

/-- a stack of `nz` layers of `nx` by `ny` voxels -/
def stack (s zb : ℝ) (nx ny nz : Nat) : Geo := ⟨(nx * s, ny * s), (zb, zb + nz * s), s⟩

theorem bare_of (nx ny : Nat) (s z : ℝ) (c : (Fin 3 → ℝ) × (Fin 3 → ℝ)) (h : c.2 2 < z) : Bare nx ny s z c := by
  intro base block
  refine ⟨_, rfl, fun r hr x hx => ?_⟩
  rw [List.mem_map] at hr
  obtain ⟨i, _, rfl⟩ := hr
  rw [List.mem_map] at hx
  obtain ⟨j, _, rfl⟩ := hx
  exact if_neg fun h' => by linarith [h'.2.1]

theorem filled_of (nx ny : Nat) (s z : ℝ) (hs : 0 < s) (c : (Fin 3 → ℝ) × (Fin 3 → ℝ)) (h0 : 0 ≤ c.1 0) (h1 : 0 ≤ c.1 1) (h2 : c.2 0 ≤ nx * s) (h3 : c.2 1 ≤ ny * s) (d0 : s < c.2 0 - c.1 0)
    (d1 : s < c.2 1 - c.1 1) (hz : c.1 2 ≤ z) (hz' : z ≤ c.2 2) : Filled nx ny s z c := by
  intro base block
  obtain ⟨i, hi, a1, a2⟩ := centre_in nx s _ _ hs h0 h2 d0
  obtain ⟨j, hj, a3, a4⟩ := centre_in ny s _ _ hs h1 h3 d1
  refine ⟨_, rfl, ?_⟩
  simp only [floor_mul_div _ _ hs]
  refine ⟨_, List.mem_map_of_mem (List.mem_range.mpr hi), List.mem_map.mpr ⟨j, List.mem_range.mpr hj, ?_⟩⟩
  exact if_pos ⟨hz, hz', (slice_centre nx s _ _ hs h0 (by linarith) i hi).1 ⟨a1, a2⟩, (slice_centre ny s _ _ hs h1 (by linarith) j hj).1 ⟨a3, a4⟩⟩

theorem valid_of {u : (Fin 3 → ℝ) × (Fin 3 → ℝ)} (σ : Equiv.Perm (Fin 3)) (h : ∀ i, (0 ≤ u.1 i ∧ u.1 i < 1) ∧ 0 ≤ u.2 i ∧ u.2 i < 1) : Valid ⟨u.1, σ, u.2⟩ := ⟨fun i => (h i).1, fun i => (h i).2⟩

theorem ext_stack (s zb : ℝ) (nx ny nz : Nat) (i : Fin 3) : ext (stack s zb nx ny nz) i = ![(nx : ℝ), ny, nz] i * s := by
  fin_cases i <;> simp [ext, stack]

/-- **C139 (violated): no layer is favoured.** A block of random size is never in the top layer, whatever is drawn: layers are chosen by their upper ends. In the lowest layer it is with a chance of at
least one in the number of layers. -/
theorem layer_violated (s zb : ℝ) (hs : 0 < s) (nx ny nz : Nat) (half : Bool) (σ : Equiv.Perm (Fin 3)) (k : Nat) (hk : k = if half then 2 else 1) (hx : k < nx) (hy : k < ny) (hz : k < nz) :
    (∀ u : (Fin 3 → ℝ) × (Fin 3 → ℝ), (∀ i, (0 ≤ u.1 i ∧ u.1 i < 1) ∧ 0 ≤ u.2 i ∧ u.2 i < 1) → Bare nx ny s (zb + nz * s) (corners (stack s zb nx ny nz) (.random half) σ u)) ∧
      ENNReal.ofReal (1 / nz) ≤ draws {u | Filled nx ny s (zb + s) (corners (stack s zb nx ny nz) (.random half) σ u)} := by
  have hn : ∀ i, (k : ℝ) < ![(nx : ℝ), ny, nz] i := fun i => by fin_cases i <;> simpa using by assumption
  have hm : ∀ i, s < sizeMax (stack s zb nx ny nz) half i ∧ sizeMax (stack s zb nx ny nz) half i ≤ ext (stack s zb nx ny nz) i := fun i => by
    have e : sizeMax (stack s zb nx ny nz) half i = if half then ext (stack s zb nx ny nz) i / 2 else ext (stack s zb nx ny nz) i := rfl
    have h := hn i
    rw [e, ext_stack]
    cases half
    · subst hk
      simp only [Bool.false_eq_true, if_false, Nat.cast_one] at h ⊢
      exact ⟨by nlinarith, le_rfl⟩
    · subst hk
      simp only [if_true, Nat.cast_ofNat] at h ⊢
      exact ⟨by nlinarith, by nlinarith⟩
  have hfit : Fits (stack s zb nx ny nz) (.random half) := ⟨hs.le, fun i => le_trans (hm i).1.le (hm i).2⟩
  have hdim : ∀ (u : (Fin 3 → ℝ) × (Fin 3 → ℝ)) i, blockDims (stack s zb nx ny nz) (.random half) ⟨u.1, σ, u.2⟩ i = s + (sizeMax (stack s zb nx ny nz) half i - s) * u.1 i := fun u i => rfl
  have eo : org (stack s zb nx ny nz) 2 = zb := rfl
  have ee : ext (stack s zb nx ny nz) 2 = nz * s := ext_stack s zb nx ny nz 2
  have hnz : (0 : ℝ) < nz := by exact_mod_cast (by omega : 0 < nz)
  constructor
  · intro u hu
    refine bare_of nx ny s _ _ ?_
    obtain ⟨⟨a, b⟩, c, d⟩ := hu 2
    have h1 := hm 2
    have h2 := hdim u 2
    have h3 : blockDims (stack s zb nx ny nz) (.random half) ⟨u.1, σ, u.2⟩ 2 < nz * s := by
      rw [h2, ← ee]
      nlinarith
    rw [high_eq, low_eq, eo, ee]
    nlinarith
  · have sub : (Set.univ.pi fun _ => Set.Ioo (0 : ℝ) 1) ×ˢ (Set.univ.pi fun i => if i = 2 then {t : ℝ | 0 < t ∧ t ≤ 1 / nz} ∩ Set.Ioo 0 1 else Set.Ioo 0 1) ⊆
        {u | Filled nx ny s (zb + s) (corners (stack s zb nx ny nz) (.random half) σ u)} := by
      rintro u ⟨h1, h2⟩
      simp only [Set.mem_pi, Set.mem_univ, forall_true_left] at h1 h2
      have h2' : ∀ i, u.2 i ∈ Set.Ioo (0 : ℝ) 1 := fun i => by
        have := h2 i
        split at this
        · exact this.2
        · exact this
      have hv : Valid ⟨u.1, σ, u.2⟩ := valid_of σ fun i => ⟨⟨(h1 i).1.le, (h1 i).2⟩, (h2' i).1.le, (h2' i).2⟩
      have ins := inside (stack s zb nx ny nz) (.random half) ⟨u.1, σ, u.2⟩ hfit hv
      have dm : ∀ i, s < blockDims (stack s zb nx ny nz) (.random half) ⟨u.1, σ, u.2⟩ i := fun i => by
        rw [hdim]
        have := (h1 i).1
        have := (hm i).1
        nlinarith
      have e0 : org (stack s zb nx ny nz) 0 = 0 := rfl
      have e1 : org (stack s zb nx ny nz) 1 = 0 := rfl
      have x0 : ext (stack s zb nx ny nz) 0 = nx * s := ext_stack s zb nx ny nz 0
      have x1 : ext (stack s zb nx ny nz) 1 = ny * s := ext_stack s zb nx ny nz 1
      obtain ⟨a1, a2, a3⟩ := ins 0
      obtain ⟨b1, b2, b3⟩ := ins 1
      obtain ⟨c1, c2, c3⟩ := ins 2
      have d0 := dm 0
      have d1 := dm 1
      have d2 := dm 2
      have low2 : (corners (stack s zb nx ny nz) (.random half) σ u).1 2 ≤ zb + s := by
        rw [low_eq, eo, ee]
        have t := (h2 2)
        simp only [if_true] at t
        have t1 := t.1.1
        have t2 := t.1.2
        have t3 : nz * u.2 2 ≤ 1 := by rw [le_div_iff₀ hnz] at t2; linarith
        have := mul_le_mul_of_nonneg_right t3 hs.le
        have := mul_pos (lt_trans hs d2) t1
        nlinarith
      rw [e0] at a1 a2
      rw [e1] at b1 b2
      rw [eo] at c1
      rw [x0] at a2
      rw [x1] at b2
      unfold corners at *
      exact filled_of nx ny s (zb + s) hs _ a1 b1 (by linarith) (by linarith) (by linarith) (by linarith) low2 (by linarith)
    refine le_trans ?_ (measure_mono sub)
    have u1 : unif (Set.Ioo 0 1) = 1 := by
      rw [unif, Measure.restrict_apply measurableSet_Ioo, Set.inter_eq_left.mpr Set.Ioo_subset_Ico_self, Real.volume_Ioo]
      norm_num
    have u2 : unif ({t : ℝ | 0 < t ∧ t ≤ 1 / nz} ∩ Set.Ioo 0 1) = ENNReal.ofReal (1 / nz) := by
      rw [measure_inter_conull' (prob_compl_eq_zero_iff measurableSet_Ioo |>.mpr u1 |> fun h => measure_mono_null (Set.diff_subset_compl _ _) h),
        unif_interval le_rfl (by rw [div_le_one hnz]; exact_mod_cast (by omega : 1 ≤ nz)), sub_zero]
    rw [draws, Measure.prod_prod, unif3, Measure.pi_pi, Measure.pi_pi, Fin.prod_univ_three, Fin.prod_univ_three, if_neg (by decide), if_neg (by decide), if_pos rfl, u1, u2]
    simp only [one_mul, le_refl]

/-! ### Materials -/

/-- the materials that come out of these draws of positions in a list of `n` materials, when they have to differ -/
def mats {n N : Nat} (d : Fin N → Fin n × Fin n) : Option (Nat × Nat) := pickMats true (List.ofFn fun k => ((d k).1.val, (d k).2.val))

theorem mats_cons {n N : Nat} (a : Fin n × Fin n) (d : Fin N → Fin n × Fin n) : mats (Fin.cons a d : Fin (N + 1) → Fin n × Fin n) = if a.1 = a.2 then mats d else some (a.1.val, a.2.val) := by
  unfold mats
  rw [List.ofFn_succ]
  simp only [Fin.cons_zero, Fin.cons_succ, pickMats, and_true, Fin.val_inj]

/-- how many of the sequences of `N` draws give these materials -/
def ways (n N : Nat) (r : Option (Nat × Nat)) : Nat := ∑ d : Fin N → Fin n × Fin n, if mats d = r then 1 else 0

theorem ways_succ (n N : Nat) (r : Option (Nat × Nat)) : ways n (N + 1) r = ∑ a : Fin n × Fin n, if a.1 = a.2 then ways n N r else if some (a.1.val, a.2.val) = r then (n ^ 2) ^ N else 0 := by
  unfold ways
  rw [← (Fin.consEquiv fun _ : Fin (N + 1) => Fin n × Fin n).sum_comp, Fintype.sum_prod_type]
  refine Finset.sum_congr rfl fun a _ => ?_
  have e : ∀ d : Fin N → Fin n × Fin n, mats (Fin.consEquiv (fun _ : Fin (N + 1) => Fin n × Fin n) (a, d)) = if a.1 = a.2 then mats d else some (a.1.val, a.2.val) := fun d => mats_cons a d
  simp only [e]
  split
  · rfl
  · split <;> simp [sq]

/-- **C139: no material is favoured.** Of all sequences of draws, as many end with one pair of different materials as with any other. -/
theorem materials {n N i j : Nat} (hi : i < n) (hj : j < n) (hij : i ≠ j) : n * (n - 1) * ways n N (some (i, j)) + n ^ N = (n ^ 2) ^ N := by
  obtain ⟨m, rfl⟩ : ∃ m, n = m + 1 := ⟨n - 1, by omega⟩
  induction N with
  | zero => simp [ways, mats, pickMats]
  | succ N ih =>
    have e : ways (m + 1) (N + 1) (some (i, j)) = (m + 1) * ways (m + 1) N (some (i, j)) + ((m + 1) ^ 2) ^ N := by
      rw [ways_succ]
      have s : ∀ a : Fin (m + 1) × Fin (m + 1), (if a.1 = a.2 then ways (m + 1) N (some (i, j)) else if some (a.1.val, a.2.val) = some (i, j) then ((m + 1) ^ 2) ^ N else 0) =
          (if a.1 = a.2 then ways (m + 1) N (some (i, j)) else 0) + if a = (⟨i, hi⟩, ⟨j, hj⟩) then ((m + 1) ^ 2) ^ N else 0 := by
        rintro ⟨a, b⟩
        by_cases h : a = b
        · subst h
          have : ¬ ((a, a) : Fin (m + 1) × Fin (m + 1)) = (⟨i, hi⟩, ⟨j, hj⟩) := fun h => hij (by rw [Prod.mk.injEq] at h; have := h.1.symm.trans h.2; simpa using this)
          simp [this]
        · simp only [h, if_false, zero_add, Option.some.injEq, Prod.mk.injEq, Fin.ext_iff]
      rw [Finset.sum_congr rfl fun a _ => s a, Finset.sum_add_distrib, Finset.sum_ite_eq', if_pos (Finset.mem_univ _), Fintype.sum_prod_type]
      simp
    rw [e]
    simp only [Nat.add_sub_cancel] at ih ⊢
    have : (m + 1) * m * ((m + 1) * ways (m + 1) N (some (i, j)) + ((m + 1) ^ 2) ^ N) + (m + 1) ^ (N + 1) =
        (m + 1) * ((m + 1) * m * ways (m + 1) N (some (i, j)) + (m + 1) ^ N) + (m + 1) * m * ((m + 1) ^ 2) ^ N := by ring
    rw [this, ih]
    ring

/-- **C139: drawing materials.** After `N` draws of two of `n` materials, `n ^ N` of the `n ^ (2 N)` sequences have not ended. -/
theorem materials_end (n N : Nat) : ways n N none = n ^ N := by
  induction N with
  | zero => simp [ways, mats, pickMats]
  | succ N ih =>
    rw [ways_succ, Fintype.sum_prod_type, ih]
    simp only [reduceCtorEq, if_false]
    simp [pow_succ, mul_comm]

/-- ten layers of five by five voxels, and three materials of which two have to be drawn: the chance of one pair after two draws is 4/27, of none 1/9 -/
example : 1 < 5 ∧ 1 < 10 ∧ ways 3 2 (some (0, 2)) = 12 ∧ ways 3 2 none = 9 := by
  have h := materials (n := 3) (N := 2) (i := 0) (j := 2) (by norm_num) (by norm_num) (by norm_num)
  refine ⟨by norm_num, by norm_num, by omega, by rw [materials_end]; norm_num⟩

end C139

end

end Tomopt
