import Verif.Model.Furnace
import Mathlib.Algebra.BigOperators.Group.List.Lemmas
import Mathlib.Algebra.Order.BigOperators.Group.List
import Mathlib.Tactic.Linarith
import Mathlib.Tactic.NormNum
import Mathlib.Tactic.FieldSimp
import Mathlib.Tactic.Ring

/- C102: the spread-over-range loss of furnace volumes. -/
namespace Tomopt

noncomputable section
open Spread

namespace C102

/-- the volumes with target `t`: their predictions -/
def predsOf (vols : List (ℝ × ℝ)) (t : ℝ) : List ℝ := (vols.filter (·.1 = t)).map (·.2)

/-- `G` lists the targets that occur at least twice, each once -/
def Repeated (vols : List (ℝ × ℝ)) (G : List ℝ) : Prop := G.Nodup ∧ ∀ t, t ∈ G ↔ 2 ≤ (predsOf vols t).length

/-- average -/
def avg (l : List ℝ) : ℝ := l.sum / l.length

/-- sample standard deviation -/
def sd (l : List ℝ) : ℝ := Real.sqrt ((l.map fun x => (x - avg l) ^ 2).sum / (l.length - 1))

/-- a batch of scanned volumes -/
def scanned (vols : List (ℝ × ℝ)) : List (Option ℝ × Option ℝ) := vols.map fun v => (some v.1, some v.2)

/-! ### Helper lemmas -/

/-- what the dictionary holds after some volumes -/
def Holds (vols : List (ℝ × Option ℝ)) (d : Dict ℝ (List (Option ℝ))) : Prop :=
  (d.map (·.1)).Nodup ∧ (∀ t, t ∈ d.map (·.1) ↔ t ∈ vols.map (·.1)) ∧ ∀ kv ∈ d, kv.2 = (vols.filter (·.1 = kv.1)).map (·.2)

theorem modify_keys (d : Dict ℝ (List (Option ℝ))) (t : ℝ) (f) : ∀ k, k ∈ (d.modify t [] f).map (·.1) ↔ k ∈ d.map (·.1) ∨ k = t := by
  induction d with
  | nil => intro k; simp [Dict.modify]
  | cons kv d ih =>
    intro k
    unfold Dict.modify
    split
    · rename_i h; simp only [List.map_cons, List.mem_cons]; rw [h]; tauto
    · simp only [List.map_cons, List.mem_cons, ih k]; tauto

theorem modify_nodup (d : Dict ℝ (List (Option ℝ))) (t : ℝ) (f) (h : (d.map (·.1)).Nodup) : ((d.modify t [] f).map (·.1)).Nodup := by
  induction d with
  | nil => simp [Dict.modify]
  | cons kv d ih =>
    unfold Dict.modify
    simp only [List.map_cons, List.nodup_cons] at h
    split
    · simpa using h
    · rename_i hne
      simp only [List.map_cons, List.nodup_cons]
      refine ⟨?_, ih h.2⟩
      rw [modify_keys]
      rintro (h' | h')
      · exact h.1 h'
      · exact hne h'

theorem modify_mem (d : Dict ℝ (List (Option ℝ))) (t : ℝ) (f) (hn : (d.map (·.1)).Nodup) : ∀ kv ∈ d.modify t [] f,
    (kv ∈ d ∧ kv.1 ≠ t) ∨ (∃ x, (t, x) ∈ d ∧ kv = (t, f x)) ∨ (t ∉ d.map (·.1) ∧ kv = (t, f [])) := by
  induction d with
  | nil => intro kv h; simp [Dict.modify] at h; right; right; simp [h]
  | cons hd d ih =>
    simp only [List.map_cons, List.nodup_cons] at hn
    intro kv h
    unfold Dict.modify at h
    split at h
    · rename_i he
      rcases List.mem_cons.mp h with rfl | h
      · right; left; exact ⟨hd.2, by rw [← he]; simp, by rw [← he]⟩
      · left
        refine ⟨List.mem_cons_of_mem _ h, fun e => hn.1 ?_⟩
        rw [he, ← e]; exact List.mem_map.mpr ⟨kv, h, rfl⟩
    · rename_i hne
      rcases List.mem_cons.mp h with rfl | h
      · left; exact ⟨by simp, hne⟩
      · rcases ih hn.2 kv h with ⟨h1, h2⟩ | ⟨x, h1, h2⟩ | ⟨h1, h2⟩
        · left; exact ⟨List.mem_cons_of_mem _ h1, h2⟩
        · right; left; exact ⟨x, List.mem_cons_of_mem _ h1, h2⟩
        · right; right
          refine ⟨?_, h2⟩
          simp only [List.map_cons, List.mem_cons, not_or]
          exact ⟨fun e => hne e.symm, h1⟩

theorem holds_step (vols : List (ℝ × Option ℝ)) (d) (h : Holds vols d) (v : ℝ × Option ℝ) : Holds (vols ++ [v]) (d.modify v.1 [] (· ++ [v.2])) := by
  obtain ⟨h1, h2, h3⟩ := h
  refine ⟨modify_nodup d _ _ h1, ?_, ?_⟩
  · intro t
    rw [modify_keys, h2]
    simp
  · intro kv hkv
    rw [List.filter_append, List.map_append]
    rcases modify_mem d v.1 _ h1 kv hkv with ⟨hm, hne⟩ | ⟨x, hm, rfl⟩ | ⟨hm, rfl⟩
    · rw [h3 kv hm]
      simp [Ne.symm hne]
    · simpa using h3 _ hm
    · rw [h2] at hm
      have : vols.filter (fun x => x.1 = v.1) = [] := by
        rw [List.filter_eq_nil_iff]
        intro a ha he
        exact hm (List.mem_map.mpr ⟨a, ha, by simpa using he⟩)
      simp [this]

theorem predEnds_holds : ∀ (more vols : List (ℝ × Option ℝ)) (d), Holds vols d →
    ∃ d', predEnds (more.map fun v => (some v.1, v.2)) (some d) = .ok (some d') ∧ Holds (vols ++ more) d'
  | [], vols, d, h => ⟨d, rfl, by simpa using h⟩
  | v :: more, vols, d, h => by
    obtain ⟨d', e, h'⟩ := predEnds_holds more (vols ++ [v]) _ (holds_step vols d h v)
    exact ⟨d', by simp only [List.map_cons, predEnds, predEnd]; exact e, by simpa using h'⟩

theorem holds_nil : Holds [] [] := ⟨by simp, by simp, by simp⟩

theorem cat_some (l : List ℝ) : cat (l.map some) = .ok l := by
  induction l with
  | nil => rfl
  | cons x l ih => simp only [List.map_cons, cat, ih]

theorem cat_none (l : List (Option ℝ)) (h : none ∈ l) : cat l = .error .typeError := by
  induction l with
  | nil => simp at h
  | cons x l ih =>
    cases x with
    | none => rfl
    | some x =>
      simp only [List.mem_cons, reduceCtorEq, false_or] at h
      simp only [cat, ih h]

/-- if every group is a list of numbers -/
theorem stats_some (gs : List (List ℝ)) : stats (gs.map (·.map some)) = .ok ((gs.filter (2 ≤ ·.length)).map fun g => (std g, mean g)) := by
  induction gs with
  | nil => rfl
  | cons g gs ih =>
    simp only [List.map_cons, stats, List.length_map, cat_some, ih]
    by_cases h : 2 ≤ g.length
    · rw [if_neg (by omega), List.filter_cons_of_pos (by simpa using h), List.map_cons]
    · rw [if_pos (by omega), List.filter_cons_of_neg (by simpa using h)]

theorem std_two (g : List ℝ) (h : 2 ≤ g.length) : std g = some (sd g) := by
  unfold std
  rw [if_neg (by omega)]; rfl

theorem allNum_some (l : List ℝ) : allNum (l.map some) = some l := by
  induction l with
  | nil => rfl
  | cons x l ih => simp only [List.map_cons, allNum, ih, Option.map_some]

theorem avg_perm {l l' : List ℝ} (h : l.Perm l') : avg l = avg l' := by unfold avg; rw [h.sum_eq, h.length_eq]

theorem sd_perm {l l' : List ℝ} (h : l.Perm l') : sd l = sd l' := by
  unfold sd; rw [avg_perm h, (h.map _).sum_eq, h.length_eq]

/-- what the loss is, in terms of the statistics -/
def value (vols : List (ℝ × ℝ)) (G : List ℝ) : Except Err XF :=
  if G = [] then .error .runtimeError
  else if G.length = 1 then .ok .nan
  else .ok (XF.quot (avg (G.map fun t => sd (predsOf vols t))) (sd (G.map fun t => avg (predsOf vols t))))

theorem value_perm (vols : List (ℝ × ℝ)) {G G' : List ℝ} (h : G.Perm G') : value vols G = value vols G' := by
  unfold value
  rw [avg_perm (h.map _), sd_perm (h.map _), h.length_eq]
  have : G = [] ↔ G' = [] := by constructor <;> intro e <;> subst e <;> simpa using h
  simp only [this]

/-! ### The property -/

/-- **C102.** The loss of a batch of scanned volumes: the average, over the true values that occur at least twice, of the standard deviation of their predictions, divided by
the standard deviation of their mean predictions. If no true value occurs twice, the callback raises; if only one does, the loss is NaN. -/
theorem batch_spec (vols : List (ℝ × ℝ)) (G : List ℝ) (hG : Repeated vols G) (s : St) :
    batch (scanned vols) s = if G = [] then .error .runtimeError
      else if G.length = 1 then .ok .nan
      else .ok (XF.quot (avg (G.map fun t => sd (predsOf vols t))) (sd (G.map fun t => avg (predsOf vols t)))) := by
  have e1 : scanned vols = (vols.map fun v => (v.1, some v.2)).map fun v => (some v.1, v.2) := by simp [scanned]
  obtain ⟨d, he, h1, h2, h3⟩ := predEnds_holds (vols.map fun v => (v.1, some v.2)) [] [] holds_nil
  rw [List.nil_append] at h2 h3
  have hd : d.map (·.2) = ((d.map (·.1)).map (predsOf vols)).map (·.map some) := by
    rw [List.map_map, List.map_map]
    apply List.map_congr_left
    intro kv hkv
    rw [h3 kv hkv]
    simp only [Function.comp, predsOf, List.filter_map, List.map_map]
    rfl
  have hfil : ((d.map (·.1)).map (predsOf vols)).filter (fun g => 2 ≤ g.length) = ((d.map (·.1)).filter fun t => 2 ≤ (predsOf vols t).length).map (predsOf vols) := by
    rw [List.filter_map]; rfl
  have hperm : ((d.map (·.1)).filter fun t => 2 ≤ (predsOf vols t).length).Perm G := by
    refine (List.perm_ext_iff_of_nodup (h1.filter _) hG.1).mpr fun t => ?_
    rw [List.mem_filter, hG.2 t, h2]
    simp only [decide_eq_true_eq, and_iff_right_iff_imp]
    intro hl
    have : predsOf vols t ≠ [] := by intro h; rw [h] at hl; simp at hl
    simp only [predsOf, ne_eq, List.map_eq_nil_iff, List.filter_eq_nil_iff, not_forall] at this
    obtain ⟨a, ha, hta⟩ := this
    simp only [decide_eq_true_eq, not_not] at hta
    simp only [List.map_map]
    exact List.mem_map.mpr ⟨a, ha, hta⟩
  change _ = value vols G
  rw [← value_perm vols hperm]
  generalize hK : ((d.map (·.1)).filter fun t => 2 ≤ (predsOf vols t).length) = K at hfil
  have hK2 : ∀ t ∈ K, 2 ≤ (predsOf vols t).length := by
    intro t ht
    rw [← hK, List.mem_filter] at ht
    simpa using ht.2
  unfold batch
  rw [e1]
  simp only [batchBegin, he, batchEnd, hd, stats_some, hfil]
  unfold value
  have hn : (K.map (predsOf vols)).map (fun g => (std g, mean g)) = [] ↔ K = [] := by simp
  simp only [hn]
  split
  · rfl
  · rename_i hne
    have ha : allNum (((K.map (predsOf vols)).map fun g => (std g, mean g)).map (·.1)) = some (K.map fun t => sd (predsOf vols t)) := by
      rw [← allNum_some, List.map_map, List.map_map, List.map_map]
      congr 1
      apply List.map_congr_left
      intro t ht
      exact std_two _ (hK2 t ht)
    have hm : ((K.map (predsOf vols)).map fun g => (std g, mean g)).map (·.2) = K.map fun t => avg (predsOf vols t) := by
      rw [List.map_map, List.map_map]; rfl
    rw [ha, hm]
    by_cases hl : K.length = 1
    · rw [if_pos hl]
      have : std (K.map fun t => avg (predsOf vols t)) = none := by unfold std; rw [if_pos (by simp [hl])]
      rw [this]
    · have hl2 : 2 ≤ K.length := by
        have := List.length_pos_iff.mpr hne; omega
      rw [if_neg hl, std_two _ (by simpa using hl2)]
      rfl

/-- such a list of targets always exists -/
theorem repeated_exists (vols : List (ℝ × ℝ)) : ∃ G, Repeated vols G := by
  classical
  refine ⟨((vols.map (·.1)).dedup).filter fun t => 2 ≤ (predsOf vols t).length, (List.nodup_dedup _).filter _, fun t => ?_⟩
  rw [List.mem_filter, List.mem_dedup]
  simp only [decide_eq_true_eq, and_iff_right_iff_imp]
  intro hl
  have : predsOf vols t ≠ [] := by intro h; rw [h] at hl; simp at hl
  simp only [predsOf, ne_eq, List.map_eq_nil_iff, List.filter_eq_nil_iff, not_forall] at this
  obtain ⟨a, ha, hta⟩ := this
  simp only [decide_eq_true_eq, not_not] at hta
  exact List.mem_map.mpr ⟨a, ha, hta⟩

/-- The order in which the volumes are scanned does not matter. -/
theorem order_free (vols vols' : List (ℝ × ℝ)) (h : vols.Perm vols') (s s' : St) : batch (scanned vols) s = batch (scanned vols') s' := by
  obtain ⟨G, hG⟩ := repeated_exists vols
  have hp : ∀ t, (predsOf vols t).Perm (predsOf vols' t) := fun t => (h.filter _).map _
  have hG' : Repeated vols' G := ⟨hG.1, fun t => by rw [hG.2 t, (hp t).length_eq]⟩
  rw [batch_spec vols G hG, batch_spec vols' G hG']
  simp only [fun t => sd_perm (hp t), fun t => avg_perm (hp t)]

theorem avg_affine (a c : ℝ) (l : List ℝ) (h : l ≠ []) : avg (l.map fun x => a * x + c) = a * avg l + c := by
  unfold avg
  have hl : (l.length : ℝ) ≠ 0 := by simpa using h
  have hs : (l.map fun x => a * x + c).sum = a * l.sum + l.length * c := by
    clear h hl
    induction l with
    | nil => simp
    | cons x l ih => simp only [List.map_cons, List.sum_cons, ih, List.length_cons]; push_cast; ring
  rw [hs, List.length_map]
  field_simp

theorem sd_affine (a c : ℝ) (l : List ℝ) (h : l ≠ []) : sd (l.map fun x => a * x + c) = |a| * sd l := by
  unfold sd
  rw [avg_affine a c l h, List.length_map, List.map_map]
  have : (l.map ((fun x => (x - (a * avg l + c)) ^ 2) ∘ fun x => a * x + c)).sum = a ^ 2 * (l.map fun x => (x - avg l) ^ 2).sum := by
    generalize avg l = m
    clear h
    induction l with
    | nil => simp
    | cons x l ih => simp only [List.map_cons, List.sum_cons, ih, Function.comp]; ring
  rw [this, mul_div_assoc, Real.sqrt_mul (sq_nonneg a), Real.sqrt_sq_eq_abs]

theorem sd_scale (a : ℝ) (l : List ℝ) (h : l ≠ []) : sd (l.map fun x => a * x) = |a| * sd l := by
  have := sd_affine a 0 l h
  simpa using this

theorem avg_scale (a : ℝ) (l : List ℝ) (h : l ≠ []) : avg (l.map fun x => a * x) = a * avg l := by
  have := avg_affine a 0 l h
  simpa using this

theorem quot_scale (k x y : ℝ) (hk : 0 < k) : XF.quot (k * x) (k * y) = XF.quot x y := by
  unfold XF.quot
  by_cases hy : y = 0
  · subst hy
    simp only [mul_zero, ne_eq, not_true_eq_false, if_false, gt_iff_lt, mul_pos_iff_of_pos_left hk]
    have : k * x < 0 ↔ x < 0 := by
      constructor
      · intro h; by_contra hx; push Not at hx; nlinarith
      · intro h; exact mul_neg_of_pos_of_neg hk h
    simp only [this]
  · rw [if_pos hy, if_pos (mul_ne_zero hk.ne' hy), mul_div_mul_left _ _ hk.ne']

/-- The calibration of the predictions does not matter: if all of them are multiplied by a number other than zero and shifted, the loss is the same. -/
theorem calibration_free (vols : List (ℝ × ℝ)) (a c : ℝ) (ha : a ≠ 0) (s s' : St) :
    batch (scanned (vols.map fun v => (v.1, a * v.2 + c))) s = batch (scanned vols) s' := by
  obtain ⟨G, hG⟩ := repeated_exists vols
  have hp : ∀ t, predsOf (vols.map fun v => (v.1, a * v.2 + c)) t = (predsOf vols t).map fun x => a * x + c := by
    intro t
    simp only [predsOf, List.filter_map, List.map_map]
    rfl
  have hG' : Repeated (vols.map fun v => (v.1, a * v.2 + c)) G := ⟨hG.1, fun t => by rw [hG.2 t, hp, List.length_map]⟩
  rw [batch_spec _ G hG', batch_spec vols G hG]
  have hne : ∀ t ∈ G, predsOf vols t ≠ [] := by
    intro t ht h
    have := (hG.2 t).mp ht
    rw [h] at this; simp at this
  split
  · rfl
  · rename_i hG0
    have e1 : G.map (fun t => sd (predsOf (vols.map fun v => (v.1, a * v.2 + c)) t)) = (G.map fun t => sd (predsOf vols t)).map fun x => |a| * x := by
      rw [List.map_map]
      apply List.map_congr_left
      intro t ht
      simp only [Function.comp]
      rw [hp, sd_affine a c _ (hne t ht)]
    have e2 : G.map (fun t => avg (predsOf (vols.map fun v => (v.1, a * v.2 + c)) t)) = (G.map fun t => avg (predsOf vols t)).map fun x => a * x + c := by
      rw [List.map_map]
      apply List.map_congr_left
      intro t ht
      simp only [Function.comp]
      rw [hp, avg_affine a c _ (hne t ht)]
    rw [e1, e2, avg_scale _ _ (by simpa using hG0), sd_affine _ _ _ (by simpa using hG0), quot_scale _ _ _ (abs_pos.mpr ha)]

theorem sum_nonneg' {l : List ℝ} (h : ∀ x ∈ l, 0 ≤ x) : 0 ≤ l.sum := List.sum_nonneg h

theorem sum_zero {l : List ℝ} (h : ∀ x ∈ l, 0 ≤ x) (hs : l.sum = 0) : ∀ x ∈ l, x = 0 := by
  induction l with
  | nil => simp
  | cons y l ih =>
    intro x hx
    have h1 := h y (by simp)
    have h2 : 0 ≤ l.sum := List.sum_nonneg fun z hz => h z (by simp [hz])
    rw [List.sum_cons] at hs
    rcases List.mem_cons.mp hx with rfl | hx
    · linarith
    · exact ih (fun z hz => h z (by simp [hz])) (by linarith) x hx

theorem sd_nonneg (l : List ℝ) : 0 ≤ sd l := Real.sqrt_nonneg _

/-- the standard deviation is zero exactly if all values are equal -/
theorem sd_zero_iff (l : List ℝ) (h : 2 ≤ l.length) : sd l = 0 ↔ ∀ x ∈ l, ∀ y ∈ l, x = y := by
  have hl : (0:ℝ) < l.length - 1 := by
    have : (2:ℝ) ≤ l.length := by exact_mod_cast h
    linarith
  have hsq : ∀ x ∈ l.map (fun x => (x - avg l) ^ 2), 0 ≤ x := by
    intro x hx
    obtain ⟨y, -, rfl⟩ := List.mem_map.mp hx
    exact sq_nonneg _
  unfold sd
  rw [Real.sqrt_eq_zero (div_nonneg (List.sum_nonneg hsq) hl.le), div_eq_zero_iff, or_iff_left hl.ne']
  constructor
  · intro hs x hx y hy
    have hx' := sum_zero hsq hs _ (List.mem_map.mpr ⟨x, hx, rfl⟩)
    have hy' := sum_zero hsq hs _ (List.mem_map.mpr ⟨y, hy, rfl⟩)
    have h1 := pow_eq_zero_iff two_ne_zero |>.mp hx'
    have h2 := pow_eq_zero_iff two_ne_zero |>.mp hy'
    linarith
  · intro heq
    match l, h with
    | z :: l, h =>
      have ha : avg (z :: l) = z := by
        have hr : (z :: l) = List.replicate (l.length + 1) z := by
          apply List.eq_replicate_iff.mpr
          exact ⟨by simp, fun x hx => heq x hx z (by simp)⟩
        unfold avg
        rw [hr]
        simp only [List.sum_replicate, List.length_replicate, nsmul_eq_mul]
        have : ((l.length + 1 : ℕ) : ℝ) ≠ 0 := by positivity
        field_simp
      apply List.sum_eq_zero
      intro x hx
      obtain ⟨y, hy, rfl⟩ := List.mem_map.mp hx
      rw [ha, heq y hy z (by simp)]
      ring

theorem avg_zero_iff (l : List ℝ) (hl : l ≠ []) (h : ∀ x ∈ l, 0 ≤ x) : avg l = 0 ↔ ∀ x ∈ l, x = 0 := by
  have h0 : (l.length : ℝ) ≠ 0 := by simpa using hl
  unfold avg
  rw [div_eq_zero_iff, or_iff_left h0]
  exact ⟨sum_zero h, fun hz => List.sum_eq_zero hz⟩

/-- With at least two repeated true values the loss is a number exactly if their mean predictions are not all the same; it is then not negative, and zero exactly if volumes with
the same true value always got the same prediction. -/
theorem perfect (vols : List (ℝ × ℝ)) (G : List ℝ) (hG : Repeated vols G) (h2 : 2 ≤ G.length) (s : St) :
    ((∃ x, batch (scanned vols) s = .ok (.num x)) ↔ ∃ t ∈ G, ∃ u ∈ G, avg (predsOf vols t) ≠ avg (predsOf vols u)) ∧
    (∀ x, batch (scanned vols) s = .ok (.num x) → 0 ≤ x) ∧
    (∀ x, batch (scanned vols) s = .ok (.num x) → (x = 0 ↔ ∀ v ∈ vols, ∀ w ∈ vols, v.1 = w.1 → v.2 = w.2)) := by
  have hne : G ≠ [] := by rintro rfl; simp at h2
  have hval : batch (scanned vols) s = .ok (XF.quot (avg (G.map fun t => sd (predsOf vols t))) (sd (G.map fun t => avg (predsOf vols t)))) := by
    rw [batch_spec vols G hG, if_neg hne, if_neg (by omega)]
  have hsd : sd (G.map fun t => avg (predsOf vols t)) = 0 ↔ ¬ ∃ t ∈ G, ∃ u ∈ G, avg (predsOf vols t) ≠ avg (predsOf vols u) := by
    rw [sd_zero_iff _ (by simpa using h2)]
    simp only [List.mem_map, forall_exists_index, and_imp, forall_apply_eq_imp_iff₂]
    push Not
    rfl
  have havg : 0 ≤ avg (G.map fun t => sd (predsOf vols t)) := by
    refine div_nonneg (List.sum_nonneg ?_) (by positivity)
    intro x hx
    obtain ⟨t, -, rfl⟩ := List.mem_map.mp hx
    exact sd_nonneg _
  have key : ∀ x, batch (scanned vols) s = .ok (.num x) → sd (G.map fun t => avg (predsOf vols t)) ≠ 0 ∧
      x = avg (G.map fun t => sd (predsOf vols t)) / sd (G.map fun t => avg (predsOf vols t)) := by
    intro x hx
    rw [hval] at hx
    unfold XF.quot at hx
    split at hx
    · rename_i h
      simp only [Except.ok.injEq, XF.num.injEq] at hx
      exact ⟨h, hx.symm⟩
    · split at hx <;> [skip; split at hx] <;> simp at hx
  refine ⟨⟨?_, ?_⟩, ?_, ?_⟩
  · rintro ⟨x, hx⟩
    by_contra hcon
    exact (key x hx).1 (hsd.mpr hcon)
  · intro h
    have : sd (G.map fun t => avg (predsOf vols t)) ≠ 0 := fun e => hsd.mp e h
    exact ⟨_, by rw [hval, XF.quot, if_pos this]⟩
  · intro x hx
    rw [(key x hx).2]
    exact div_nonneg havg (sd_nonneg _)
  · intro x hx
    obtain ⟨h1, rfl⟩ := key x hx
    rw [div_eq_zero_iff, or_iff_left h1, avg_zero_iff _ (by simpa using hne) (by
      intro x hx
      obtain ⟨t, -, rfl⟩ := List.mem_map.mp hx
      exact sd_nonneg _)]
    simp only [List.mem_map, forall_exists_index, and_imp, forall_apply_eq_imp_iff₂]
    constructor
    · intro h v hv w hw e
      by_cases hl : 2 ≤ (predsOf vols v.1).length
      · have := (sd_zero_iff _ hl).mp (h v.1 ((hG.2 v.1).mpr hl))
        refine this v.2 ?_ w.2 ?_
        · exact List.mem_map.mpr ⟨v, by simp [hv], rfl⟩
        · exact List.mem_map.mpr ⟨w, by simp [hw, e], rfl⟩
      · have hmv : v ∈ vols.filter (·.1 = v.1) := by simp [hv]
        have hmw : w ∈ vols.filter (·.1 = v.1) := by simp [hw, e]
        have hlen : (vols.filter (·.1 = v.1)).length ≤ 1 := by
          simp only [predsOf, List.length_map] at hl; omega
        match hvs : vols.filter (·.1 = v.1) with
        | [] => rw [hvs] at hmv; simp at hmv
        | [z] =>
          rw [hvs] at hmv hmw
          rw [List.mem_singleton.mp hmv, List.mem_singleton.mp hmw]
        | _ :: _ :: _ => rw [hvs] at hlen; simp at hlen
    · intro h t ht
      rw [sd_zero_iff _ ((hG.2 t).mp ht)]
      intro x hx y hy
      obtain ⟨v, hv, rfl⟩ := List.mem_map.mp hx
      obtain ⟨w, hw, rfl⟩ := List.mem_map.mp hy
      simp only [List.mem_filter, decide_eq_true_eq] at hv hw
      exact h v hv.1 w hw.1 (hv.2.trans hw.2.symm)

/-- A volume that could not be scanned is not left out: if its true value occurs twice in the batch, the callback raises. -/
theorem unscanned_violated (vols : List (ℝ × Option ℝ)) (t : ℝ) (h1 : (t, none) ∈ vols) (h2 : 2 ≤ (vols.filter (·.1 = t)).length) (s : St) :
    batch (vols.map fun v => (some v.1, v.2)) s = .error .typeError := by
  obtain ⟨d, he, hn, hk, hv⟩ := predEnds_holds vols [] [] holds_nil
  rw [List.nil_append] at hk hv
  unfold batch
  simp only [batchBegin, he, batchEnd]
  have hmem : t ∈ d.map (·.1) := (hk t).mpr (List.mem_map.mpr ⟨_, h1, rfl⟩)
  obtain ⟨kv, hkv, rfl⟩ := List.mem_map.mp hmem
  have hgrp : kv.2 = (vols.filter (·.1 = kv.1)).map (·.2) := hv kv hkv
  have hnone : none ∈ kv.2 := by
    rw [hgrp]
    exact List.mem_map.mpr ⟨(kv.1, none), by simp [h1], rfl⟩
  have hlen : 2 ≤ kv.2.length := by rw [hgrp, List.length_map]; exact h2
  have key : ∀ gs : List (List (Option ℝ)), kv.2 ∈ gs → stats gs = .error .typeError := by
    have hcat : ∀ l, ∀ e, cat l = .error e → e = .typeError := by
      intro l
      induction l with
      | nil => intro e h; simp [cat] at h
      | cons x l ih =>
        intro e h
        cases x with
        | none => simp [cat] at h; exact h.symm
        | some x =>
          simp only [cat] at h
          cases hc : cat l with
          | error e' => rw [hc] at h; simp only [Except.error.injEq] at h; subst h; exact ih _ hc
          | ok y => rw [hc] at h; simp at h
    intro gs
    induction gs with
    | nil => simp
    | cons g gs ih =>
      intro hm
      unfold stats
      rcases List.mem_cons.mp hm with rfl | hm
      · rw [if_neg (by omega), cat_none _ hnone]
      · split
        · exact ih hm
        · cases hc : cat g with
          | error e => simp only [hcat _ _ hc]
          | ok p => simp only [ih hm]
  rw [key _ (List.mem_map.mpr ⟨kv, hkv, rfl⟩)]

/-- Using the callback in `predict`, where there are no volume batches, raises on the first volume. -/
theorem predict_violated (targ pred : Option ℝ) (vs : List (Option ℝ × Option ℝ)) : predEnds ((targ, pred) :: vs) none = .error .attributeError := rfl

/-! ### A batch of four volumes -/

/-- fill levels 1 and 2, predicted twice each; their loss is 1 -/
example : batch (scanned [(1, 0), (2, 2), (1, 2), (2, 4)]) none = .ok (.num 1) := by
  have hG : Repeated [(1, 0), (2, 2), (1, 2), (2, 4)] [(1:ℝ), 2] := by
    refine ⟨by norm_num, fun t => ?_⟩
    by_cases h1 : (1:ℝ) = t
    · subst h1; simp [predsOf]
    · by_cases h2 : (2:ℝ) = t
      · subst h2; simp [predsOf]
      · simp [predsOf, h1, h2, Ne.symm h1, Ne.symm h2]
  rw [batch_spec _ _ hG]
  have p1 : predsOf [(1, 0), (2, 2), (1, 2), (2, 4)] (1:ℝ) = [0, 2] := by simp [predsOf]
  have p2 : predsOf [(1, 0), (2, 2), (1, 2), (2, 4)] (2:ℝ) = [2, 4] := by simp [predsOf]
  have a1 : avg [0, 2] = 1 := by simp [avg]
  have a2 : avg [2, 4] = 3 := by simp [avg]; norm_num
  have a3 : avg [1, 3] = 2 := by simp [avg]; norm_num
  have s1 : sd [0, 2] = Real.sqrt 2 := by unfold sd; rw [a1]; norm_num
  have s2 : sd [2, 4] = Real.sqrt 2 := by unfold sd; rw [a2]; norm_num
  have s3 : sd [1, 3] = Real.sqrt 2 := by unfold sd; rw [a3]; norm_num
  have h2 : Real.sqrt 2 ≠ 0 := by positivity
  have a4 : avg [Real.sqrt 2, Real.sqrt 2] = Real.sqrt 2 := by simp [avg]
  simp only [List.map_cons, List.map_nil, p1, p2, a1, a2, s1, s2, s3, a4, XF.quot, ne_eq, h2, not_false_eq_true, if_true, div_self]
  simp

end C102

end

end Tomopt
