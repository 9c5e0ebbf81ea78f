import Verif.Model.DetCallbacks
import Verif.Model.Panel
import Mathlib.Tactic.Linarith
import Mathlib.Tactic.Ring
import Mathlib.Tactic.FieldSimp

/- C48-C50, C73: callbacks that act on detectors and gradients. -/
namespace Tomopt

noncomputable section

open DetCb

namespace C48

/-- one coordinate: the step is cut to the limit, keeping its direction -/
theorem limit_spec (m old new : ℝ) (hm : 0 ≤ m) :
    |limit m old new - old| ≤ m ∧ (|new - old| ≤ m → limit m old new = new) ∧ (|new - old| > m → |limit m old new - old| = m ∧ 0 ≤ (limit m old new - old) * (new - old)) := by
  unfold limit
  by_cases h : |new - old| > m
  · rw [if_pos h]
    have hne : new - old ≠ 0 := by
      intro h0; rw [h0, abs_zero] at h; linarith
    rcases lt_or_gt_of_ne hne with hn | hp
    · rw [sign_neg hn]
      refine ⟨?_, fun h2 => absurd h2 (not_le.mpr h), fun _ => ⟨?_, ?_⟩⟩
      · simp [abs_of_nonneg hm]
      · simp [abs_of_nonneg hm]
      · simp only [SignType.coe_neg_one]; nlinarith
    · rw [sign_pos hp]
      refine ⟨?_, fun h2 => absurd h2 (not_le.mpr h), fun _ => ⟨?_, ?_⟩⟩
      · simp [abs_of_nonneg hm]
      · simp [abs_of_nonneg hm]
      · simp only [SignType.coe_one]; nlinarith
  · rw [if_neg h]
    exact ⟨not_lt.mp h, fun _ => rfl, fun h2 => absurd h2 h⟩

/-- Specification: the change of one coordinate respects a limit (if there is one), and is untouched if it did. -/
def Coord (m : Option ℝ) (old new out : ℝ) : Prop :=
  match m with
  | none => out = new
  | some m => |out - old| ≤ m ∧ (|new - old| ≤ m → out = new)

/-- **C48.** For all panels of all layers, and every update: no parameter with a limit changes by more than it, an update within the limit is untouched,
and parameters without limits are left alone. -/
theorem limited (l : Limits) (hxy : ∀ m, l.xy = some m → 0 ≤ m.1 ∧ 0 ≤ m.2) (hz : ∀ m, l.z = some m → 0 ≤ m) (hs : ∀ m, l.span = some m → 0 ≤ m.1 ∧ 0 ≤ m.2)
    (old new : List Par) (hlen : old.length = new.length) :
    ∃ out, limitAll l old new = .ok out ∧ out.length = new.length ∧ ∀ (i : Nat) (o p q : Par), old[i]? = some o → new[i]? = some p → out[i]? = some q →
      Coord (l.xy.map (·.1)) o.xy.1 p.xy.1 q.xy.1 ∧ Coord (l.xy.map (·.2)) o.xy.2 p.xy.2 q.xy.2 ∧ Coord l.z o.z p.z q.z ∧
      Coord (l.span.map (·.1)) o.span.1 p.span.1 q.span.1 ∧ Coord (l.span.map (·.2)) o.span.2 p.span.2 q.span.2 := by
  have one : ∀ o p, Coord (l.xy.map (·.1)) o.xy.1 p.xy.1 (limitPar l o p).xy.1 ∧ Coord (l.xy.map (·.2)) o.xy.2 p.xy.2 (limitPar l o p).xy.2 ∧
      Coord l.z o.z p.z (limitPar l o p).z ∧ Coord (l.span.map (·.1)) o.span.1 p.span.1 (limitPar l o p).span.1 ∧
      Coord (l.span.map (·.2)) o.span.2 p.span.2 (limitPar l o p).span.2 := by
    intro o p
    have c1 : ∀ m a b : ℝ, 0 ≤ m → Coord (some m) a b (limit m a b) := fun m a b h => ⟨(limit_spec m a b h).1, (limit_spec m a b h).2.1⟩
    unfold limitPar
    refine ⟨?_, ?_, ?_, ?_, ?_⟩
    · cases h : l.xy with
      | none => exact rfl
      | some m => exact c1 _ _ _ (hxy m h).1
    · cases h : l.xy with
      | none => exact rfl
      | some m => exact c1 _ _ _ (hxy m h).2
    · cases h : l.z with
      | none => exact rfl
      | some m => exact c1 _ _ _ (hz m h)
    · cases h : l.span with
      | none => exact rfl
      | some m => exact c1 _ _ _ (hs m h).1
    · cases h : l.span with
      | none => exact rfl
      | some m => exact c1 _ _ _ (hs m h).2
  induction new generalizing old with
  | nil => exact ⟨[], by cases old <;> rfl, rfl, by simp⟩
  | cons p new ih =>
    cases old with
    | nil => simp at hlen
    | cons o old =>
      simp only [List.length_cons, Nat.add_right_cancel_iff] at hlen
      obtain ⟨out, h1, h2, h3⟩ := ih old hlen
      refine ⟨limitPar l o p :: out, by simp [limitAll, h1], by simp [h2], ?_⟩
      intro i a b c ha hb hc
      cases i with
      | zero =>
        simp only [List.getElem?_cons_zero, Option.some.injEq] at ha hb hc
        subst ha hb hc
        exact one _ _
      | succ i =>
        simp only [List.getElem?_cons_succ] at ha hb hc
        exact h3 i a b c ha hb hc

/-- The physical limits applied afterwards (`conform_detector`) do not undo this, for a coordinate that was within them. -/
theorem after_conform (m old new lo hi : ℝ) (hm : 0 ≤ m) (h1 : lo ≤ old) (h2 : old ≤ hi) : |clampR (limit m old new) lo hi - old| ≤ m := by
  have h := (limit_spec m old new hm).1
  generalize limit m old new = x at h
  unfold clampR
  rw [abs_le] at h ⊢
  constructor
  · rw [neg_le_sub_iff_le_add]
    rcases le_total (max x lo) hi with h3 | h3
    · rw [min_eq_left h3]; have := le_max_left x lo; linarith
    · rw [min_eq_right h3]; linarith
  · rw [sub_le_iff_le_add]
    calc min (max x lo) hi ≤ max x lo := min_le_left _ _
      _ ≤ m + old := max_le (by linarith) (by linarith)

/-- A limit below zero reverses every step (nothing rejects it). -/
theorem negative_limit_violated : limit (-1) 0 1 = -1 := by
  unfold limit
  norm_num

example : limit 0.01 0.5 (-0.5) = 0.49 := by
  unfold limit
  rw [if_pos (by norm_num [abs_of_neg]), sign_neg (by norm_num)]
  norm_num

end C48

namespace C49

/-- every address exists -/
def Valid (l : Layer) : Prop := ∀ a ∈ l.addr, a < l.store.length

/-- **C49: centring.** All panels of a layer end at their mean position; layers are treated separately. -/
theorem centred (l : Layer) : l.centre.view = l.addr.map fun _ => meanXY l.view := by
  unfold Layer.centre Layer.view
  simp only [List.map_map]
  apply List.map_congr_left
  intro a _
  simp [Layer.get, Layer.view]

theorem modify_comm_get (st : List (ℝ × ℝ)) (ads : List (Nat × (ℝ × ℝ))) (a : Nat) (ha : a < st.length) :
    ((ads.foldl (fun st ad => st.modify ad.1 fun p => (p.1 + ad.2.1, p.2 + ad.2.2)) st)[a]?).getD (0, 0) =
      ((st[a]?.getD (0, 0)).1 + ((ads.filter (·.1 = a)).map (·.2.1)).sum, (st[a]?.getD (0, 0)).2 + ((ads.filter (·.1 = a)).map (·.2.2)).sum) := by
  induction ads generalizing st with
  | nil => simp
  | cons ad ads ih =>
    obtain ⟨k, d⟩ := ad
    rw [List.foldl_cons, ih _ (by simpa using ha)]
    rw [List.getElem?_modify, List.getElem?_eq_getElem ha]
    by_cases h : k = a
    · subst h
      simp [add_assoc]
    · simp [h]

/-- An update of panels with tensors of their own moves each by its own amount. -/
theorem independent (l : Layer) (hv : Valid l) (hnd : l.addr.Nodup) (ds : List (ℝ × ℝ)) (hlen : ds.length = l.addr.length) :
    (l.step ds).view = List.zipWith (fun p d => (p.1 + d.1, p.2 + d.2)) l.view ds := by
  unfold Layer.view Layer.step
  apply List.ext_getElem?
  intro i
  simp only [List.getElem?_map, List.getElem?_zipWith]
  by_cases hi : i < l.addr.length
  · have hd : i < ds.length := by omega
    rw [List.getElem?_eq_getElem hi, List.getElem?_eq_getElem hd]
    simp only [Option.map_some]
    congr 1
    unfold Layer.get
    simp only
    rw [modify_comm_get _ _ _ (hv _ (List.getElem_mem hi))]
    have key : (l.addr.zip ds).filter (·.1 = l.addr[i]) = [(l.addr[i], ds[i])] := by
      clear hv
      generalize l.addr = as at *
      induction as generalizing ds i with
      | nil => simp at hi
      | cons a as ih =>
        cases ds with
        | nil => simp at hd
        | cons d ds =>
          simp only [List.length_cons, Nat.add_right_cancel_iff] at hlen
          rw [List.nodup_cons] at hnd
          cases i with
          | zero =>
            simp only [List.getElem_cons_zero, List.zip_cons_cons]
            rw [List.filter_cons_of_pos (by simp)]
            congr 1
            rw [List.filter_eq_nil_iff]
            rintro ⟨b, e⟩ hb
            have := (List.of_mem_zip hb).1
            simp only [decide_eq_true_eq]
            rintro rfl
            exact hnd.1 this
          | succ i =>
            simp only [List.getElem_cons_succ, List.zip_cons_cons]
            simp only [List.length_cons, Nat.add_lt_add_iff_right] at hi hd
            have := ih (ds := ds) (hlen := hlen) (i := i) (hi := hi) (hd := hd) (hnd := hnd.2)
            rw [List.filter_cons_of_neg, this]
            simp only [decide_eq_true_eq]
            intro h
            exact hnd.1 (h ▸ List.getElem_mem hi)
    rw [key]
    simp
  · rw [List.getElem?_eq_none (by omega)]
    simp

/-- **C49 (violated).** After centring all panels share one tensor, so the next update moves *every* panel by the *sum* of all the steps. -/
theorem shared_violated (l : Layer) (ds : List (ℝ × ℝ)) (hlen : ds.length = l.addr.length) :
    (l.centre.step ds).view = l.addr.map fun _ => ((meanXY l.view).1 + (ds.map (·.1)).sum, (meanXY l.view).2 + (ds.map (·.2)).sum) := by
  unfold Layer.view Layer.step Layer.centre
  simp only [List.map_map]
  apply List.map_congr_left
  intro a _
  simp only [Function.comp_def, Layer.get]
  rw [modify_comm_get _ _ _ (by simp)]
  have key : ((l.addr.map fun _ => l.store.length).zip ds).filter (·.1 = l.store.length) = (l.addr.map fun _ => l.store.length).zip ds := by
    rw [List.filter_eq_self]
    rintro ⟨b, e⟩ hb
    have := (List.of_mem_zip hb).1
    simp only [List.mem_map] at this
    obtain ⟨_, _, h⟩ := this
    simp [h]
  rw [key]
  have h1 : ((l.addr.map fun _ => l.store.length).zip ds).map (·.2) = ds := by
    rw [List.map_snd_zip]
    simp; omega
  have h2 : ∀ f : ℝ × ℝ → ℝ, ((l.addr.map fun _ => l.store.length).zip ds).map (fun x => f x.2) = ds.map f := by
    intro f
    conv_rhs => rw [← h1]
    rw [List.map_map]
    rfl
  rw [h2 (·.1), h2 (·.2)]
  simp [Layer.view]

/-- With independent tensors a step followed by centring moves the mean by the mean of the steps; with the shared tensor left by an earlier centring it
moves by their sum, i.e. by a factor of the number of panels more. Here: two panels, both pushed by 1. -/
theorem factor_violated : (Layer.step (Layer.centre ⟨[(0, 0), (2, 0)], [0, 1]⟩) [(1, 0), (1, 0)]).view = [(3, 0), (3, 0)] ∧
    (Layer.centre (Layer.step ⟨[(0, 0), (2, 0)], [0, 1]⟩ [(1, 0), (1, 0)])).view = [(2, 0), (2, 0)] := by
  constructor
  · rw [shared_violated _ _ rfl]
    simp [meanXY, Layer.view, Layer.get]
    norm_num
  · rw [centred, independent _ (by intro a ha; fin_cases ha <;> simp) (by decide) _ rfl]
    show List.replicate 2 _ = _
    simp [meanXY, Layer.view, Layer.get]
    norm_num

/-- Other kinds of detectors are refused, after the layers before them have been centred. -/
theorem other_error (l : Layer) (ds : List Det) : centreAll (.panels l :: .otherKind :: ds) = (.error .notImplemented, .panels l.centre :: .otherKind :: ds) := rfl

end C49

namespace C50

/-- **C50.** If it returns, no gradient has a NaN (or an infinity) left: numbers are untouched, NaN are 0. -/
def Clean (M : ℝ) (g g' : XF) : Prop :=
  g'.isFinite = true ∧ (∀ x, g = .num x → g' = .num x) ∧ (g = .nan → g' = .num 0) ∧ (g = .pinf → g' = .num M) ∧ (g = .ninf → g' = .num (-M))

theorem clean_one (M : ℝ) (g : XF) : Clean M g (nanToNum M g) := by
  cases g <;> refine ⟨rfl, ?_, ?_, ?_, ?_⟩ <;> intros <;> simp_all [nanToNum]

/-- every entry of a list of gradients -/
def AllClean (M : ℝ) (gs gs' : List (Option (List XF))) : Prop :=
  List.Forall₂ (fun g g' => ∃ a b, g = some a ∧ g' = some b ∧ List.Forall₂ (Clean M) a b) gs gs'

theorem fixGrad_spec (M : ℝ) (g g' : Option (List XF)) (h : fixGrad M g = .ok g') : ∃ a b, g = some a ∧ g' = some b ∧ List.Forall₂ (Clean M) a b := by
  cases g with
  | none => simp [fixGrad] at h
  | some a =>
    simp only [fixGrad, Except.ok.injEq] at h
    refine ⟨a, a.map (nanToNum M), rfl, h.symm, ?_⟩
    rw [List.forall₂_map_right_iff]
    exact List.forall₂_same.mpr fun x _ => clean_one M x

theorem fixGrads_spec (M : ℝ) (gs gs' : List (Option (List XF))) (h : fixGrads M gs = .ok gs') : AllClean M gs gs' := by
  induction gs generalizing gs' with
  | nil => simp only [fixGrads, Except.ok.injEq] at h; subst h; exact .nil
  | cons g gs ih =>
    unfold fixGrads at h
    cases h1 : fixGrad M g with
    | error e => simp [h1] at h
    | ok a =>
      cases h2 : fixGrads M gs with
      | error e => simp [h1, h2] at h
      | ok b =>
        simp only [h1, h2, Except.ok.injEq] at h
        subst h
        exact .cons (fixGrad_spec M g a h1) (ih b h2)

/-- layers correspond -/
def DetClean (M : ℝ) : GDet → GDet → Prop
  | .panels gs, .panels gs' => AllClean M gs gs'
  | _, _ => False

/-- **C50.** Whenever `NoMoreNaNs` returns, every gradient of every panel and of the budget weights is finite; finite ones are unchanged and NaN became 0. -/
theorem no_nan (M : ℝ) (budget budget' : Option (Option (List XF))) (ds ds' : List GDet) (h : noMoreNaNs M budget ds = .ok (budget', ds')) :
    (match budget, budget' with
      | none, none => True
      | some b, some b' => ∃ a c, b = some a ∧ b' = some c ∧ List.Forall₂ (Clean M) a c
      | _, _ => False) ∧ List.Forall₂ (DetClean M) ds ds' := by
  have dets : ∀ ds ds', fixDets M ds = .ok ds' → List.Forall₂ (DetClean M) ds ds' := by
    intro ds
    induction ds with
    | nil => intro ds' h; simp only [fixDets, Except.ok.injEq] at h; subst h; exact .nil
    | cons d ds ih =>
      intro ds' h
      cases d with
      | otherKind => simp [fixDets] at h
      | panels gs =>
        unfold fixDets at h
        cases h1 : fixGrads M gs with
        | error e => simp [h1] at h
        | ok a =>
          cases h2 : fixDets M ds with
          | error e => simp [h1, h2] at h
          | ok b =>
            simp only [h1, h2, Except.ok.injEq] at h
            subst h
            exact .cons (fixGrads_spec M gs a h1) (ih b h2)
  unfold noMoreNaNs at h
  cases budget with
  | none =>
    cases h2 : fixDets M ds with
    | error e => simp [h2] at h
    | ok b =>
      simp only [h2, Except.ok.injEq, Prod.mk.injEq] at h
      obtain ⟨rfl, rfl⟩ := h
      exact ⟨trivial, dets _ _ h2⟩
  | some g =>
    cases h1 : fixGrad M g with
    | error e => simp [h1] at h
    | ok a =>
      cases h2 : fixDets M ds with
      | error e => simp [h1, h2] at h
      | ok b =>
        simp only [h1, h2, Except.ok.injEq, Prod.mk.injEq] at h
        obtain ⟨rfl, rfl⟩ := h
        exact ⟨fixGrad_spec M g a h1, dets _ _ h2⟩

/-- If all gradients exist and all layers have panels, it does return. -/
theorem returns (M : ℝ) (budget : Option (List XF)) (ds : List (List (List XF))) :
    ∃ r, noMoreNaNs M (budget.map some) (ds.map fun gs => .panels (gs.map some)) = .ok r := by
  have h1 : ∀ gs : List (List XF), ∃ r, fixGrads M (gs.map some) = .ok r := by
    intro gs
    induction gs with
    | nil => exact ⟨_, rfl⟩
    | cons g gs ih =>
      obtain ⟨r, hr⟩ := ih
      exact ⟨some (g.map (nanToNum M)) :: r, by simp [fixGrads, fixGrad, hr]⟩
  have h2 : ∃ r, fixDets M (ds.map fun gs => .panels (gs.map some)) = .ok r := by
    induction ds with
    | nil => exact ⟨_, rfl⟩
    | cons gs ds ih =>
      obtain ⟨r, hr⟩ := ih
      obtain ⟨q, hq⟩ := h1 gs
      exact ⟨.panels q :: r, by simp [fixDets, hr, hq]⟩
  obtain ⟨r, hr⟩ := h2
  cases budget with
  | none => exact ⟨(none, r), by simp [noMoreNaNs, hr]⟩
  | some b => exact ⟨(some (some (b.map (nanToNum M))), r), by simp [noMoreNaNs, hr, fixGrad]⟩

/-- **C50 (fails loudly).** A gradient that does not exist (as after an update round without a loss, where there was no backward pass) raises instead. -/
theorem none_grad_error (M : ℝ) (gs : List (Option (List XF))) (ds : List GDet) : noMoreNaNs M none (.panels (none :: gs) :: ds) = .error .typeError := rfl

end C50

namespace C73

theorem ten_pow_logb (a : ℝ) (ha : 0 < a) : (10 : ℝ) ^ Real.logb 10 a = a := Real.rpow_logb (by norm_num) (by norm_num) ha

/-- The value at a fraction `t` between `a` and `b` on a logarithmic scale. -/
def geo (a b t : ℝ) : ℝ := a * (b / a) ^ t

theorem logspace_eq (a b : ℝ) (ha : 0 < a) (hb : 0 < b) (t : ℝ) : (10 : ℝ) ^ (Real.logb 10 a + (Real.logb 10 b - Real.logb 10 a) * t) = geo a b t := by
  rw [Real.rpow_add (by norm_num), ten_pow_logb a ha, Real.rpow_mul (by norm_num), Real.rpow_sub (by norm_num), ten_pow_logb a ha, ten_pow_logb b hb]
  rfl

/-- **C73.** In a fit of `n` epochs where the schedule became active in epoch `act < n`, the smoothness in epoch `e` is the initial value up to epoch `act`
and then goes geometrically to the final value, which it has exactly in the last epoch. -/
theorem schedule (r : ℝ × ℝ) (h1 : 0 < r.1) (h2 : 0 < r.2) (n act e : Nat) (hact : 1 ≤ act) (hn : act < n) (he : e ≤ n) :
    smoothAt r n act e = .ok (if e ≤ act then r.1 else geo r.1 r.2 (((e - act : ℕ) : ℝ) / ((n - act : ℕ) : ℝ))) ∧
    geo r.1 r.2 (((n - act : ℕ) : ℝ) / ((n - act : ℕ) : ℝ)) = r.2 := by
  have hna : ((n - act : ℕ) : ℝ) ≠ 0 := by
    have : n - act ≠ 0 := by omega
    exact_mod_cast this
  constructor
  · unfold smoothAt
    by_cases h : e < act
    · rw [if_pos h, if_pos (by omega)]
    · rw [if_neg h]
      simp only [logspace]
      have hi : ((e : ℤ) - ((act : ℤ) - 1) - 1) = ((e - act : ℕ) : ℤ) := by omega
      have hm : ((n : ℤ) - ((act : ℤ) - 1)) = ((n - act + 1 : ℕ) : ℤ) := by omega
      rw [hi, hm, if_neg (by omega), if_neg (by omega), if_neg (by omega), if_neg (by omega)]
      have hc : (((n - act + 1 : ℕ) : ℤ) : ℝ) - 1 = ((n - act : ℕ) : ℝ) := by push_cast; ring
      rw [hc, mul_div_assoc, logspace_eq _ _ h1 h2]
      by_cases h3 : e ≤ act
      · obtain rfl : e = act := by omega
        rw [if_pos h3]
        simp [geo]
      · rw [if_neg h3]
        rfl
  · rw [div_self hna, geo, Real.rpow_one]
    field_simp

/-- The values never leave the given range, and move in one direction. -/
theorem geo_mono (a b s t : ℝ) (ha : 0 < a) (hb : 0 < b) (hs : 0 ≤ s) (hst : s ≤ t) (ht : t ≤ 1) :
    0 < geo a b t ∧ (a ≤ b → a ≤ geo a b s ∧ geo a b s ≤ geo a b t ∧ geo a b t ≤ b) ∧ (b ≤ a → geo a b s ≤ a ∧ geo a b t ≤ geo a b s ∧ b ≤ geo a b t) := by
  have hr : 0 < b / a := div_pos hb ha
  have hb1 : geo a b 1 = b := by rw [geo, Real.rpow_one]; field_simp
  refine ⟨mul_pos ha (Real.rpow_pos_of_pos hr t), fun h => ?_, fun h => ?_⟩
  · have h1 : 1 ≤ b / a := by rw [le_div_iff₀ ha]; linarith
    refine ⟨?_, mul_le_mul_of_nonneg_left (Real.rpow_le_rpow_of_exponent_le h1 hst) ha.le, ?_⟩
    · calc a = a * 1 := (mul_one a).symm
        _ ≤ geo a b s := mul_le_mul_of_nonneg_left (Real.one_le_rpow h1 hs) ha.le
    · conv_rhs => rw [← hb1]
      exact mul_le_mul_of_nonneg_left (Real.rpow_le_rpow_of_exponent_le h1 ht) ha.le
  · have h1 : b / a ≤ 1 := by rw [div_le_one ha]; exact h
    refine ⟨?_, mul_le_mul_of_nonneg_left (Real.rpow_le_rpow_of_exponent_ge hr h1 hst) ha.le, ?_⟩
    · calc geo a b s ≤ a * 1 := mul_le_mul_of_nonneg_left (Real.rpow_le_one hr.le h1 hs) ha.le
        _ = a := mul_one a
    · conv_lhs => rw [← hb1]
      exact mul_le_mul_of_nonneg_left (Real.rpow_le_rpow_of_exponent_ge hr h1 ht) ha.le

/-- **C73 (violated).** If only the last epoch remains after the warm-ups (or there is only one epoch), the smoothness stays at its initial value. -/
theorem single_epoch_violated (r : ℝ × ℝ) (h1 : 0 < r.1) (n : Nat) (hn : 1 ≤ n) : smoothAt r n n n = .ok r.1 := by
  unfold smoothAt
  rw [if_neg (by omega)]
  simp only [logspace]
  have hi : ((n : ℤ) - ((n : ℤ) - 1) - 1) = 0 := by omega
  have hm : ((n : ℤ) - ((n : ℤ) - 1)) = 1 := by omega
  rw [hi, hm]
  simp only [lt_irrefl, if_false, if_true]
  rw [if_neg (by omega), if_neg (by norm_num), ten_pow_logb _ h1]

example : smoothAt (1, 0.01) 4 2 3 = .ok (geo 1 0.01 (1 / 2)) := by
  rw [(schedule (1, 0.01) (by norm_num) (by norm_num) 4 2 3 (by decide) (by decide) (by decide)).1]
  norm_num

end C73

end

end Tomopt
