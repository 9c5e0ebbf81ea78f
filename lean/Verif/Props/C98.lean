import Verif.Props.C37_39
import Mathlib.Analysis.Calculus.Deriv.Pow
import Mathlib.Analysis.Real.Pi.Bounds

/- C98: what the X0 of a voxel is computed from. -/
namespace Tomopt

noncomputable section

open Real Infer

namespace C98

/-- a muon as a voxel sees it: its variables, its efficiency, the probability that it scattered in the voxel -/
structure Seen where
  row : MuRow
  eff : ℝ
  prob : ℝ

/-- the X0 the code computes for a voxel from these muons -/
def predicted (big size : ℝ) (ms : List Seen) : XF := voxelX0 big size (ms.map (·.row)) (ms.map (·.eff)) (ms.map (·.prob))

/-- weighted mean -/
def wmean {β : Type} (w f : β → ℝ) (l : List β) : ℝ := (l.map fun m => w m * f m).sum / (l.map w).sum

/-- variance of the square of a quantity with value `x` and uncertainty `u`, to first order -/
def squareVar (x u : ℝ) : ℝ := (deriv (fun t : ℝ => t ^ 2) x * u) ^ 2

theorem squareVar_eq (x u : ℝ) : squareVar x u = (2 * x * u) ^ 2 := by
  simp [squareVar]

/-- weight of a muon for one of its variables: efficiency times probability over the variance of the square -/
def weight (x u : MuRow → ℝ) (m : Seen) : ℝ := m.eff * m.prob / squareVar (x m.row) (u m.row)

/-- a usable muon: seen, scattered, slanted, downwards, with errors on the angles and none on the momentum -/
structure Good (m : Seen) : Prop where
  eff : 0 < m.eff
  prob : 0 < m.prob
  scat : 0 < m.row.scat
  scatUnc : 0 < m.row.scatUnc
  thIn : 0 < m.row.thIn ∧ m.row.thIn < π / 2
  thInUnc : 0 < m.row.thInUnc
  thOut : 0 < m.row.thOut ∧ m.row.thOut < π / 2
  thOutUnc : 0 < m.row.thOutUnc
  mom : 0 < m.row.mom
  momUnc : m.row.momUnc = 0

theorem zip_map {β : Type} (f g h : β → ℝ) (k : ℝ → ℝ → ℝ) (l : List β) (hk : ∀ m ∈ l, k (f m) (g m) = h m) :
    List.zipWith k (l.map f) (l.map g) = l.map h := by
  induction l with
  | nil => rfl
  | cons a l ih => simp only [List.map_cons, List.zipWith_cons_cons, hk a (by simp), ih fun m hm => hk m (by simp [hm])]

theorem rms_eq {β : Type} (x w : β → ℝ) (l : List β) (h : (l.map w).sum ≠ 0) :
    weightedRms (l.map x) (l.map w) = some (sqrt (wmean w (fun m => x m ^ 2) l)) := by
  rw [weightedRms, if_neg h, zip_map x w (fun m => w m * x m ^ 2) _ l (fun m _ => by ring)]
  rfl

theorem wgt_eq (big : ℝ) (x u : MuRow → ℝ) (ms : List Seen) (h : ∀ m ∈ ms, x m.row ≠ 0 ∧ u m.row ≠ 0) :
    List.zipWith (fun w v => nanToNum big (XF.quot w v)) (List.zipWith (· * ·) (ms.map (·.eff)) (ms.map (·.prob))) ((ms.map (·.row)).map fun r => sqVar (x r) (u r)) =
      ms.map (weight x u) := by
  rw [zip_map (·.eff) (·.prob) (fun m => m.eff * m.prob) _ ms (fun _ _ => rfl), List.map_map]
  refine zip_map (fun m : Seen => m.eff * m.prob) (fun m => sqVar (x m.row) (u m.row)) _ _ ms fun m hm => ?_
  obtain ⟨hx, hu⟩ := h m hm
  have : sqVar (x m.row) (u m.row) ≠ 0 := pow_ne_zero 2 (mul_ne_zero (mul_ne_zero two_ne_zero hx) hu)
  rw [XF.quot, if_pos this, nanToNum, weight, squareVar_eq]
  rfl

theorem sum_pos_of {β : Type} (w : β → ℝ) (l : List β) (hne : l ≠ []) (h : ∀ m ∈ l, 0 < w m) : 0 < (l.map w).sum :=
  sum_pos' _ (by simpa using hne) (by intro x hx; obtain ⟨m, hm, rfl⟩ := List.mem_map.mp hx; exact h m hm)

theorem wmean_pos {β : Type} (w f : β → ℝ) (l : List β) (hne : l ≠ []) (h : ∀ m ∈ l, 0 < w m) (hf : ∀ m ∈ l, 0 < f m) : 0 < wmean w f l :=
  div_pos (sum_pos_of _ l hne fun m hm => mul_pos (h m hm) (hf m hm)) (sum_pos_of w l hne h)

theorem sum_lt_of {β : Type} (f g : β → ℝ) : ∀ (l : List β), l ≠ [] → (∀ m ∈ l, f m < g m) → (l.map f).sum < (l.map g).sum
  | [], h, _ => absurd rfl h
  | [a], _, h => by simpa using h a (by simp)
  | a :: b :: l, _, h => by
    have := sum_lt_of f g (b :: l) (by simp) fun m hm => h m (by simp only [List.mem_cons] at hm ⊢; tauto)
    have h1 := h a (by simp)
    simp only [List.map_cons, List.sum_cons] at *
    linarith

theorem wmean_lt {β : Type} (w f : β → ℝ) (c : ℝ) (l : List β) (hne : l ≠ []) (h : ∀ m ∈ l, 0 < w m) (hf : ∀ m ∈ l, f m < c) : wmean w f l < c := by
  rw [wmean, div_lt_iff₀ (sum_pos_of w l hne h), ← C71.sum_mul_left]
  exact sum_lt_of _ _ l hne fun m hm => by nlinarith [h m hm, hf m hm]

/-- the value of the PDG formula without its logarithm, solved for X0 -/
def fromSquares (size scatter2 thIn thOut mom2 : ℝ) : ℝ :=
  scatterCoefA ^ 2 * size / (mom2 * (scatter2 / 2) * ((cos thIn + cos thOut) / 2))

theorem weight_pos {x u : MuRow → ℝ} {m : Seen} (he : 0 < m.eff) (hp : 0 < m.prob) (hx : 0 < x m.row) (hu : 0 < u m.row) : 0 < weight x u m := by
  rw [weight, squareVar_eq]; positivity

/-- **C98.** The X0 of a voxel: the four quantities entering the inverted PDG formula are means of squares, for the angles with the muons' efficiencies times
their probabilities for this voxel over the first-order variances of the squares as weights, for the momentum with efficiencies times probabilities. -/
theorem estimate (big size : ℝ) (ms : List Seen) (hne : ms ≠ []) (hg : ∀ m ∈ ms, Good m) :
    predicted big size ms = .num (fromSquares size
      (wmean (weight (·.scat) (·.scatUnc)) (fun m => m.row.scat ^ 2) ms)
      (sqrt (wmean (weight (·.thIn) (·.thInUnc)) (fun m => m.row.thIn ^ 2) ms))
      (sqrt (wmean (weight (·.thOut) (·.thOutUnc)) (fun m => m.row.thOut ^ 2) ms))
      (wmean (fun m => m.eff * m.prob) (fun m => m.row.mom ^ 2) ms)) := by
  have w1 : ∀ m ∈ ms, 0 < weight (·.scat) (·.scatUnc) m := fun m hm => weight_pos (hg m hm).eff (hg m hm).prob (hg m hm).scat (hg m hm).scatUnc
  have w2 : ∀ m ∈ ms, 0 < weight (·.thIn) (·.thInUnc) m := fun m hm => weight_pos (hg m hm).eff (hg m hm).prob (hg m hm).thIn.1 (hg m hm).thInUnc
  have w3 : ∀ m ∈ ms, 0 < weight (·.thOut) (·.thOutUnc) m := fun m hm => weight_pos (hg m hm).eff (hg m hm).prob (hg m hm).thOut.1 (hg m hm).thOutUnc
  have w4 : ∀ m ∈ ms, 0 < m.eff * m.prob := fun m hm => mul_pos (hg m hm).eff (hg m hm).prob
  have hmom : ((ms.map (·.row)).map fun r => sqVar r.mom r.momUnc).all (fun v => decide (v = 0)) = true := by
    simp only [List.all_eq_true, List.mem_map, decide_eq_true_eq]
    rintro v ⟨r, ⟨m, hm, rfl⟩, rfl⟩
    simp [sqVar, (hg m hm).momUnc]
  have hone : List.zipWith (fun w v => nanToNum big (XF.quot w v)) (List.zipWith (· * ·) (ms.map (·.eff)) (ms.map (·.prob))) ((ms.map (·.row)).map fun _ => (1:ℝ)) =
      ms.map fun m => m.eff * m.prob := by
    rw [zip_map (·.eff) (·.prob) (fun m => m.eff * m.prob) _ ms (fun _ _ => rfl), List.map_map]
    refine zip_map (fun m : Seen => m.eff * m.prob) (fun _ => (1:ℝ)) _ _ ms fun m _ => ?_
    rw [XF.quot, if_pos one_ne_zero, nanToNum, div_one]
  have key : ∀ x : MuRow → ℝ, (ms.map (·.row)).map x = ms.map fun m => x m.row := fun x => by rw [List.map_map]; rfl
  have g1 := wmean_pos _ (fun m => m.row.scat ^ 2) ms hne w1 fun m hm => pow_pos (hg m hm).scat 2
  have g4 := wmean_pos _ (fun m => m.row.mom ^ 2) ms hne w4 fun m hm => pow_pos (hg m hm).mom 2
  have hpi := pi_pos
  have c2 : 0 < cos (sqrt (wmean (weight (·.thIn) (·.thInUnc)) (fun m => m.row.thIn ^ 2) ms)) := by
    apply cos_pos_of_mem_Ioo
    refine ⟨by have := sqrt_nonneg (wmean (weight (·.thIn) (·.thInUnc)) (fun m => m.row.thIn ^ 2) ms); linarith, ?_⟩
    rw [sqrt_lt' (by positivity)]
    exact wmean_lt _ _ _ ms hne w2 fun m hm => pow_lt_pow_left₀ (hg m hm).thIn.2 (hg m hm).thIn.1.le two_ne_zero
  have c3 : 0 < cos (sqrt (wmean (weight (·.thOut) (·.thOutUnc)) (fun m => m.row.thOut ^ 2) ms)) := by
    apply cos_pos_of_mem_Ioo
    refine ⟨by have := sqrt_nonneg (wmean (weight (·.thOut) (·.thOutUnc)) (fun m => m.row.thOut ^ 2) ms); linarith, ?_⟩
    rw [sqrt_lt' (by positivity)]
    exact wmean_lt _ _ _ ms hne w3 fun m hm => pow_lt_pow_left₀ (hg m hm).thOut.2 (hg m hm).thOut.1.le two_ne_zero
  unfold predicted voxelX0
  simp only [hmom, if_true, hone]
  rw [wgt_eq big (·.scat) (·.scatUnc) ms fun m hm => ⟨(hg m hm).scat.ne', (hg m hm).scatUnc.ne'⟩,
    wgt_eq big (·.thIn) (·.thInUnc) ms fun m hm => ⟨(hg m hm).thIn.1.ne', (hg m hm).thInUnc.ne'⟩,
    wgt_eq big (·.thOut) (·.thOutUnc) ms fun m hm => ⟨(hg m hm).thOut.1.ne', (hg m hm).thOutUnc.ne'⟩,
    key (·.scat), key (·.thIn), key (·.thOut), key (·.mom),
    rms_eq _ _ ms (sum_pos_of _ ms hne w1).ne', rms_eq _ _ ms (sum_pos_of _ ms hne w2).ne', rms_eq _ _ ms (sum_pos_of _ ms hne w3).ne',
    rms_eq _ _ ms (sum_pos_of _ ms hne w4).ne']
  generalize wmean (weight (·.scat) (·.scatUnc)) (fun m => m.row.scat ^ 2) ms = S at *
  generalize sqrt (wmean (weight (·.thIn) (·.thInUnc)) (fun m => m.row.thIn ^ 2) ms) = I at *
  generalize sqrt (wmean (weight (·.thOut) (·.thOutUnc)) (fun m => m.row.thOut ^ 2) ms) = O at *
  generalize wmean (fun m : Seen => m.eff * m.prob) (fun m => m.row.mom ^ 2) ms = M at *
  have hS : (sqrt S / sqrt 2) ^ 2 = S / 2 := by rw [div_pow, sq_sqrt g1.le, sq_sqrt (by norm_num)]
  have hM : sqrt M ≠ 0 := (sqrt_pos.mpr g4).ne'
  have hden : (sqrt S / sqrt 2) ^ 2 * ((cos I + cos O) / 2) ≠ 0 := by rw [hS]; positivity
  simp only [x0FromScatters, XF.quot, hM, ne_eq, not_false_eq_true, if_true, xsq, xmulR, XF.div, hden, XF.num.injEq]
  rw [hS, div_pow, sq_sqrt g4.le, fromSquares]
  field_simp

/-- weight of a muon's scattering when its uncertainty alone counts -/
def plain (m : Seen) : ℝ := m.eff * m.prob / m.row.scatUnc ^ 2

/-- weighted harmonic mean -/
def hmean {β : Type} (w f : β → ℝ) (l : List β) : ℝ := (l.map w).sum / (l.map fun m => w m / f m).sum

theorem sum_congr {β : Type} {f g : β → ℝ} {l : List β} (h : ∀ m ∈ l, f m = g m) : (l.map f).sum = (l.map g).sum := by
  rw [List.map_congr_left h]

/-- **Because the variance of a square grows with the value, the mean of the squared scatterings is their harmonic mean.** -/
theorem harmonic (ms : List Seen) (hg : ∀ m ∈ ms, Good m) :
    wmean (weight (·.scat) (·.scatUnc)) (fun m => m.row.scat ^ 2) ms = hmean plain (fun m => m.row.scat ^ 2) ms := by
  have e1 : (ms.map fun m => weight (·.scat) (·.scatUnc) m * m.row.scat ^ 2).sum = 1 / 4 * (ms.map plain).sum := by
    rw [← C71.sum_mul_left]
    refine sum_congr fun m hm => ?_
    have := (hg m hm).scat.ne'
    have := (hg m hm).scatUnc.ne'
    rw [weight, squareVar_eq, plain]; field_simp; norm_num
  have e2 : (ms.map (weight (·.scat) (·.scatUnc))).sum = 1 / 4 * (ms.map fun m => plain m / m.row.scat ^ 2).sum := by
    rw [← C71.sum_mul_left]
    refine sum_congr fun m hm => ?_
    have := (hg m hm).scat.ne'
    have := (hg m hm).scatUnc.ne'
    rw [weight, squareVar_eq, plain]; field_simp; norm_num
  rw [wmean, e1, e2, mul_div_mul_left _ _ (by norm_num), hmean]

theorem spread {β : Type} (v q : β → ℝ) (h : ℝ) (l : List β) (hq : ∀ m ∈ l, q m ≠ 0) : (l.map fun m => v m * ((q m - h) ^ 2 / q m)).sum =
    (l.map fun m => v m * q m).sum - 2 * h * (l.map v).sum + h ^ 2 * (l.map fun m => v m / q m).sum := by
  induction l with
  | nil => simp
  | cons a l ih =>
    have h0 := hq a (by simp)
    simp only [List.map_cons, List.sum_cons, ih fun m hm => hq m (by simp [hm])]
    field_simp
    ring

/-- The mean exceeds the harmonic mean by the mean of the squared relative deviations. -/
theorem excess {β : Type} (v q : β → ℝ) (l : List β) (hne : l ≠ []) (hv : ∀ m ∈ l, 0 < v m) (hq : ∀ m ∈ l, 0 < q m) :
    wmean v q l = hmean v q l + wmean v (fun m => (q m - hmean v q l) ^ 2 / q m) l := by
  have h1 := sum_pos_of v l hne hv
  have h2 := sum_pos_of (fun m => v m / q m) l hne fun m hm => div_pos (hv m hm) (hq m hm)
  rw [wmean, wmean, spread v q _ l fun m hm => (hq m hm).ne', hmean]
  field_simp
  ring

/-- **The estimate is too large.** Let the muons of a voxel have the same momentum and angle. If their squared scatterings average to the value of the PDG formula for
radiation length `x0`, the estimated X0 is at least `x0`, and more as soon as two muons scattered differently. -/
theorem overestimates (big size : ℝ) (hsz : 0 < size) (ms : List Seen) (hne : ms ≠ []) (hg : ∀ m ∈ ms, Good m) (x0 mom th : ℝ) (hx : 0 < x0)
    (hr : ∀ m ∈ ms, m.row.thIn = th ∧ m.row.thOut = th ∧ m.row.mom = mom)
    (havg : wmean plain (fun m => m.row.scat ^ 2) ms = 2 * C38.theta0FirstOrder x0 mom (size / cos th) ^ 2) :
    ∃ x, predicted big size ms = .num x ∧ x0 ≤ x ∧ ∀ m ∈ ms, ∀ m' ∈ ms, m.row.scat ≠ m'.row.scat → x0 < x := by
  have hv : ∀ m ∈ ms, 0 < plain m := fun m hm => by
    have := (hg m hm).eff; have := (hg m hm).prob; have := (hg m hm).scatUnc
    unfold plain; positivity
  have hq : ∀ m ∈ ms, 0 < m.row.scat ^ 2 := fun m hm => pow_pos (hg m hm).scat 2
  obtain ⟨m0, hm0⟩ := List.exists_mem_of_ne_nil ms hne
  obtain ⟨ht, -, hmm⟩ := hr m0 hm0
  have hmom : 0 < mom := hmm ▸ (hg m0 hm0).mom
  have hth : 0 < th ∧ th < π / 2 := ht ▸ (hg m0 hm0).thIn
  have hc : 0 < cos th := cos_pos_of_mem_Ioo ⟨by linarith [pi_pos], hth.2⟩
  have const : ∀ (w f : Seen → ℝ) (c : ℝ), (∀ m ∈ ms, 0 < w m) → (∀ m ∈ ms, f m = c) → wmean w f ms = c := by
    intro w f c hw hf
    rw [wmean, div_eq_iff (sum_pos_of w ms hne hw).ne', ← C71.sum_mul_left]
    exact sum_congr fun m hm => by rw [hf m hm, mul_comm]
  rw [estimate big size ms hne hg, harmonic ms hg,
    const (weight (·.thIn) (·.thInUnc)) (fun m => m.row.thIn ^ 2) (th ^ 2) (fun m hm => weight_pos (hg m hm).eff (hg m hm).prob (hg m hm).thIn.1 (hg m hm).thInUnc)
      (fun m hm => by rw [(hr m hm).1]),
    const (weight (·.thOut) (·.thOutUnc)) (fun m => m.row.thOut ^ 2) (th ^ 2) (fun m hm => weight_pos (hg m hm).eff (hg m hm).prob (hg m hm).thOut.1 (hg m hm).thOutUnc)
      (fun m hm => by rw [(hr m hm).2.1]),
    const (fun m => m.eff * m.prob) (fun m => m.row.mom ^ 2) (mom ^ 2) (fun m hm => mul_pos (hg m hm).eff (hg m hm).prob) (fun m hm => by rw [(hr m hm).2.2]),
    sqrt_sq hth.1.le]
  have hex := excess plain (fun m => m.row.scat ^ 2) ms hne hv hq
  rw [havg] at hex
  have hh : 0 < hmean plain (fun m => m.row.scat ^ 2) ms :=
    div_pos (sum_pos_of plain ms hne hv) (sum_pos_of _ ms hne fun m hm => div_pos (hv m hm) (hq m hm))
  generalize hmean plain (fun m => m.row.scat ^ 2) ms = h at *
  have hA := C38.A_pos
  have h0 : C38.theta0FirstOrder x0 mom (size / cos th) ^ 2 = scatterCoefA ^ 2 * size / (mom ^ 2 * (cos th * x0)) := by
    unfold C38.theta0FirstOrder
    rw [mul_pow, sq_sqrt (by positivity)]
    field_simp
  have val : fromSquares size h th th (mom ^ 2) = x0 * (2 * C38.theta0FirstOrder x0 mom (size / cos th) ^ 2 / h) := by
    rw [h0, fromSquares]; field_simp; norm_num
  have hspread : 0 ≤ wmean plain (fun m => (m.row.scat ^ 2 - h) ^ 2 / m.row.scat ^ 2) ms := by
    refine div_nonneg (sum_nonneg' _ ?_) (sum_pos_of plain ms hne hv).le
    intro x hxm
    obtain ⟨m, hm, rfl⟩ := List.mem_map.mp hxm
    exact mul_nonneg (hv m hm).le (by positivity)
  refine ⟨_, rfl, ?_, ?_⟩
  · rw [val]
    have : 1 ≤ 2 * C38.theta0FirstOrder x0 mom (size / cos th) ^ 2 / h := by rw [le_div_iff₀ hh]; linarith
    nlinarith
  · intro m hm m' hm' hmne
    rw [val]
    have hpos : 0 < wmean plain (fun m => (m.row.scat ^ 2 - h) ^ 2 / m.row.scat ^ 2) ms := by
      refine div_pos ?_ (sum_pos_of plain ms hne hv)
      have hsome : ∃ n ∈ ms, n.row.scat ^ 2 ≠ h := by
        by_contra hall
        push Not at hall
        apply hmne
        have := (hall m hm).trans (hall m' hm').symm
        exact (pow_left_inj₀ (hg m hm).scat.le (hg m' hm').scat.le two_ne_zero).mp this
      obtain ⟨n, hn, hne'⟩ := hsome
      obtain ⟨l1, l2, rfl⟩ := List.append_of_mem hn
      have nn : ∀ l : List Seen, (∀ m ∈ l, m ∈ l1 ++ n :: l2) → 0 ≤ (l.map fun m => plain m * ((m.row.scat ^ 2 - h) ^ 2 / m.row.scat ^ 2)).sum := by
        intro l hl
        refine sum_nonneg' _ ?_
        intro x hxm
        obtain ⟨k, hk, rfl⟩ := List.mem_map.mp hxm
        exact mul_nonneg (hv k (hl k hk)).le (by positivity)
      have a1 := nn l1 (by intro k hk; simp [hk])
      have a2 := nn l2 (by intro k hk; simp [hk])
      have a3 : 0 < plain n * ((n.row.scat ^ 2 - h) ^ 2 / n.row.scat ^ 2) :=
        mul_pos (hv n hn) (div_pos (by have := sub_ne_zero.mpr hne'; positivity) (hq n hn))
      simp only [List.map_append, List.map_cons, List.sum_append, List.sum_cons]
      linarith
    have : 1 < 2 * C38.theta0FirstOrder x0 mom (size / cos th) ^ 2 / h := by rw [lt_div_iff₀ hh]; linarith
    nlinarith

theorem zip3_perm {β : Type} {l l' : List β} (h : l.Perm l') (f : β → ℝ) : (l.map f).sum = (l'.map f).sum := (h.map f).sum_eq

/-- The order in which the muons came does not matter. -/
theorem order (big size : ℝ) (ms ms' : List Seen) (h : ms.Perm ms') : predicted big size ms = predicted big size ms' := by
  have rms : ∀ (x w : Seen → ℝ), weightedRms (ms.map x) (ms.map w) = weightedRms (ms'.map x) (ms'.map w) := by
    intro x w
    rw [weightedRms, weightedRms, zip_map x w (fun m => x m ^ 2 * w m) _ ms (fun m _ => rfl), zip_map x w (fun m => x m ^ 2 * w m) _ ms' (fun m _ => rfl),
      zip3_perm h w, zip3_perm h]
  have hz : ∀ (l : List Seen) (v : Seen → ℝ), List.zipWith (fun w v => nanToNum big (XF.quot w v)) (List.zipWith (· * ·) (l.map (·.eff)) (l.map (·.prob))) (l.map v) =
      l.map fun m => nanToNum big (XF.quot (m.eff * m.prob) (v m)) := by
    intro l v
    rw [zip_map (·.eff) (·.prob) (fun m => m.eff * m.prob) _ l (fun _ _ => rfl)]
    exact zip_map (fun m : Seen => m.eff * m.prob) v _ _ l fun m _ => rfl
  have hm : ∀ (l : List Seen) (x : MuRow → ℝ), (l.map (·.row)).map x = l.map fun m => x m.row := fun l x => by rw [List.map_map]; rfl
  have hall : ((ms.map (·.row)).map fun r => sqVar r.mom r.momUnc).all (fun v => decide (v = 0)) = ((ms'.map (·.row)).map fun r => sqVar r.mom r.momUnc).all fun v => decide (v = 0) := by
    rw [Bool.eq_iff_iff]
    simp only [List.all_eq_true, List.mem_map, h.mem_iff]
  unfold predicted voxelX0
  simp only [hall]
  generalize ((ms'.map (·.row)).map fun r => sqVar r.mom r.momUnc).all (fun v => decide (v = 0)) = c
  cases c <;> simp only [Bool.false_eq_true, if_false, if_true, hm, hz, rms]

/-- Scaling all efficiencies, or all probabilities, changes nothing. -/
theorem rescale (big size k : ℝ) (hk : 0 < k) (ms : List Seen) (hne : ms ≠ []) (hg : ∀ m ∈ ms, Good m) :
    predicted big size (ms.map fun m => { m with eff := k * m.eff }) = predicted big size ms ∧
    predicted big size (ms.map fun m => { m with prob := k * m.prob }) = predicted big size ms := by
  have sc : ∀ (w w' f : Seen → ℝ), (∀ m, w' m = k * w m) → (ms.map fun m => w' m * f m).sum / (ms.map w').sum = wmean w f ms := by
    intro w w' f hw
    have e1 : (ms.map fun m => w' m * f m).sum = k * (ms.map fun m => w m * f m).sum := by
      rw [← C71.sum_mul_left]; exact sum_congr fun m _ => by rw [hw, mul_assoc]
    have e2 : (ms.map w').sum = k * (ms.map w).sum := by
      rw [← C71.sum_mul_left]; exact sum_congr fun m _ => hw m
    rw [e1, e2, mul_div_mul_left _ _ hk.ne', wmean]
  constructor
  · rw [estimate big size _ (by simpa using hne) (by
      intro m hm; obtain ⟨n, hn, rfl⟩ := List.mem_map.mp hm
      obtain ⟨a, b, c, d, e, f, g, h, i, j⟩ := hg n hn
      exact ⟨mul_pos hk a, b, c, d, e, f, g, h, i, j⟩), estimate big size ms hne hg]
    simp only [wmean, List.map_map, Function.comp_def, weight]
    rw [sc (fun m => m.eff * m.prob / squareVar m.row.scat m.row.scatUnc) _ _ (fun m => by ring), sc (fun m => m.eff * m.prob / squareVar m.row.thIn m.row.thInUnc) _ _ (fun m => by ring),
      sc (fun m => m.eff * m.prob / squareVar m.row.thOut m.row.thOutUnc) _ _ (fun m => by ring), sc (fun m => m.eff * m.prob) _ _ (fun m => by ring)]
    rfl
  · rw [estimate big size _ (by simpa using hne) (by
      intro m hm; obtain ⟨n, hn, rfl⟩ := List.mem_map.mp hm
      obtain ⟨a, b, c, d, e, f, g, h, i, j⟩ := hg n hn
      exact ⟨a, mul_pos hk b, c, d, e, f, g, h, i, j⟩), estimate big size ms hne hg]
    simp only [wmean, List.map_map, Function.comp_def, weight]
    rw [sc (fun m => m.eff * m.prob / squareVar m.row.scat m.row.scatUnc) _ _ (fun m => by ring), sc (fun m => m.eff * m.prob / squareVar m.row.thIn m.row.thInUnc) _ _ (fun m => by ring),
      sc (fun m => m.eff * m.prob / squareVar m.row.thOut m.row.thOutUnc) _ _ (fun m => by ring), sc (fun m => m.eff * m.prob) _ _ (fun m => by ring)]
    rfl

/-- **Muons without errors are the same everywhere.** If the uncertainties of the angles are zero and the momenta are equal, the estimate depends neither on the
probabilities nor on the efficiencies: every voxel gets the same X0. -/
theorem flat (big size mom : ℝ) (rows : List MuRow) (h0 : ∀ r ∈ rows, r.scatUnc = 0 ∧ r.thInUnc = 0 ∧ r.thOutUnc = 0 ∧ r.momUnc = 0 ∧ r.mom = mom)
    (f g : MuRow → ℝ × ℝ) (hf : ∀ r ∈ rows, 0 < (f r).1 ∧ 0 < (f r).2) (hg : ∀ r ∈ rows, 0 < (g r).1 ∧ 0 < (g r).2) :
    predicted big size (rows.map fun r => ⟨r, (f r).1, (f r).2⟩) = predicted big size (rows.map fun r => ⟨r, (g r).1, (g r).2⟩) := by
  by_cases hne : rows = []
  · subst hne; rfl
  have key : ∀ f : MuRow → ℝ × ℝ, (∀ r ∈ rows, 0 < (f r).1 ∧ 0 < (f r).2) → predicted big size (rows.map fun r => ⟨r, (f r).1, (f r).2⟩) =
      match weightedRms (rows.map (·.scat)) (rows.map fun _ => big), weightedRms (rows.map (·.thIn)) (rows.map fun _ => big),
        weightedRms (rows.map (·.thOut)) (rows.map fun _ => big), some |mom| with
      | some s, some i, some o, some m => x0FromScatters size (s / sqrt 2) i o m
      | _, _, _, _ => .nan := by
    intro f hf
    have hw : ∀ v : MuRow → ℝ, (∀ r ∈ rows, v r = 0) → List.zipWith (fun w v => nanToNum big (XF.quot w v)) (List.zipWith (· * ·) (rows.map fun r => (f r).1) (rows.map fun r => (f r).2)) (rows.map v) =
        rows.map fun _ => big := by
      intro v hv
      rw [zip_map (fun r => (f r).1) (fun r => (f r).2) (fun r => (f r).1 * (f r).2) _ rows (fun _ _ => rfl)]
      refine zip_map (fun r => (f r).1 * (f r).2) v _ _ rows fun r hr => ?_
      have : 0 < (f r).1 * (f r).2 := mul_pos (hf r hr).1 (hf r hr).2
      simp [XF.quot, hv r hr, this, nanToNum]
    have hone : List.zipWith (fun w v => nanToNum big (XF.quot w v)) (List.zipWith (· * ·) (rows.map fun r => (f r).1) (rows.map fun r => (f r).2)) (rows.map fun _ => (1:ℝ)) =
        rows.map fun r => (f r).1 * (f r).2 := by
      rw [zip_map (fun r => (f r).1) (fun r => (f r).2) (fun r => (f r).1 * (f r).2) _ rows (fun _ _ => rfl)]
      refine zip_map (fun r => (f r).1 * (f r).2) _ _ _ rows fun r _ => ?_
      rw [XF.quot, if_pos one_ne_zero, nanToNum, div_one]
    have hmom : (rows.map fun r => sqVar r.mom r.momUnc).all (fun v => decide (v = 0)) = true := by
      simp only [List.all_eq_true, List.mem_map, decide_eq_true_eq]
      rintro v ⟨r, hr, rfl⟩
      simp [sqVar, (h0 r hr).2.2.2.1]
    have hrms : weightedRms (rows.map (·.mom)) (rows.map fun r => (f r).1 * (f r).2) = some |mom| := by
      have hpos := sum_pos_of (fun r => (f r).1 * (f r).2) rows hne fun r hr => mul_pos (hf r hr).1 (hf r hr).2
      rw [rms_eq _ _ rows hpos.ne', wmean, show (rows.map fun r => (f r).1 * (f r).2 * r.mom ^ 2).sum = mom ^ 2 * (rows.map fun r => (f r).1 * (f r).2).sum by
        rw [← C71.sum_mul_left]; exact sum_congr fun r hr => by rw [(h0 r hr).2.2.2.2]; ring, mul_div_cancel_right₀ _ hpos.ne', sqrt_sq_eq_abs]
    unfold predicted voxelX0
    simp only [List.map_map, Function.comp_def]
    rw [hmom]
    simp only [if_true]
    rw [hone, hrms, hw _ fun r hr => by simp [sqVar, (h0 r hr).1], hw _ fun r hr => by simp [sqVar, (h0 r hr).2.1], hw _ fun r hr => by simp [sqVar, (h0 r hr).2.2.1]]
    rfl
  rw [key f hf, key g hg]

/-- two muons of the same direction and momentum that scattered by `s` and `t` -/
def pair (s t : ℝ) : List Seen :=
  [⟨⟨(0, 0, 0), (1, 1, 1), s, 1, 1, 1, 1, 1, 1, 0⟩, 1, 1 / 2⟩, ⟨⟨(0, 0, 0), (1, 1, 1), t, 1, 1, 1, 1, 1, 1, 0⟩, 1, 1 / 2⟩]

theorem pair_good (s t : ℝ) (hs : 0 < s) (ht : 0 < t) : ∀ m ∈ pair s t, Good m := by
  have h1 : (1:ℝ) < π / 2 := by have := pi_gt_three; linarith
  intro m hm
  simp only [pair, List.mem_cons, List.not_mem_nil, or_false] at hm
  rcases hm with rfl | rfl
  · exact ⟨one_pos, by norm_num, hs, one_pos, ⟨one_pos, h1⟩, one_pos, ⟨one_pos, h1⟩, one_pos, one_pos, rfl⟩
  · exact ⟨one_pos, by norm_num, ht, one_pos, ⟨one_pos, h1⟩, one_pos, ⟨one_pos, h1⟩, one_pos, one_pos, rfl⟩

theorem pair_mean (s t : ℝ) : wmean plain (fun m => m.row.scat ^ 2) (pair s t) = (s ^ 2 + t ^ 2) / 2 := by
  simp [wmean, plain, pair]; ring

/-- The full claim, an average scattering of the material's strength gives the material's radiation length, is false: scatterings `θ√(4/5)` and `2θ√(4/5)`
average to the material's, but the estimate is too large. -/
theorem average_violated : ¬ ∀ (big size : ℝ), 0 < size → ∀ ms : List Seen, ms ≠ [] → (∀ m ∈ ms, Good m) → ∀ x0 mom th : ℝ, 0 < x0 →
    (∀ m ∈ ms, m.row.thIn = th ∧ m.row.thOut = th ∧ m.row.mom = mom) →
    wmean plain (fun m => m.row.scat ^ 2) ms = 2 * C38.theta0FirstOrder x0 mom (size / cos th) ^ 2 → predicted big size ms = .num x0 := by
  intro hall
  obtain ⟨T, hT⟩ : ∃ T, T = C38.theta0FirstOrder 1 1 (1 / cos 1) := ⟨_, rfl⟩
  have hT0 : 0 < T := by
    have hA := C38.A_pos
    have := cos_one_pos
    rw [hT, C38.theta0FirstOrder]; positivity
  have e : sqrt (4 / 5) ^ 2 = 4 / 5 := sq_sqrt (by norm_num)
  have hs : 0 < T * sqrt (4 / 5) := by positivity
  have ht : 0 < 2 * (T * sqrt (4 / 5)) := by positivity
  have hg := pair_good _ _ hs ht
  have hr : ∀ m ∈ pair (T * sqrt (4 / 5)) (2 * (T * sqrt (4 / 5))), m.row.thIn = 1 ∧ m.row.thOut = 1 ∧ m.row.mom = 1 := by
    intro m hm
    simp only [pair, List.mem_cons, List.not_mem_nil, or_false] at hm
    rcases hm with rfl | rfl <;> exact ⟨rfl, rfl, rfl⟩
  have havg : wmean plain (fun m => m.row.scat ^ 2) (pair (T * sqrt (4 / 5)) (2 * (T * sqrt (4 / 5)))) = 2 * C38.theta0FirstOrder 1 1 (1 / cos 1) ^ 2 := by
    rw [pair_mean, ← hT, mul_pow, mul_pow, mul_pow, e]; ring
  obtain ⟨x, h1, -, h3⟩ := overestimates 1 1 one_pos _ (by simp [pair]) hg 1 1 1 one_pos hr havg
  have h2 := hall 1 1 one_pos _ (by simp [pair]) hg 1 1 1 one_pos hr havg
  have h4 := h3 _ (by simp only [pair]; exact List.mem_cons_self) _ (by simp only [pair]; exact List.mem_cons_of_mem _ List.mem_cons_self) (by simp only; linarith)
  rw [h1] at h2
  simp only [XF.num.injEq] at h2
  linarith

/-- all the hypotheses of `estimate`, `rescale` and `overestimates` are met by two muons -/
example : ∃ x, predicted 1 1 (pair 1 2) = .num x :=
  ⟨_, estimate 1 1 _ (by simp [pair]) (pair_good 1 2 one_pos two_pos)⟩

/-- one muon in two voxels of different probabilities -/
example : predicted 5 1 [⟨⟨(0, 0, 0), (1, 1, 1), 1, 0, 1, 0, 1, 0, 1, 0⟩, 1, 1 / 2⟩] = predicted 5 1 [⟨⟨(0, 0, 0), (1, 1, 1), 1, 0, 1, 0, 1, 0, 1, 0⟩, 1, 1 / 100⟩] :=
  flat 5 1 1 [⟨(0, 0, 0), (1, 1, 1), 1, 0, 1, 0, 1, 0, 1, 0⟩] (by simp) (fun _ => (1, 1 / 2)) (fun _ => (1, 1 / 100)) (by intros; norm_num) (by intros; norm_num)

end C98

end

end Tomopt
