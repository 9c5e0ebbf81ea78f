import Verif.Lemmas.PredUnc

/- C133: uncertainties of predicted X0s. -/
namespace Tomopt.C133

noncomputable section

open Real Infer Filter Topology

/-- **The derivative by one variable of one muon** exists and has a closed form: the one of `voxelOf` is the one the code uses. -/
theorem derivative {cdf} (hc : Dist cdf) (big : ℝ) {size : ℝ} (hs : 0 ≤ size) (low : ℝ × ℝ × ℝ) (a : List (MuRow × ℝ)) (m : MuRow × ℝ) (b : List (MuRow × ℝ))
    (h : ∀ x ∈ a ++ m :: b, Usable x) (c : Col) :
    HasDerivAt (fun t => predValue (voxelOf cdf big size low (a ++ (m.1.put c t, m.2) :: b))) (jacEntry cdf big size low a m b c) (m.1.get c) ∧
    jacEntry cdf big size low a m b c = (rates cdf size low m c).effect (meansOf ((a ++ m :: b).map (seen cdf size low))) size (seen cdf size low m) := by
  have hm := h m (by simp)
  have good : ∀ l : List (MuRow × ℝ), (∀ x ∈ l, Usable x) → ∀ s ∈ l.map (seen cdf size low), C98.Good s := fun l hl s hs' => by
    obtain ⟨x, hx, rfl⟩ := List.mem_map.mp hs'
    exact good_seen hc hs low (hl x hx)
  have key := effect_deriv big size (a.map (seen cdf size low)) (b.map (seen cdf size low)) (fun t => seen cdf size low (m.1.put c t, m.2)) (m.1.get c)
    (good a fun x hx => h x (by simp [hx])) (good b fun x hx => h x (by simp [hx])) ((stays hm c).mono fun t ht => good_seen hc hs low ht)
    (rates cdf size low m c) (rates_of hc hs low hm c)
  rw [put_get] at key
  have e : (fun t => predValue (voxelOf cdf big size low (a ++ (m.1.put c t, m.2) :: b))) =
      fun t => predValue (C98.predicted big size (a.map (seen cdf size low) ++ seen cdf size low (m.1.put c t, m.2) :: b.map (seen cdf size low))) := by
    funext t; rw [voxelOf_eq]; simp
  have e2 : (a ++ m :: b).map (seen cdf size low) = a.map (seen cdf size low) ++ seen cdf size low m :: b.map (seen cdf size low) := by simp
  have hj : jacEntry cdf big size low a m b c = (rates cdf size low m c).effect (meansOf ((a ++ m :: b).map (seen cdf size low))) size (seen cdf size low m) := by
    rw [jacEntry, if_pos (is_smooth hm c), e, key.deriv, e2]
  refine ⟨?_, hj⟩
  rw [hj, e, e2]
  exact key

/-- one muon's share of the squared uncertainty -/
def share (cdf : ℝ → ℝ → ℝ → ℝ) (size : ℝ) (low : ℝ × ℝ × ℝ) (M : Means) (m : MuRow × ℝ) : ℝ :=
  (Col.all.map fun c => ((rates cdf size low m c).effect M size (seen cdf size low m) * m.1.unc c) ^ 2).sum

/-- **C133.** The uncertainty of the X0 of a voxel is that of the quadratic sum over all variables of all muons of derivative times uncertainty. -/
theorem propagated {cdf} (hc : Dist cdf) (big : ℝ) {size : ℝ} (hs : 0 ≤ size) (low : ℝ × ℝ × ℝ) (ms : List (MuRow × ℝ)) (h : ∀ m ∈ ms, Usable m) :
    predUnc cdf big size low ms = sqrt ((ms.map (share cdf size low (meansOf (ms.map (seen cdf size low))))).sum) := by
  rw [predUnc]
  congr 2
  conv_rhs => rw [← holes_mid ms]
  rw [List.map_map]
  refine List.map_congr_left fun k hk => ?_
  have hw := holes_whole ms k hk
  simp only [unc2, share, Function.comp]
  congr 1
  refine List.map_congr_left fun c _ => ?_
  rw [(derivative hc big hs low k.1 k.2.1 k.2.2 (by rw [hw]; exact h) c).2, hw, holes_mid]

theorem pred_value {cdf} (hc : Dist cdf) (big : ℝ) {size : ℝ} (hs : 0 ≤ size) (low : ℝ × ℝ × ℝ) (ms : List (MuRow × ℝ)) (hne : ms ≠ []) (h : ∀ m ∈ ms, Usable m) :
    voxelOf cdf big size low ms = .num ((meansOf (ms.map (seen cdf size low))).x0 size) := by
  rw [voxelOf_eq]
  exact C98.estimate big size _ (by simpa using hne) (good_all hc hs low h)

/-- total weight of the muons -/
def total (w : C98.Seen → ℝ) (cdf : ℝ → ℝ → ℝ → ℝ) (size : ℝ) (low : ℝ × ℝ × ℝ) (ms : List (MuRow × ℝ)) : ℝ := (ms.map fun m => w (seen cdf size low m)).sum

/-- **Larger scattering, smaller X0**: the derivative by the scattering of a muon is minus twice the prediction over the scattering times the muon's part of the total weight. -/
theorem by_scatter {cdf} (hc : Dist cdf) (big : ℝ) {size : ℝ} (hs : 0 ≤ size) (low : ℝ × ℝ × ℝ) (a : List (MuRow × ℝ)) (m : MuRow × ℝ) (b : List (MuRow × ℝ))
    (h : ∀ x ∈ a ++ m :: b, Usable x) :
    ∃ x, voxelOf cdf big size low (a ++ m :: b) = .num x ∧ jacEntry cdf big size low a m b .scat =
      -2 * x / m.1.scat * (C98.weight (·.scat) (·.scatUnc) (seen cdf size low m) / total (C98.weight (·.scat) (·.scatUnc)) cdf size low (a ++ m :: b)) := by
  refine ⟨_, pred_value hc big hs low _ (by simp) h, ?_⟩
  have ok := means_ok _ (by simp) (good_all hc hs low h)
  have e : total (C98.weight (·.scat) (·.scatUnc)) cdf size low (a ++ m :: b) = (meansOf ((a ++ m :: b).map (seen cdf size low))).W1 := by
    simp only [total, meansOf, List.map_map]; rfl
  rw [(derivative hc big hs low a m b h .scat).2, e]
  exact effect_scat cdf size low m (h m (by simp)).scat.ne' _ ok

/-- **One muon alone**: relative uncertainties add in quadrature, that of the scattering doubled since its square enters; where the muon came closest does not matter. -/
theorem single {cdf} (hc : Dist cdf) (big : ℝ) {size : ℝ} (hs : 0 ≤ size) (low : ℝ × ℝ × ℝ) (m : MuRow × ℝ) (h : Usable m) :
    ∃ x, voxelOf cdf big size low [m] = .num x ∧ 0 ≤ x ∧ predUnc cdf big size low [m] = x * sqrt ((2 * m.1.scatUnc / m.1.scat) ^ 2 +
      (sin m.1.thIn / (cos m.1.thIn + cos m.1.thOut) * m.1.thInUnc) ^ 2 + (sin m.1.thOut / (cos m.1.thIn + cos m.1.thOut) * m.1.thOutUnc) ^ 2) := by
  have hu : ∀ x ∈ [m], Usable x := by simpa using h
  have ok := means_ok _ (by simp) (good_all hc hs low hu)
  have hg := good_seen hc hs low h
  have w1 := C98.weight_pos hg.eff hg.prob hg.scat hg.scatUnc
  have w2 := C98.weight_pos hg.eff hg.prob hg.thIn.1 hg.thInUnc
  have w3 := C98.weight_pos hg.eff hg.prob hg.thOut.1 hg.thOutUnc
  have w4 : 0 < wMom (seen cdf size low m) := mul_pos hg.eff hg.prob
  have one : ∀ (w f : C98.Seen → ℝ), w (seen cdf size low m) ≠ 0 → C98.wmean w f [seen cdf size low m] = f (seen cdf size low m) := fun w f hw => by
    simp [C98.wmean]; field_simp
  refine ⟨_, pred_value hc big hs low [m] (by simp) hu, x0_nonneg ok hs, ?_⟩
  rw [propagated hc big hs low [m] hu]
  set M := meansOf ([m].map (seen cdf size low)) with hM
  have m1 : M.m1 = m.1.scat ^ 2 := one _ _ w1.ne'
  have m2 : M.m2 = m.1.thIn ^ 2 := one _ _ w2.ne'
  have m3 : M.m3 = m.1.thOut ^ 2 := one _ _ w3.ne'
  have m4 : M.m4 = m.1.mom ^ 2 := one wMom _ w4.ne'
  have W1 : M.W1 = C98.weight (·.scat) (·.scatUnc) (seen cdf size low m) := by simp [hM, meansOf]
  have W2 : M.W2 = C98.weight (·.thIn) (·.thInUnc) (seen cdf size low m) := by simp [hM, meansOf]
  have W3 : M.W3 = C98.weight (·.thOut) (·.thOutUnc) (seen cdf size low m) := by simp [hM, meansOf]
  have r2 : sqrt M.m2 = m.1.thIn := by rw [m2, sqrt_sq h.thIn.1.le]
  have r3 : sqrt M.m3 = m.1.thOut := by rw [m3, sqrt_sq h.thOut.1.le]
  have c0 : cos m.1.thIn + cos m.1.thOut ≠ 0 := by rw [← r2, ← r3]; exact (add_pos ok.c2 ok.c3).ne'
  have hp : ∀ c, c = Col.pocaX ∨ c = Col.pocaY ∨ c = Col.pocaZ → (rates cdf size low m c).effect M size (seen cdf size low m) = 0 := by
    intro c hc'
    have z1 : (seen cdf size low m).row.scat ^ 2 - M.m1 = 0 := by rw [m1]; simp [seen]
    have z2 : (seen cdf size low m).row.thIn ^ 2 - M.m2 = 0 := by rw [m2]; simp [seen]
    have z3 : (seen cdf size low m).row.thOut ^ 2 - M.m3 = 0 := by rw [m3]; simp [seen]
    have z4 : (seen cdf size low m).row.mom ^ 2 - M.m4 = 0 := by rw [m4]; simp [seen]
    rcases hc' with rfl | rfl | rfl <;> simp [rates, Rates.effect, Means.change, z1, z2, z3, z4]
  have e1 := effect_scat cdf size low m h.scat.ne' M ok
  have e2 := effect_in cdf size low m h.thIn.1.ne' M ok
  have e3 := effect_out cdf size low m h.thOut.1.ne' M ok
  rw [W1, div_self w1.ne'] at e1
  rw [W2, div_self w2.ne', r2, r3] at e2
  rw [W3, div_self w3.ne', r2, r3] at e3
  have hx := x0_nonneg ok hs
  have sum : ([m].map (share cdf size low M)).sum = (M.x0 size) ^ 2 * ((2 * m.1.scatUnc / m.1.scat) ^ 2 +
      (sin m.1.thIn / (cos m.1.thIn + cos m.1.thOut) * m.1.thInUnc) ^ 2 + (sin m.1.thOut / (cos m.1.thIn + cos m.1.thOut) * m.1.thOutUnc) ^ 2) := by
    simp only [List.map_cons, List.map_nil, List.sum_cons, List.sum_nil, share, Col.all, hp .pocaX (by simp), hp .pocaY (by simp), hp .pocaZ (by simp), e1, e2, e3,
      MuRow.unc, h.momUnc]
    have := h.scat.ne'; have := h.thIn.1.ne'; have := h.thOut.1.ne'
    field_simp
    ring
  rw [sum, sqrt_mul (sq_nonneg _), sqrt_sq hx]

/-- the same muons `n` times -/
def copies (n : Nat) (ms : List (MuRow × ℝ)) : List (MuRow × ℝ) := (List.replicate n ms).flatten

/-- **`n` times the muons: the same prediction, and its uncertainty is divided by `√n`.** -/
theorem root_n {cdf} (hc : Dist cdf) (big : ℝ) {size : ℝ} (hs : 0 ≤ size) (low : ℝ × ℝ × ℝ) (ms : List (MuRow × ℝ)) (hne : ms ≠ []) (h : ∀ m ∈ ms, Usable m) (n : Nat) (hn : n ≠ 0) :
    voxelOf cdf big size low (copies n ms) = voxelOf cdf big size low ms ∧ predUnc cdf big size low (copies n ms) = predUnc cdf big size low ms / sqrt n := by
  have hu : ∀ m ∈ copies n ms, Usable m := fun m hm => h m (mem_copies hm)
  have hne' : copies n ms ≠ [] := by
    obtain ⟨x, hx⟩ := List.exists_mem_of_ne_nil ms hne
    refine List.ne_nil_of_mem (a := x) ?_
    simp only [copies, List.mem_flatten, List.mem_replicate]
    exact ⟨ms, ⟨hn, rfl⟩, hx⟩
  have hn' : (n : ℝ) ≠ 0 := Nat.cast_ne_zero.mpr hn
  have ok := means_ok _ (by simpa using hne) (good_all hc hs low h)
  have e : meansOf ((copies n ms).map (seen cdf size low)) = (meansOf (ms.map (seen cdf size low))).times n := means_copies cdf size low ms n hn
  refine ⟨?_, ?_⟩
  · rw [pred_value hc big hs low _ hne' hu, pred_value hc big hs low _ hne h, e]
    rfl
  · rw [propagated hc big hs low _ hu, propagated hc big hs low _ h, e, copies, sum_copies]
    have : ∀ m, share cdf size low ((meansOf (ms.map (seen cdf size low))).times n) m = 1 / (n : ℝ) ^ 2 * share cdf size low (meansOf (ms.map (seen cdf size low))) m := by
      intro m
      simp only [share, effect_times _ _ ok _ hn', Col.all, List.map_cons, List.map_nil, List.sum_cons, List.sum_nil]
      ring
    rw [show share cdf size low ((meansOf (ms.map (seen cdf size low))).times n) = fun m => 1 / (n : ℝ) ^ 2 * share cdf size low (meansOf (ms.map (seen cdf size low))) m from funext this, C71.sum_mul_left]
    rw [← sqrt_div' _ (Nat.cast_nonneg n)]
    congr 1
    field_simp

/-- **The uncertainty is no measure of the error.** Muons which scatter on average as in material of radiation length `x0`, but not all alike, have an X0 predicted
which is too large by any number of uncertainties, if there are enough of them. -/
theorem overconfident_violated {cdf} (hc : Dist cdf) (big : ℝ) {size : ℝ} (hs : 0 < size) (low : ℝ × ℝ × ℝ) (ms : List (MuRow × ℝ)) (h : ∀ m ∈ ms, Usable m)
    (x0 mom th : ℝ) (hx : 0 < x0) (hr : ∀ m ∈ ms, m.1.thIn = th ∧ m.1.thOut = th ∧ m.1.mom = mom)
    (havg : C98.wmean C98.plain (fun m => m.row.scat ^ 2) (ms.map (seen cdf size low)) = 2 * C38.theta0FirstOrder x0 mom (size / cos th) ^ 2)
    (m m' : MuRow × ℝ) (hm : m ∈ ms) (hm' : m' ∈ ms) (hd : m.1.scat ≠ m'.1.scat) (K : ℝ) :
    ∃ n0, ∀ n ≥ n0, C98.wmean C98.plain (fun m => m.row.scat ^ 2) ((copies n ms).map (seen cdf size low)) = 2 * C38.theta0FirstOrder x0 mom (size / cos th) ^ 2 ∧
      ∃ x, voxelOf cdf big size low (copies n ms) = .num x ∧ x0 + K * predUnc cdf big size low (copies n ms) < x := by
  have hne := List.ne_nil_of_mem hm
  obtain ⟨x, h1, -, h3⟩ := C98.overestimates big size hs (ms.map (seen cdf size low)) (by simpa using hne) (good_all hc hs.le low h) x0 mom th hx
    (by intro s hs'; obtain ⟨y, hy, rfl⟩ := List.mem_map.mp hs'; exact hr y hy) havg
  have hlt := h3 _ (List.mem_map_of_mem hm) _ (List.mem_map_of_mem hm') hd
  rw [← voxelOf_eq] at h1
  have lim : Tendsto (fun n : Nat => x0 + K * (predUnc cdf big size low ms / sqrt n)) atTop (𝓝 (x0 + K * 0)) := by
    refine (Tendsto.const_mul K ?_).const_add x0
    refine Tendsto.div_atTop tendsto_const_nhds ?_
    exact tendsto_sqrt_atTop.comp tendsto_natCast_atTop_atTop
  rw [mul_zero, add_zero] at lim
  obtain ⟨n0, hn0⟩ := eventually_atTop.mp (lim.eventually_lt_const hlt)
  refine ⟨n0 + 1, fun n hn => ?_⟩
  have hn1 : n ≠ 0 := by omega
  obtain ⟨e1, e2⟩ := root_n hc big hs.le low ms hne h n hn1
  refine ⟨?_, x, by rw [e1, h1], by rw [e2]; exact hn0 n (by omega)⟩
  rw [← havg, C98.wmean, C98.wmean]
  simp only [List.map_map, copies]
  rw [sum_copies, sum_copies, mul_div_mul_left _ _ (Nat.cast_ne_zero.mpr hn1)]

/-- **More data can give a larger uncertainty**: to any muons another one, seen as well as any other, can be added which makes it as large as one likes. -/
theorem more_is_better_violated {cdf} (hc : Dist cdf) (big : ℝ) {size : ℝ} (hs : 0 < size) (low : ℝ × ℝ × ℝ) (ms : List (MuRow × ℝ)) (h : ∀ m ∈ ms, Usable m)
    (m : MuRow × ℝ) (hm : Usable m) (K : ℝ) :
    ∃ s, 0 < s ∧ Usable ({ m.1 with scat := s }, m.2) ∧ K < predUnc cdf big size low (ms ++ [({ m.1 with scat := s }, m.2)]) := by
  have hb : ∀ s, 0 < s → Usable ({ m.1 with scat := s }, m.2) := fun s hs => ⟨hm.eff, hm.pocaUnc, hs, hm.scatUnc, hm.thIn, hm.thInUnc, hm.thOut, hm.thOutUnc, hm.mom, hm.momUnc⟩
  have hall : ∀ s, 0 < s → ∀ x ∈ ms ++ [({ m.1 with scat := s }, m.2)], Usable x := fun s hs x hx => by
    simp only [List.mem_append, List.mem_singleton] at hx
    rcases hx with hx | rfl
    · exact h x hx
    · exact hb s hs
  have ok := fun s (h0 : 0 < s) => means_ok _ (by simp) (good_all hc hs.le low (hall s h0))
  set T : ℝ → Means := fun s => meansOf ((ms ++ [({ m.1 with scat := s }, m.2)]).map (seen cdf size low)) with hT
  have k2 : ∀ s, (T s).m2 = (T 1).m2 := fun s => by simp only [hT, meansOf, C98.wmean, List.map_append, List.map_cons, List.map_nil]; rfl
  have k3 : ∀ s, (T s).m3 = (T 1).m3 := fun s => by simp only [hT, meansOf, C98.wmean, List.map_append, List.map_cons, List.map_nil]; rfl
  have k4 : ∀ s, (T s).m4 = (T 1).m4 := fun s => by simp only [hT, meansOf, C98.wmean, List.map_append, List.map_cons, List.map_nil]; rfl
  obtain ⟨A, hA⟩ : ∃ A, A = ((ms.map (seen cdf size low)).map fun m => C98.weight (·.scat) (·.scatUnc) m * m.row.scat ^ 2).sum := ⟨_, rfl⟩
  obtain ⟨c, hc0⟩ : ∃ c, c = m.2 * (seen cdf size low m).prob / (4 * m.1.scatUnc ^ 2) := ⟨_, rfl⟩
  have cpos : 0 < c := by
    have := hm.eff; have := (good_seen hc hs.le low hm).prob; have := hm.scatUnc
    rw [hc0]; positivity
  have wS : ∀ s, 0 < s → C98.weight (·.scat) (·.scatUnc) (seen cdf size low ({ m.1 with scat := s }, m.2)) = c / s ^ 2 := fun s h0 => by
    have := hm.scatUnc.ne'
    have e : (seen cdf size low ({ m.1 with scat := s }, m.2)).prob = (seen cdf size low m).prob := rfl
    rw [C98.weight, C98.squareVar_eq, e, hc0]
    simp only [seen]
    field_simp
    norm_num
  have m1 : ∀ s, 0 < s → (T s).m1 * (T s).W1 = A + c := fun s h0 => by
    have hw := (ok s h0).W1.ne'
    have e : (T s).m1 = (A + c / s ^ 2 * s ^ 2) / (T s).W1 := by
      rw [← wS s h0, hA]
      simp only [hT, meansOf, C98.wmean, List.map_append, List.map_cons, List.map_nil, List.sum_append, List.sum_cons, List.sum_nil, add_zero]
      rfl
    rw [e, div_mul_cancel₀ _ hw, div_mul_cancel₀ _ (by positivity)]
  have Apos : 0 < A + c := by rw [← m1 1 one_pos]; exact mul_pos (ok 1 one_pos).m1 (ok 1 one_pos).W1
  obtain ⟨κ, hκ⟩ : ∃ κ, κ = 2 * m.1.scatUnc * (scatterCoefA ^ 2 * size) * c / ((T 1).m4 * ((A + c) / 2) * ((cos (sqrt (T 1).m2) + cos (sqrt (T 1).m3)) / 2)) := ⟨_, rfl⟩
  have κpos : 0 < κ := by
    have := (ok 1 one_pos).m4; have := (ok 1 one_pos).c2; have := (ok 1 one_pos).c3; have := hm.scatUnc; have := C38.A_pos
    rw [hκ]; positivity
  have eff : ∀ s, 0 < s → (rates cdf size low ({ m.1 with scat := s }, m.2) .scat).effect (T s) size (seen cdf size low ({ m.1 with scat := s }, m.2)) * m.1.scatUnc = -(κ / s ^ 3) := fun s h0 => by
    have hx := effect_scat cdf size low ({ m.1 with scat := s }, m.2) h0.ne' (T s) (ok s h0)
    rw [hx, wS s h0, Means.x0, C98.fromSquares, k2, k3, k4, hκ, ← m1 s h0]
    have := (ok s h0).m1.ne'; have := (ok s h0).W1.ne'; have := (ok 1 one_pos).m4.ne'; have := (add_pos (ok 1 one_pos).c2 (ok 1 one_pos).c3).ne'
    field_simp
  have low' : ∀ s, 0 < s → κ / s ^ 3 ≤ predUnc cdf big size low (ms ++ [({ m.1 with scat := s }, m.2)]) := fun s h0 => by
    rw [propagated hc big hs.le low _ (hall s h0)]
    refine le_sqrt_of_sq_le ?_
    have e := eff s h0
    have nn : ∀ x : MuRow × ℝ, 0 ≤ share cdf size low (T s) x := fun x => by
      simp only [share, Col.all, List.map_cons, List.map_nil, List.sum_cons, List.sum_nil]; positivity
    have one : (κ / s ^ 3) ^ 2 ≤ share cdf size low (T s) ({ m.1 with scat := s }, m.2) := by
      simp only [share, Col.all, List.map_cons, List.map_nil, List.sum_cons, List.sum_nil]
      rw [show (({ m.1 with scat := s } : MuRow)).unc .scat = m.1.scatUnc from rfl, e, neg_sq]
      have := fun c => sq_nonneg ((rates cdf size low ({ m.1 with scat := s }, m.2) c).effect (T s) size (seen cdf size low ({ m.1 with scat := s }, m.2)) *
        (({ m.1 with scat := s } : MuRow)).unc c)
      have p1 := this .pocaX; have p2 := this .pocaY; have p3 := this .pocaZ; have p4 := this .thIn; have p5 := this .thOut; have p6 := this .mom
      linarith
    have rest : 0 ≤ (ms.map (share cdf size low (T s))).sum := List.sum_nonneg (by intro y hy; obtain ⟨x, -, rfl⟩ := List.mem_map.mp hy; exact nn x)
    rw [List.map_append, List.sum_append]
    simp only [List.map_cons, List.map_nil, List.sum_cons, List.sum_nil, add_zero]
    linarith
  refine ⟨min 1 (κ / (|K| + 1)), by positivity, hb _ (by positivity), lt_of_lt_of_le ?_ (low' _ (by positivity))⟩
  set s := min 1 (κ / (|K| + 1)) with hs'
  have s0 : 0 < s := by positivity
  have s1 : s ≤ 1 := min_le_left _ _
  have s2 : s * (|K| + 1) ≤ κ := by
    rw [← le_div_iff₀ (by positivity)]; exact min_le_right _ _
  rw [lt_div_iff₀ (by positivity)]
  have s3 : s ^ 3 ≤ s := by nlinarith [mul_nonneg s0.le (sub_nonneg.mpr s1), pow_pos s0 2]
  calc K * s ^ 3 ≤ |K| * s ^ 3 := mul_le_mul_of_nonneg_right (le_abs_self K) (by positivity)
    _ ≤ |K| * s := mul_le_mul_of_nonneg_left s3 (abs_nonneg K)
    _ < κ := by nlinarith

/-- **All voxels.** The entry of the predicted tensor for a voxel is `voxelOf` of the voxel's lower corner, so the uncertainties are those of the predictions. -/
theorem entry (c : Conf) (rows : List MuRow) (effs : List ℝ) (hl : rows.length = effs.length) (probs) (hp : mapE (muonProbs c.cdf c.size c.edges c.shp) rows = .ok probs)
    (p u) (h : voxelPreds c.big c.size c.shp rows effs probs = .ok p) (hu : predUncs c rows effs = .ok u) :
    p.length = c.shp.2.2 ∧ u.length = c.shp.2.2 ∧ ∀ k < c.shp.2.2, ∃ pk uk, p[k]? = some pk ∧ u[k]? = some uk ∧ pk.length = c.shp.1 ∧ uk.length = c.shp.1 ∧
      ∀ i < c.shp.1, ∃ pi ui, pk[i]? = some pi ∧ uk[i]? = some ui ∧ pi.length = c.shp.2.1 ∧ ui.length = c.shp.2.1 ∧ ∀ j < c.shp.2.1,
        pi[j]? = some (voxelOf c.cdf c.big c.size (lowAt c k i j) (rows.zip effs)) ∧ ui[j]? = some (predUnc c.cdf c.big c.size (lowAt c k i j) (rows.zip effs)) := by
  obtain ⟨cdf, big, size, edges, ⟨nx, ny, nz⟩, eff⟩ := c
  simp only at hp h ⊢
  have hz := zip_maps (fun _ => 0) rows effs hl
  unfold predUncs at hu
  simp only at hu
  split at hu
  · simp at hu
  simp only [Except.ok.injEq] at hu
  obtain ⟨h1, h2⟩ := C39.preds_zxy big size nx ny nz rows effs probs p h
  refine ⟨h1, by rw [← hu]; simp, fun k hk => ?_⟩
  obtain ⟨pk, h3, h4, h5⟩ := h2 k hk
  refine ⟨pk, (List.range nx).map fun i => (List.range ny).map fun j => predUnc cdf big size (lowAt ⟨cdf, big, size, edges, (nx, ny, nz), eff⟩ k i j) (rows.zip effs),
    h3, by rw [← hu]; simp [hk], h4, by simp, fun i hi => ?_⟩
  obtain ⟨pi, h6, h7, h8⟩ := h5 i hi
  refine ⟨pi, (List.range ny).map fun j => predUnc cdf big size (lowAt ⟨cdf, big, size, edges, (nx, ny, nz), eff⟩ k i j) (rows.zip effs), h6, by simp [hi], h7, by simp, fun j hj => ⟨?_, by simp [hj]⟩⟩
  rw [h8 j hj, voxelOf, hz.1, hz.2]
  have e : ((rows.zip effs).map fun m => voxelProb cdf size m.1 (lowAt ⟨cdf, big, size, edges, (nx, ny, nz), eff⟩ k i j) + 1e-15) =
      rows.map fun r => voxelProb cdf size r (lowAt ⟨cdf, big, size, edges, (nx, ny, nz), eff⟩ k i j) + 1e-15 := by
    conv_rhs => rw [← hz.1]
    simp [Function.comp_def]
  rw [e, mapE_map _ (fun t => at3 t k i j) (fun r => voxelProb cdf size r (lowAt ⟨cdf, big, size, edges, (nx, ny, nz), eff⟩ k i j) + 1e-15)
    (fun r t ht => at3_probs cdf size edges nx ny nz r t ht k i j hk hi hj) rows probs hp]

/-! The answers a user expects: functions of the batches added so far. -/

def wantUncs (c : Conf) (bs : List ScVars) : Except Err (List (List (List ℝ))) := do
  let _ ← C35.wantPreds c bs
  let eff ← combineEff c.eff bs
  let rows ← parseRows (combineVars bs).1 (combineVars bs).2
  predUncs c rows eff

def want (c : Conf) (bs : List ScVars) : UOp → UAns
  | .op o => .ans (C35.want c bs o)
  | .uncs => .uncs (wantUncs c bs)

def wantRun (c : Conf) : List ScVars → List UOp → List UAns
  | _, [] => []
  | bs, o :: os => want c bs o :: wantRun c (match o with | .op (.add b) => bs ++ [b] | _ => bs) os

/-- what is remembered is right -/
structure Inv (c : Conf) (s : USt) (e : List ℝ) : Prop where
  st : C35.Inv c s.st e
  there : s.st.preds ≠ none → s.st.vars ≠ none
  uncs : s.uncs = none ∨ ∃ u, s.uncs = some u ∧ wantUncs c s.st.batches = .ok u

theorem step_spec (c : Conf) (s : USt) (e : List ℝ) (h : Inv c s e) (o : UOp) (ho : ∀ b, o ≠ .op (.add b)) :
    ∃ s', uStep c s o = (s', want c s.st.batches o) ∧ Inv c s' e ∧ s'.st.batches = s.st.batches := by
  cases o with
  | op o =>
    have ho' : ∀ b, o ≠ .add b := fun b hb => ho b (by rw [hb])
    obtain ⟨st', h1, h2, h3⟩ := C35.step_spec c s.st e h.st o ho'
    have ht := step_there c s.st o ho' h.there
    rw [h1] at ht
    have he : uStep c s (.op o) = (⟨st', if s.st.preds.isNone && st'.preds.isSome then none else s.uncs⟩, .ans (C35.want c s.st.batches o)) := by
      cases o with
      | add b => exact absurd rfl (ho' b)
      | _ => simp only [uStep, h1]
    refine ⟨_, he, ⟨h2, ht, ?_⟩, h3⟩
    simp only
    split
    · exact Or.inl rfl
    · rw [h3]; exact h.uncs
  | uncs =>
    rcases h.uncs with hu | ⟨u, hu, hw⟩
    · obtain ⟨st', h1, h2, h3⟩ := C35.readPreds_spec c s.st e h.st
      have ht := readPreds_there c s.st h.there
      rw [h1] at ht
      have hk := h.st.eff
      cases hwp : C35.wantPreds c s.st.batches with
      | error er =>
        rw [hwp] at h1
        refine ⟨⟨st', none⟩, ?_, ⟨h2, ht, Or.inl rfl⟩, h3⟩
        simp only [uStep, readUncs, hu, h1, want, wantUncs, hwp, Bind.bind, Except.bind]
      | ok p =>
        rw [hwp] at h1
        have hv : st'.vars = some (combineVars s.st.batches) ∧ st'.eff = some e := by
          rcases h2.vars with hn | ⟨-, hv, he, -⟩
          · exfalso
            by_cases h0 : s.st.preds = none
            · exact readPreds_vars c s.st st' p h0 h1 hn
            · have := readPreds_keeps c s.st (h.there h0)
              rw [h1] at this
              exact this hn
          · rw [h3] at hv; exact ⟨hv, he⟩
        cases hr : parseRows (combineVars s.st.batches).1 (combineVars s.st.batches).2 with
        | error er =>
          refine ⟨⟨st', none⟩, ?_, ⟨h2, ht, Or.inl rfl⟩, h3⟩
          simp only [uStep, readUncs, hu, h1, hv.1, hv.2, hr, want, wantUncs, hwp, hk, Bind.bind, Except.bind]
        | ok rows =>
          cases hq : predUncs c rows e with
          | error er =>
            refine ⟨⟨st', none⟩, ?_, ⟨h2, ht, Or.inl rfl⟩, h3⟩
            simp only [uStep, readUncs, hu, h1, hv.1, hv.2, hr, hq, want, wantUncs, hwp, hk, Bind.bind, Except.bind]
          | ok u =>
            have hwu : wantUncs c s.st.batches = .ok u := by simp only [wantUncs, hwp, hk, hr, hq, Bind.bind, Except.bind]
            refine ⟨⟨st', some u⟩, ?_, ⟨h2, ht, Or.inr ⟨u, rfl, by simp only [h3]; exact hwu⟩⟩, h3⟩
            simp only [uStep, readUncs, hu, h1, hv.1, hv.2, hr, hq, want, hwu]
    · exact ⟨s, by simp only [uStep, readUncs, hu, want, hw], h, rfl⟩

/-- every efficiency can be computed -/
def EffOk (c : Conf) (ops : List UOp) : Prop := ∀ b, UOp.op (.add b) ∈ ops → ∃ e, c.eff b = .ok e

/-- **Never outdated.** For every history of additions and queries, the uncertainties are those of the batches added before, whatever was remembered. -/
theorem history (c : Conf) (ops : List UOp) (h : EffOk c ops) : uRun c USt.init ops = wantRun c [] ops := by
  have key : ∀ (ops : List UOp) (s : USt) (e : List ℝ), EffOk c ops → (∀ b ∈ s.st.batches, ∃ e, c.eff b = .ok e) → Inv c s e →
      uRun c s ops = wantRun c s.st.batches ops := by
    intro ops
    induction ops with
    | nil => intros; rfl
    | cons o os ih =>
      intro s e hok hbs hi
      have hok' : EffOk c os := fun b hb => hok b (by simp [hb])
      by_cases ho : ∃ b, o = .op (.add b)
      · obtain ⟨b, rfl⟩ := ho
        have hbs' : ∀ b' ∈ (addScatters s.st b).batches, ∃ e, c.eff b' = .ok e := by
          intro b' hb'
          simp only [addScatters, List.mem_append, List.mem_singleton] at hb'
          rcases hb' with hb' | rfl
          · exact hbs b' hb'
          · exact hok b' (by simp)
        obtain ⟨e', he'⟩ := C35.combineEff_ok c _ hbs'
        have := ih ⟨addScatters s.st b, none⟩ e' hok' hbs' ⟨⟨he', Or.inl rfl, Or.inl rfl, Or.inl rfl⟩, fun hn => absurd rfl hn, Or.inl rfl⟩
        simp only [uRun, uStep, wantRun, want, C35.want, this]
        rfl
      · have ho' : ∀ b, o ≠ .op (.add b) := fun b hb => ho ⟨b, hb⟩
        obtain ⟨s', h1, h2, h3⟩ := step_spec c s e hi o ho'
        have := ih s' e hok' (by rw [h3]; exact hbs) h2
        have e2 : wantRun c s.st.batches (o :: os) = want c s.st.batches o :: wantRun c s.st.batches os := by
          cases o with
          | op o =>
            cases o with
            | add b => exact absurd rfl (ho' b)
            | _ => rfl
          | uncs => rfl
        simp only [uRun, h1, this, h3, e2]
  exact key ops USt.init [] h (by simp [USt.init, St.init]) ⟨⟨rfl, Or.inl rfl, Or.inl rfl, Or.inl rfl⟩, fun hn => absurd rfl hn, Or.inl rfl⟩

/-! ### Concrete cases -/

/-- a smooth cumulative distribution (Cauchy's) -/
def arc (μ σ x : ℝ) : ℝ := 1 / 2 + arctan ((x - μ) / σ) / π

theorem arc_dist : Dist arc := by
  refine ⟨fun μ σ hσ x y h => ?_, fun σ x _ => ?_⟩
  · have : arctan ((x - μ) / σ) ≤ arctan ((y - μ) / σ) := arctan_strictMono.monotone (div_le_div_of_nonneg_right (by linarith) hσ.le)
    have := div_le_div_of_nonneg_right this pi_pos.le
    simp only [arc]; linarith
  · unfold arc
    exact (((differentiable_id.const_sub x).div_const σ).arctan.div_const π).const_add _

/-- a muon scattered by `s` -/
def mu (s : ℝ) : MuRow × ℝ := (⟨(0, 0, 0), (1, 1, 1), s, 1, 1, 1, 1, 1, 1, 0⟩, 1)

theorem mu_usable (s : ℝ) (h : 0 < s) : Usable (mu s) :=
  have h1 : (1:ℝ) < π / 2 := by have := pi_gt_three; linarith
  ⟨one_pos, by norm_num [mu], h, one_pos, ⟨one_pos, h1⟩, one_pos, ⟨one_pos, h1⟩, one_pos, one_pos, rfl⟩

theorem mus_usable : ∀ m ∈ [mu 1, mu 2], Usable m := by
  intro m hm
  simp only [List.mem_cons, List.not_mem_nil, or_false] at hm
  rcases hm with rfl | rfl
  · exact mu_usable 1 one_pos
  · exact mu_usable 2 two_pos

/-- one muon: all in the relative uncertainty is positive -/
example : 0 < predUnc arc 1 1 (0, 0, 0) [mu 1] := by
  obtain ⟨x, h1, h2, h3⟩ := single arc_dist 1 zero_le_one (0, 0, 0) (mu 1) (mu_usable 1 one_pos)
  have hx : 0 < x := by
    rw [pred_value arc_dist 1 zero_le_one (0, 0, 0) [mu 1] (by simp) (by simpa using mu_usable 1 one_pos)] at h1
    have ok := means_ok _ (by simp) (good_all arc_dist zero_le_one (0, 0, 0) (l := [mu 1]) (by simpa using mu_usable 1 one_pos))
    have := ok.m1; have := ok.m4; have := ok.c2; have := ok.c3; have := C38.A_pos
    simp only [XF.num.injEq] at h1
    rw [← h1, Means.x0, C98.fromSquares]; positivity
  rw [h3]
  refine mul_pos hx (sqrt_pos.mpr ?_)
  have : (0:ℝ) < (2 * (mu 1).1.scatUnc / (mu 1).1.scat) ^ 2 := by norm_num [mu]
  positivity

/-- four times two muons: half the uncertainty -/
example : predUnc arc 1 1 (0, 0, 0) (copies 4 [mu 1, mu 2]) = predUnc arc 1 1 (0, 0, 0) [mu 1, mu 2] / 2 := by
  rw [(root_n arc_dist 1 zero_le_one (0, 0, 0) _ (by simp) mus_usable 4 (by norm_num)).2, show ((4 : Nat) : ℝ) = 2 ^ 2 by norm_num, sqrt_sq two_pos.le]

/-- the X0 of material in which muons scatter as these two on average -/
def x0Of : ℝ := 2 * scatterCoefA ^ 2 / cos 1 / (5 / 2)

theorem avg : C98.wmean C98.plain (fun m => m.row.scat ^ 2) ([mu 1, mu 2].map (seen arc 1 (0, 0, 0))) = 2 * C38.theta0FirstOrder x0Of 1 (1 / cos 1) ^ 2 := by
  have hA := C38.A_pos
  have hc := cos_one_pos
  obtain ⟨q, hq⟩ : ∃ q, q = (seen arc 1 (0, 0, 0) (mu 1)).prob := ⟨_, rfl⟩
  have q0 : 0 < q := by rw [hq]; exact (good_seen arc_dist zero_le_one (0, 0, 0) (mu_usable 1 one_pos)).prob
  have q2 : (seen arc 1 (0, 0, 0) (mu 2)).prob = q := by rw [hq]; rfl
  have l : C98.wmean C98.plain (fun m => m.row.scat ^ 2) ([mu 1, mu 2].map (seen arc 1 (0, 0, 0))) = 5 / 2 := by
    have p1 : C98.plain (seen arc 1 (0, 0, 0) (mu 1)) = q := by rw [C98.plain, ← hq]; simp [seen, mu]
    have p2 : C98.plain (seen arc 1 (0, 0, 0) (mu 2)) = q := by rw [C98.plain, q2]; simp [seen, mu]
    simp only [C98.wmean, List.map_cons, List.map_nil, List.sum_cons, List.sum_nil, p1, p2]
    simp only [seen, mu]
    field_simp
    ring
  have hx : 0 < x0Of := by rw [x0Of]; positivity
  rw [l, C38.theta0FirstOrder, mul_pow, sq_sqrt (by positivity), x0Of]
  field_simp

/-- five standard deviations off -/
example : ∃ n, ∃ x, voxelOf arc 1 1 (0, 0, 0) (copies n [mu 1, mu 2]) = .num x ∧ x0Of + 5 * predUnc arc 1 1 (0, 0, 0) (copies n [mu 1, mu 2]) < x := by
  have hA := C38.A_pos
  have hc := cos_one_pos
  obtain ⟨n, hn⟩ := overconfident_violated arc_dist 1 one_pos (0, 0, 0) [mu 1, mu 2] mus_usable x0Of 1 1 (by rw [x0Of]; positivity)
    (by intro m hm; simp only [List.mem_cons, List.not_mem_nil, or_false] at hm; rcases hm with rfl | rfl <;> exact ⟨rfl, rfl, rfl⟩) avg (mu 1) (mu 2) (by simp) (by simp)
    (by simp [mu]) 5
  exact ⟨n, (hn n le_rfl).2⟩

/-- a third muon makes it a million times worse -/
example : ∃ s, 0 < s ∧ 1000000 * predUnc arc 1 1 (0, 0, 0) [mu 1, mu 2] < predUnc arc 1 1 (0, 0, 0) ([mu 1, mu 2] ++ [({ (mu 1).1 with scat := s }, (mu 1).2)]) := by
  obtain ⟨s, h1, -, h2⟩ := more_is_better_violated arc_dist 1 one_pos (0, 0, 0) [mu 1, mu 2] mus_usable (mu 1) (mu_usable 1 one_pos) (1000000 * predUnc arc 1 1 (0, 0, 0) [mu 1, mu 2])
  exact ⟨s, h1, h2⟩

/-- adding a batch after asking for uncertainties -/
example (c : Conf) (h : EffOk c [.op (.add C36.b1), .uncs, .op (.add C36.b2), .uncs]) :
    uRun c USt.init [.op (.add C36.b1), .uncs, .op (.add C36.b2), .uncs] =
      [.ans .done, .uncs (wantUncs c [C36.b1]), .ans .done, .uncs (wantUncs c [C36.b1, C36.b2])] := history c _ h

end

end Tomopt.C133
