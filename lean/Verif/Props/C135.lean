import Verif.Lemmas.RoundedGen
import Mathlib.Analysis.Real.Pi.Bounds
import Mathlib.Algebra.Order.Ring.Pow

/- C135: muons drawn in floating point. -/
namespace Tomopt

noncomputable section

open Real Gen Floats

namespace C135

variable {p : Nat} {fl : ℝ → ℝ} {fs : List ℝ}

/-- the share of the draws `0, 1/N, …, (N-1)/N` that satisfy `Q` -/
def share (N : Nat) (Q : ℝ → Prop) : ℝ :=
  open Classical in (((Finset.range N).filter fun k : Nat => Q (k / N)).card : ℝ) / N

/-- **C135.** The cumulative flux never decreases, however it is rounded, so that looking bins up by bisection is right. -/
theorem sorted (h : Table p fl fs) : (cumsumFl fl fs).length = fs.length ∧ (cumsumFl fl fs).Pairwise (· ≤ ·) := ⟨cumsum_length fl fs 0, h.sorted.2⟩

/-- **C135.** Each entry of the cumulative flux is the sum of the fluxes up to there, up to one unit of rounding per addition. -/
theorem edges (h : Table p fl fs) (i : Nat) (hi : i < fs.length) : ∃ c, (cumsumFl fl fs)[i]? = some c ∧
    (1 - 1 / 2 ^ p) ^ (i + 1) * (fs.take (i + 1)).sum ≤ c ∧ c ≤ (1 + 1 / 2 ^ p) ^ (i + 1) * (fs.take (i + 1)).sum := by
  obtain ⟨c, hc⟩ := entry fl hi
  exact ⟨c, hc, h.bounds hc⟩

/-- bins up to `i` are drawn if the rounded draw is at most entry `i` -/
theorem upto_iff (h : Table p fl fs) {i : Nat} {c t : ℝ} (hc : (cumsumFl fl fs)[i]? = some c) (ht : (cumsumFl fl fs)[fs.length - 1]? = some t) (u : ℝ) :
    (∃ b ≤ i, binFl fl fs u = some b) ↔ fl (t * u) ≤ c := by
  obtain ⟨t', e, _, _, _, hb⟩ := h.bin u
  obtain rfl := Option.some.inj (ht.symm.trans e)
  rw [hb, ← search_le _ _ h.sorted.2 i c hc]
  constructor
  · rintro ⟨b, hb, e⟩
    rw [Option.some.inj e]; exact hb
  · intro hle
    exact ⟨_, hle, rfl⟩

/-- **C135.** Every draw, one included, falls into a bin of the table: rounding never leads past its end. -/
theorem in_range (h : Table p fl fs) (u : ℝ) (h1 : u ≤ 1) : ∃ b < fs.length, binFl fl fs u = some b := by
  obtain ⟨t, e, t0, tf, _, _⟩ := h.bin u
  have l : 1 ≤ fs.length := List.length_pos_of_ne_nil h.some
  obtain ⟨b, hb, e'⟩ := (upto_iff h e e u).mpr (nearest_le p fl h.near _ t tf (by nlinarith))
  exact ⟨b, by omega, e'⟩

/-- **C135.** The bin of a positive draw has a positive flux. -/
theorem drawn_positive (h : Table p fl fs) (hs : 0 < fs.sum) (u : ℝ) (h0 : 0 < u) (b : Nat) (hb : binFl fl fs u = some b) (f : ℝ) (hf : fs[b]? = some f) : 0 < f := by
  obtain ⟨t, e, _, _, _, _⟩ := h.bin u
  have tp := h.total_pos hs e
  have v0 : 0 < fl (t * u) := lt_of_lt_of_le (mul_pos (by linarith [eps_le h.prec]) (mul_pos tp h0)) (nearest_bounds h.prec h.near (mul_pos tp h0).le).1
  refine lt_of_le_of_ne (h.nonneg f (List.mem_of_getElem? hf)) fun z => ?_
  subst z
  cases b with
  | zero =>
    have c0 := cumsum_first fl hf
    rw [nearest_self p fl h.near 0 (isFloat_zero p)] at c0
    exact absurd ((upto_iff h c0 e u).mp ⟨0, le_rfl, hb⟩) (not_le.mpr v0)
  | succ b =>
    have hlt : b + 1 < fs.length := (List.getElem?_eq_some_iff.mp hf).1
    obtain ⟨a, ha⟩ := entry fl (fs := fs) (i := b) (by omega)
    have hc := cumsum_step fl fs 0 b a 0 ha hf
    rw [add_zero, nearest_self p fl h.near a (h.sorted.1 a (List.mem_of_getElem? ha)).2] at hc
    obtain ⟨b', hb', e'⟩ := (upto_iff h ha e u).mpr ((upto_iff h hc e u).mp ⟨b + 1, le_rfl, hb⟩)
    have := Option.some.inj (hb.symm.trans e')
    omega

theorem share_upto (h : Table p fl fs) {i : Nat} {c t : ℝ} (hc : (cumsumFl fl fs)[i]? = some c) (ht : (cumsumFl fl fs)[fs.length - 1]? = some t) (N : Nat) :
    share N (fun u => ∃ b ≤ i, binFl fl fs u = some b) = (((Finset.range N).filter fun k : Nat => fl (t * (k / N)) ≤ c).card : ℝ) / N := by
  simp only [share, upto_iff h hc ht]

/-- **C135.** The share of draws that fall into the first bins is that of their fluxes, up to the roundings of the sums and the spacing of the draws. -/
theorem cumulative (h : Table p fl fs) (hs : 0 < fs.sum) (N : Nat) (hN : 1 ≤ N) (i : Nat) (hi : i < fs.length) :
    |share N (fun u => ∃ b ≤ i, binFl fl fs u = some b) - (fs.take (i + 1)).sum / fs.sum| ≤ ((1 + 1 / 2 ^ p) / (1 - 1 / 2 ^ p)) ^ (fs.length + 1) - 1 + 1 / N := by
  obtain ⟨c, hc⟩ := entry fl hi
  obtain ⟨t, _, e, _, tf, hct⟩ := h.last
  have tp := h.total_pos hs e
  have cm := List.mem_of_getElem? hc
  obtain ⟨l, u⟩ := count h.prec h.near tp (h.sorted.1 c cm).1 (hct c cm) (h.sorted.1 c cm).2 hN
  rw [share_upto h hc e]
  generalize ((((Finset.range N).filter fun k : Nat => fl (t * (k / N)) ≤ c).card : ℝ) / N) = F at l u
  obtain ⟨c1, c2⟩ := h.bounds hc
  obtain ⟨t1, t2⟩ := h.total e
  have hε := eps_le h.prec
  have hε0 : (0 : ℝ) ≤ 1 / 2 ^ p := by positivity
  have S1 : (fs.take (i + 1)).sum ≤ fs.sum := by
    have := congrArg List.sum (List.take_append_drop (i + 1) fs)
    rw [List.sum_append] at this
    have := List.sum_nonneg (l := fs.drop (i + 1)) fun x hx => h.nonneg x (List.mem_of_mem_drop hx)
    linarith
  have S0 : 0 ≤ (fs.take (i + 1)).sum := List.sum_nonneg fun x hx => h.nonneg x (List.mem_of_mem_take hx)
  generalize (fs.take (i + 1)).sum = A at *
  generalize fs.sum = S at *
  generalize (1 : ℝ) / 2 ^ p = ε at *
  have lo : 0 < 1 - ε := by linarith
  have hpos : 0 < (1 - ε) ^ fs.length := pow_pos lo _
  have hpos' : 0 < (1 + ε) ^ fs.length := pow_pos (by linarith) _
  have c1' : (1 - ε) ^ fs.length * A ≤ c := le_trans (mul_le_mul_of_nonneg_right (pow_le_pow_of_le_one lo.le (by linarith) (by omega)) S0) c1
  have c2' : c ≤ (1 + ε) ^ fs.length * A := le_trans c2 (mul_le_mul_of_nonneg_right (pow_le_pow_right₀ (by linarith) (by omega)) S0)
  have r1 : 1 ≤ (1 + ε) / (1 - ε) := by rw [le_div_iff₀ lo]; linarith
  have rn : 1 ≤ ((1 + ε) / (1 - ε)) ^ fs.length := one_le_pow₀ r1
  have s1 : A / S ≤ 1 := (div_le_one hs).mpr S1
  have s0 : 0 ≤ A / S := div_nonneg S0 hs.le
  have q2 : c / t ≤ ((1 + ε) / (1 - ε)) ^ fs.length * (A / S) := by
    rw [div_pow, div_mul_div_comm]
    exact div_le_div₀ (mul_nonneg hpos'.le S0) c2' (mul_pos hpos hs) t1
  have q1 : A / S ≤ ((1 + ε) / (1 - ε)) ^ fs.length * (c / t) := by
    rw [div_pow, div_mul_div_comm, div_le_div_iff₀ hs (mul_pos hpos tp)]
    nlinarith [mul_le_mul c1' t2 tp.le (le_trans (mul_nonneg hpos.le S0) c1')]
  have n0 : (0 : ℝ) ≤ 1 / N := by positivity
  have F1 : F ≤ ((1 + ε) / (1 - ε)) ^ (fs.length + 1) * (A / S) + 1 / N := by
    refine u.trans (add_le_add ?_ le_rfl)
    rw [← div_div, div_le_iff₀ lo, pow_succ]
    refine q2.trans ?_
    have : ((1 + ε) / (1 - ε)) ^ fs.length * ((1 + ε) / (1 - ε)) * (A / S) * (1 - ε) = ((1 + ε) / (1 - ε)) ^ fs.length * (A / S) * (1 + ε) := by field_simp
    rw [this]
    nlinarith [mul_nonneg (le_trans zero_le_one rn) s0]
  have rn1 : ((1 + ε) / (1 - ε)) ^ fs.length ≤ ((1 + ε) / (1 - ε)) ^ (fs.length + 1) := pow_le_pow_right₀ r1 (by omega)
  generalize ((1 + ε) / (1 - ε)) ^ (fs.length + 1) = R at *
  generalize ((1 + ε) / (1 - ε)) ^ fs.length = r at *
  have ct : 0 ≤ c / t := div_nonneg (h.sorted.1 c cm).1 tp.le
  have ct1 : c / t ≤ 1 := (div_le_one tp).mpr (hct c cm)
  rw [abs_le]
  constructor
  · nlinarith
  · nlinarith

/-- the share of one bin, from the counts of the one before and of itself -/
theorem between {ε a f c t A B d : ℝ} (h0 : 0 ≤ ε) (h1 : ε ≤ 1 / 2) (ha : 0 ≤ a) (hac : a ≤ c) (ct : c ≤ t) (tp : 0 < t) (c1 : (1 - ε) * (a + f) ≤ c) (c2 : c ≤ (1 + ε) * (a + f))
    (A1 : a / t ≤ A) (A2 : A ≤ a / (t * (1 - ε)) + d) (B1 : c / t ≤ B) (B2 : B ≤ c / (t * (1 - ε)) + d) : |B - A - f / t| ≤ 4 * ε + d := by
  have inv : ∀ x, 0 ≤ x → x / (t * (1 - ε)) ≤ x * (1 + 2 * ε) / t := fun x hx => by
    rw [div_le_div_iff₀ (mul_pos tp (by linarith)) tp]
    have : 0 ≤ x * t * (ε * (1 - 2 * ε)) := mul_nonneg (mul_nonneg hx tp.le) (mul_nonneg h0 (by linarith))
    nlinarith
  have a2 := A2.trans (add_le_add (inv a ha) le_rfl)
  have b2 := B2.trans (add_le_add (inv c (ha.trans hac)) le_rfl)
  have e1 : a + f ≤ 2 * c := by nlinarith
  have m1 := mul_le_mul_of_nonneg_left e1 h0
  have m2 := mul_le_mul_of_nonneg_left ct h0
  have m3 := mul_le_mul_of_nonneg_left (hac.trans ct) h0
  rw [abs_le]
  constructor
  · have : c / t - a * (1 + 2 * ε) / t - f / t = (c - a * (1 + 2 * ε) - f) / t := by ring
    have : -(4 * ε) ≤ (c - a * (1 + 2 * ε) - f) / t := by rw [le_div_iff₀ tp]; nlinarith
    linarith
  · have : c * (1 + 2 * ε) / t - a / t - f / t = (c * (1 + 2 * ε) - a - f) / t := by ring
    have : (c * (1 + 2 * ε) - a - f) / t ≤ 4 * ε := by rw [div_le_iff₀ tp]; nlinarith
    linarith

theorem share_bin (fl : ℝ → ℝ) (fs : List ℝ) (i N : Nat) :
    share N (fun u => binFl fl fs u = some (i + 1)) = share N (fun u => ∃ b ≤ i + 1, binFl fl fs u = some b) - share N (fun u => ∃ b ≤ i, binFl fl fs u = some b) := by
  classical
  simp only [share]
  rw [eq_sub_iff_add_eq, ← add_div]
  congr 1
  norm_cast
  rw [← Finset.card_union_of_disjoint]
  · congr 1
    ext k
    simp only [Finset.mem_union, Finset.mem_filter, Finset.mem_range]
    constructor
    · rintro (⟨hk, e⟩ | ⟨hk, b, hb, e⟩)
      · exact ⟨hk, i + 1, le_rfl, e⟩
      · exact ⟨hk, b, by omega, e⟩
    · rintro ⟨hk, b, hb, e⟩
      rcases Nat.lt_or_ge i b with g | g
      · exact .inl ⟨hk, by rw [e]; congr 1; omega⟩
      · exact .inr ⟨hk, b, g, e⟩
  · rw [Finset.disjoint_left]
    intro k h1 h2
    rw [Finset.mem_filter] at h1 h2
    obtain ⟨_, b, hb, e⟩ := h2
    have := Option.some.inj (h1.2.symm.trans e)
    omega

/-- **C135.** The share of draws that fall into a bin is that of its flux: up to a relative error of one unit of rounding per bin, and to a few units of rounding and one draw. -/
theorem probability (h : Table p fl fs) (hs : 0 < fs.sum) (N : Nat) (hN : 1 ≤ N) (i : Nat) (f : ℝ) (hi : fs[i]? = some f) :
    |share N (fun u => binFl fl fs u = some i) - f / fs.sum| ≤ 4 / 2 ^ p + 1 / N + f / fs.sum * (1 / (1 - 1 / 2 ^ p) ^ fs.length - 1) := by
  have hlt : i < fs.length := (List.getElem?_eq_some_iff.mp hi).1
  obtain ⟨t, _, e, _, tf, hct⟩ := h.last
  have tp := h.total_pos hs e
  have f0 := h.nonneg f (List.mem_of_getElem? hi)
  have hε := eps_le h.prec
  have hε0 : (0 : ℝ) ≤ 1 / 2 ^ p := by positivity
  have cnt : ∀ c, c ∈ cumsumFl fl fs → _ := fun c hc => count h.prec h.near tp (h.sorted.1 c hc).1 (hct c hc) (h.sorted.1 c hc).2 hN
  have main : |share N (fun u => binFl fl fs u = some i) - f / t| ≤ 4 * (1 / 2 ^ p) + 1 / N := by
    cases i with
    | zero =>
      have c0 := cumsum_first fl hi
      have cm := List.mem_of_getElem? c0
      have e0 : share N (fun u => binFl fl fs u = some 0) = share N (fun u => ∃ b ≤ 0, binFl fl fs u = some b) := by
        congr 1; funext u; simp
      obtain ⟨l, u⟩ := cnt _ cm
      rw [e0, share_upto h c0 e, ← sub_zero (_ / (N : ℝ))]
      obtain ⟨b1, b2⟩ := nearest_bounds h.prec h.near f0
      refine between (a := 0) (c := fl f) hε0 hε le_rfl (h.sorted.1 _ cm).1 (hct _ cm) tp (by rw [zero_add]; exact b1) (by rw [zero_add]; exact b2) (by simp) ?_ l u
      rw [zero_div, zero_add]; positivity
    | succ i =>
      obtain ⟨a, ha⟩ := entry fl (fs := fs) (i := i) (by omega)
      have hc := cumsum_step fl fs 0 i a f ha hi
      have am := List.mem_of_getElem? ha
      have cm := List.mem_of_getElem? hc
      obtain ⟨l, u⟩ := cnt _ cm
      obtain ⟨l', u'⟩ := cnt _ am
      have a0 := (h.sorted.1 a am).1
      rw [share_bin, share_upto h hc e, share_upto h ha e]
      obtain ⟨b1, b2⟩ := nearest_bounds h.prec h.near (add_nonneg a0 f0)
      exact between hε0 hε a0 (nearest_ge p fl h.near _ a (h.sorted.1 a am).2 (by linarith)) (hct _ cm) tp b1 b2 l' u' l u
  obtain ⟨t1, t2⟩ := h.total e
  have rel : |f / t - f / fs.sum| ≤ f / fs.sum * (1 / (1 - 1 / 2 ^ p) ^ fs.length - 1) := by
    generalize fs.sum = S at *
    generalize (1 : ℝ) / 2 ^ p = ε at *
    have hpos : 0 < (1 - ε) ^ fs.length := pow_pos (by linarith) _
    have hpos' : 0 < (1 + ε) ^ fs.length := pow_pos (by linarith) _
    have hxy : (1 + ε) ^ fs.length * (1 - ε) ^ fs.length ≤ 1 := by
      rw [← mul_pow]; exact pow_le_one₀ (mul_nonneg (by linarith) (by linarith)) (by nlinarith)
    have hx1 : 1 ≤ (1 + ε) ^ fs.length := one_le_pow₀ (by linarith)
    generalize (1 + ε) ^ fs.length = x at *
    generalize (1 - ε) ^ fs.length = y at *
    have yx : x ≤ 1 / y := by rw [le_div_iff₀ hpos]; exact hxy
    have q0 : 0 ≤ f / S := div_nonneg f0 hs.le
    have u1 : f / t ≤ f / S * (1 / y) := by
      rw [div_mul_div_comm, mul_one]
      exact div_le_div_of_nonneg_left f0 (mul_pos hs hpos) (by linarith)
    have l1 : f / S * (1 / x) ≤ f / t := by
      rw [div_mul_div_comm, mul_one]
      exact div_le_div_of_nonneg_left f0 tp (by linarith)
    have xx : 2 - x ≤ 1 / x := by rw [le_div_iff₀ hpos']; nlinarith [sq_nonneg (x - 1)]
    rw [abs_le]
    constructor
    · nlinarith [mul_le_mul_of_nonneg_left xx q0, mul_le_mul_of_nonneg_left yx q0]
    · linarith
  have := abs_sub_le (share N fun u => binFl fl fs u = some i) (f / t) (f / fs.sum)
  have e4 : (4 : ℝ) / 2 ^ p = 4 * (1 / 2 ^ p) := by ring
  rw [e4]
  linarith

/-- **C135.** For the tables of the package, of at most 40000 bins in double precision, that is a relative error of 10⁻¹¹ and 6·10⁻¹⁶. -/
theorem precise (h : Table 53 fl fs) (hs : 0 < fs.sum) (hn : fs.length ≤ 40000) (i : Nat) (f : ℝ) (hi : fs[i]? = some f) :
    |share (2 ^ 53) (fun u => binFl fl fs u = some i) - f / fs.sum| ≤ 6 / 10 ^ 16 + f / fs.sum * (1 / 10 ^ 11) := by
  refine (probability h hs (2 ^ 53) Nat.one_le_two_pow i f hi).trans (add_le_add (by norm_num) (mul_le_mul_of_nonneg_left ?_ (div_nonneg (h.nonneg f (List.mem_of_getElem? hi)) hs.le)))
  have b : 1 - fs.length * (1 / 2 ^ 53 : ℝ) ≤ (1 - 1 / 2 ^ 53) ^ fs.length := by
    have := one_add_mul_le_pow (a := -(1 / 2 ^ 53 : ℝ)) (by norm_num) fs.length
    calc _ = 1 + (fs.length : ℝ) * -(1 / 2 ^ 53) := by ring
      _ ≤ _ := this
      _ = _ := by ring
  have hn' : (fs.length : ℝ) ≤ 40000 := by exact_mod_cast hn
  have : (1 - 5 / 10 ^ 12 : ℝ) ≤ (1 - 1 / 2 ^ 53) ^ fs.length := by
    refine le_trans ?_ b
    have : (fs.length : ℝ) * (1 / 2 ^ 53) ≤ 40000 * (1 / 2 ^ 53) := mul_le_mul_of_nonneg_right hn' (by norm_num)
    norm_num at this ⊢
    linarith
  have : 1 / (1 - 1 / 2 ^ 53 : ℝ) ^ fs.length ≤ 1 / (1 - 5 / 10 ^ 12) := one_div_le_one_div_of_le (by norm_num) this
  have : (1 / (1 - 5 / 10 ^ 12) : ℝ) ≤ 1 + 1 / 10 ^ 11 := by norm_num
  linarith

theorem uniform_range {a b u : ℝ} (hf : Nearest p fl) (ha : IsFloat p a) (h : a ≤ b) (h0 : 0 ≤ u) (h1 : u ≤ 1) : a ≤ uniformFl fl a b u ∧ uniformFl fl a b u ≤ fl (a + fl (b - a)) := by
  have d : 0 ≤ fl (b - a) := nearest_nonneg hf (by linarith)
  have e : 0 ≤ fl (fl (b - a) * u) := nearest_nonneg hf (mul_nonneg d h0)
  exact ⟨nearest_ge p fl hf _ a ha (by linarith), nearest_mono hf (by linarith [nearest_le p fl hf (fl (b - a) * u) (fl (b - a)) (hf _).1 (by nlinarith)])⟩

/-- **C135.** Generating a muon never fails, and gives one of the angles and energies of the table, a position between the rounded ends of the ranges and an azimuth between zero and the rounded 2π. -/
theorem never_fails {q : Nat} {fl32 : ℝ → ℝ} (h32 : Nearest q fl32) (c : ConfFl) (h : Table p fl c.fluxes) (hl : c.fluxes.length = c.thetas.length * c.energies.length)
    (hx : c.xr.1 ≤ c.xr.2) (hy : c.yr.1 ≤ c.yr.2) (fx : IsFloat p c.xr.1) (fy : IsFloat p c.yr.1) (twoPi : ℝ) (hpi : 0 ≤ twoPi) (fpi : IsFloat p twoPi)
    (d : Gen.Draw) (h1 : d.sample ≤ 1) (px : 0 ≤ d.x ∧ d.x ≤ 1) (py : 0 ≤ d.y ∧ d.y ≤ 1) (pphi : 0 ≤ d.phi ∧ d.phi ≤ 1) :
    ∃ i j t e x y phi, binFl fl c.fluxes d.sample = some (i * c.energies.length + j) ∧ c.thetas[i]? = some t ∧ c.energies[j]? = some e ∧
      c.muon fl fl32 twoPi d = .ok (x, y, (match c.mom with | some m => some (fl32 m) | none => (sqrt? (fl (fl (e * e) - c.mass2))).map fun s => fl32 (fl s)), fl32 t, phi) ∧
      fl32 c.xr.1 ≤ x ∧ x ≤ fl32 (fl (c.xr.1 + fl (c.xr.2 - c.xr.1))) ∧ fl32 c.yr.1 ≤ y ∧ y ≤ fl32 (fl (c.yr.1 + fl (c.yr.2 - c.yr.1))) ∧ 0 ≤ phi ∧ phi ≤ fl32 twoPi := by
  obtain ⟨b, hb, e⟩ := in_range h d.sample h1
  rw [hl] at hb
  have ne : 0 < c.energies.length := by
    rcases Nat.eq_zero_or_pos c.energies.length with z | z
    · rw [z] at hb; simp at hb
    · exact z
  have i1 : b / c.energies.length < c.thetas.length := Nat.div_lt_of_lt_mul (by rwa [Nat.mul_comm] at hb)
  have i2 : b % c.energies.length < c.energies.length := Nat.mod_lt _ ne
  have ux := uniform_range h.near fx hx px.1 px.2
  have uy := uniform_range h.near fy hy py.1 py.2
  have up := uniform_range h.near (isFloat_zero p) hpi pphi.1 pphi.2
  refine ⟨b / c.energies.length, b % c.energies.length, c.thetas[b / c.energies.length], c.energies[b % c.energies.length],
    fl32 (uniformFl fl c.xr.1 c.xr.2 d.x), fl32 (uniformFl fl c.yr.1 c.yr.2 d.y), fl32 (uniformFl fl 0 twoPi d.phi), ?_, List.getElem?_eq_getElem i1, List.getElem?_eq_getElem i2, ?_,
    nearest_mono h32 ux.1, nearest_mono h32 ux.2, nearest_mono h32 uy.1, nearest_mono h32 uy.2, nearest_nonneg h32 up.1, nearest_mono h32 ?_⟩
  · rw [e, Nat.div_add_mod']
  · simp only [ConfFl.muon, e, List.getElem?_eq_getElem i1, List.getElem?_eq_getElem i2]
    cases c.mom with
    | some m => rfl
    | none => simp only [Option.map_map]; rfl
  · have := up.2
    rwa [sub_zero, zero_add, nearest_self p fl h.near _ (h.near _).1, nearest_self p fl h.near _ fpi] at this

/-- **C135, negative.** The azimuth is not below 2π: the largest draw of double precision becomes, in the tensor of single precision, an angle above 2π. -/
theorem phi_violated {fl32 : ℝ → ℝ} (h64 : Nearest 53 fl) (h32 : Nearest 24 fl32) : 2 * π < fl32 (uniformFl fl 0 (fl (2 * π)) ((2 ^ 53 - 1) / 2 ^ 53)) := by
  rw [uniform_zero h64 (h64 _).1]
  have g1 := pi_gt_d20
  have g2 := pi_lt_d20
  obtain ⟨a1, a2⟩ := nearest_bounds (by norm_num) h64 (x := 2 * π) (by positivity)
  have t0 : (0 : ℝ) ≤ fl (2 * π) := nearest_nonneg h64 (by positivity)
  obtain ⟨b1, b2⟩ := nearest_bounds (by norm_num) h64 (x := fl (2 * π) * ((2 ^ 53 - 1) / 2 ^ 53)) (mul_nonneg t0 (by norm_num))
  have e : fl32 (fl (fl (2 * π) * ((2 ^ 53 - 1) / 2 ^ 53))) = ((13176795 : ℤ) : ℝ) * (2 : ℝ) ^ ((2 : ℤ) + 1 - (24 : ℕ)) := by
    have l : 6.28318530 ≤ fl (fl (2 * π) * ((2 ^ 53 - 1) / 2 ^ 53)) := by norm_num at *; linarith
    have u : fl (fl (2 * π) * ((2 ^ 53 - 1) / 2 ^ 53)) ≤ 6.28318531 := by norm_num at *; linarith
    refine nearest_eq 24 (by norm_num) fl32 h32 2 13176795 _ ?_ (by norm_num) ?_
    · norm_num at *; linarith
    · rw [abs_lt]
      norm_num at *
      constructor <;> linarith
  rw [e]
  norm_num
  linarith

/-- **C135, negative.** A bin whose flux is lost in the sum is never drawn, although its flux is positive. -/
theorem absorbed_violated (hp : 1 ≤ p) (hf : Nearest p fl) (x : ℝ) (h0 : 0 < x) (h1 : x < 1 / 2 ^ p) (u : ℝ) (hu : u ≤ 1) : binFl fl [1, x] u = some 0 := by
  have T : Table p fl [1, x] := ⟨hp, hf, by intro y hy; simp at hy; rcases hy with rfl | rfl <;> linarith, by simp⟩
  have f1 : IsFloat p 1 := by simpa using isFloat_int p 1 (by simpa using one_le_pow₀ (by norm_num))
  have e1 : fl 1 = 1 := nearest_self p fl hf 1 f1
  have e2 : fl (1 + x) = 1 := by
    have := nearest_eq p hp fl hf 0 (2 ^ (p - 1)) (1 + x) (by simp; linarith) (by rw [abs_of_nonneg (by positivity)]; exact pow_le_pow_right₀ (by norm_num) (by omega)) ?_
    · rw [this]
      push_cast
      rw [← zpow_natCast, ← zpow_add₀ (by norm_num)]
      have : ((p - 1 : ℕ) : ℤ) + (1 - (p : ℤ)) = 0 := by omega
      rw [this, zpow_zero]
    · push_cast
      rw [← zpow_natCast, ← zpow_add₀ (by norm_num)]
      have : ((p - 1 : ℕ) : ℤ) + (1 - (p : ℤ)) = 0 := by omega
      rw [this, zpow_zero, zpow_sub₀ (by norm_num), zpow_one, zpow_natCast]
      rw [add_sub_cancel_left, abs_of_pos h0]
      calc x < 1 / 2 ^ p := h1
        _ = 1 / 2 * (2 / 2 ^ p) := by ring
  have hcum : cumsumFl fl [1, x] = [1, 1] := by simp [cumsumFl, cumsumFlFrom, e1, e2]
  obtain ⟨b, hb, e⟩ := (upto_iff T (i := 0) (c := 1) (t := 1) (by rw [hcum]; rfl) (by rw [hcum]; rfl) u).mpr (nearest_le p fl hf _ 1 f1 (by linarith))
  rw [e]; congr 1; omega

/-- **C135, negative.** The draw zero falls into the first bin, even if its flux is zero. -/
theorem zero_violated (hp : 1 ≤ p) (hf : Nearest p fl) : binFl fl [0, 1] 0 = some 0 := by
  have T : Table p fl [0, 1] := ⟨hp, hf, by simp, by simp⟩
  have z : fl 0 = 0 := nearest_self p fl hf 0 (isFloat_zero p)
  obtain ⟨t, ht, _⟩ := T.bin 0
  obtain ⟨b, hb, e⟩ := (upto_iff T (i := 0) (c := 0) (by simp [cumsumFl, cumsumFlFrom, z]) ht 0).mpr (by rw [mul_zero, z])
  rw [e]; congr 1; omega

example : ∃ fl, Table 53 fl [3, 1 / 3, 2] ∧ 0 < ([3, 1 / 3, 2] : List ℝ).sum := by
  obtain ⟨fl, hf⟩ := rounding_exists 53 (by norm_num)
  exact ⟨fl, ⟨by norm_num, hf, by intro x hx; simp at hx; rcases hx with rfl | rfl | rfl <;> norm_num, by simp⟩, by norm_num⟩

/-- a generator of two angles and one energy -/
def gen : ConfFl := ⟨(0, 1), (0, 2), none, [1], [0, 1 / 2], [3, 1], 1 / 100⟩

example : ∃ fl fl32 : ℝ → ℝ, Nearest 53 fl ∧ Nearest 24 fl32 ∧ ∃ m, gen.muon fl fl32 (fl (2 * π)) ⟨1 / 2, 0, 0, 1⟩ = .ok m ∧ m.2.2.2.1 = 0 := by
  obtain ⟨fl, hf⟩ := rounding_exists 53 (by norm_num)
  obtain ⟨fl32, h32⟩ := rounding_exists 24 (by norm_num)
  refine ⟨fl, fl32, hf, h32, ?_⟩
  have I : ∀ k : ℤ, |k| ≤ 2 ^ 53 → fl k = k := fun k hk => nearest_self 53 fl hf _ (isFloat_int 53 k hk)
  have e3 : fl 3 = 3 := by simpa using I 3 (by norm_num)
  have e4 : fl 4 = 4 := by simpa using I 4 (by norm_num)
  have e2 : fl 2 = 2 := by simpa using I 2 (by norm_num)
  have T : Table 53 fl [3, 1] := ⟨by norm_num, hf, by intro x hx; simp at hx; rcases hx with rfl | rfl <;> norm_num, by simp⟩
  have hcum : cumsumFl fl [3, 1] = [3, 4] := by
    simp only [cumsumFl, cumsumFlFrom, zero_add, e3]
    norm_num [e4]
  obtain ⟨b, hb, e⟩ := (upto_iff T (i := 0) (c := 3) (t := 4) (by rw [hcum]; rfl) (by rw [hcum]; rfl) (1 / 2)).mpr (by norm_num [e2])
  obtain rfl : b = 0 := by omega
  have e0 : fl32 0 = 0 := nearest_self 24 fl32 h32 0 (isFloat_zero 24)
  have hm : gen.muon fl fl32 (fl (2 * π)) ⟨1 / 2, 0, 0, 1⟩ = .ok (fl32 (uniformFl fl 0 1 0), fl32 (uniformFl fl 0 2 1), ((sqrt? (fl (fl (1 * 1) - 1 / 100))).map fl).map fl32, fl32 0, fl32 (uniformFl fl 0 (fl (2 * π)) 0)) := by
    simp only [ConfFl.muon, gen, e]
    rfl
  exact ⟨_, hm, e0⟩

end C135

end

end Tomopt
