import Verif.Spec.ExchangePredict
import Verif.Props.C37_39

/- Lemmas for C152: the voxel inferrer with the horizontal axes exchanged. -/
namespace Tomopt

noncomputable section
open Real Infer C107

namespace Exchange

/-- the row of a muon with the axes exchanged -/
def swMuRow (r : MuRow) : MuRow := { r with poca := sw3 r.poca, pocaUnc := sw3 r.pocaUnc }

theorem parseRow_sw (a b c a' b' c' : ℝ) (r r' : List XF) :
    parseRow (.num b :: .num a :: .num c :: r) (.num b' :: .num a' :: .num c' :: r') = (parseRow (.num a :: .num b :: .num c :: r) (.num a' :: .num b' :: .num c' :: r')).map swMuRow := by
  rcases h : parseRow (.num a :: .num b :: .num c :: r) (.num a' :: .num b' :: .num c' :: r') with e | y
  · unfold parseRow at h ⊢
    split at h
    · cases h
    · rename_i hno
      cases h
      split
      · rename_i h1 h2
        simp only [List.cons.injEq] at h1 h2
        obtain ⟨-, -, -, rfl⟩ := h1
        obtain ⟨-, -, -, rfl⟩ := h2
        exact (hno _ _ _ _ _ _ _ _ _ _ _ _ _ _ rfl rfl).elim
      · rfl
  · unfold parseRow at h
    split at h
    · rename_i h1 h2
      simp only [List.cons.injEq, XF.num.injEq] at h1 h2
      obtain ⟨rfl, rfl, rfl, rfl⟩ := h1
      obtain ⟨rfl, rfl, rfl, rfl⟩ := h2
      cases h
      rfl
    · cases h

theorem voxelProb_sw (cdf : ℝ → ℝ → ℝ → ℝ) (s : ℝ) (r : MuRow) (x y z : ℝ) : voxelProb cdf s (swMuRow r) (y, x, z) = voxelProb cdf s r (x, y, z) := by
  simp only [voxelProb, swMuRow, sw3]
  ring

theorem voxelX0_sw (big s : ℝ) (rows : List MuRow) (effs ps : List ℝ) : voxelX0 big s (rows.map swMuRow) effs ps = voxelX0 big s rows effs ps := by
  simp only [voxelX0, List.map_map, Function.comp_def, swMuRow]

/-- the configuration of a block, and the probabilities it gives -/
theorem block_conf {V : Volume} {s zb : ℝ} {nx ny nz : Nat} {mat : Nat → Nat → Nat → ℝ} (hB : Block V s zb nx ny nz mat) (n : ℤ) (hz : zb = n * s) {cdf big eff} {c : Conf} (hc : confOf V cdf big eff = .ok c) :
    c.cdf = cdf ∧ c.big = big ∧ c.size = s ∧ c.shp = (nx, ny, nz) ∧ c.eff = eff ∧
      ∀ r, ∃ t, muonProbs c.cdf c.size c.edges c.shp r = .ok t ∧ ∀ k < nz, ∀ i < nx, ∀ j < ny, at3 t k i j = voxelProb cdf s r (i * s, j * s, zb + k * s) + 1e-15 := by
  obtain ⟨c', h1, h2⟩ := C39.probs_zxy hB n hz cdf big eff
  rw [hc] at h1
  cases h1
  have e1 : (nx : ℝ) * s / s = nx := by have := hB.pos.ne'; field_simp
  have e2 : (ny : ℝ) * s / s = ny := by have := hB.pos.ne'; field_simp
  obtain ⟨es, he, -⟩ := C15.edges_spec hB n hz
  simp only [confOf, hB.lw_eq, hB.size_eq, he, hB.count, e1, e2, pyRound_nat, bind, Except.bind, Int.toNat_natCast, Except.ok.injEq] at hc
  refine ⟨by rw [← hc], by rw [← hc], by rw [← hc], by rw [← hc], by rw [← hc], fun r => ?_⟩
  obtain ⟨t, ht, -, hk⟩ := h2 r
  refine ⟨t, ht, fun k hk' i hi j hj => ?_⟩
  obtain ⟨tk, a1, -, a2⟩ := hk k hk'
  obtain ⟨ti, b1, -, b2⟩ := a2 i hi
  simp [at3, List.getD_eq_getElem?_getD, a1, b1, b2 j hj]

/-- the prediction from rows, of a block -/
theorem preds_block {V : Volume} {s zb : ℝ} {nx ny nz : Nat} {mat : Nat → Nat → Nat → ℝ} (hB : Block V s zb nx ny nz mat) (n : ℤ) (hz : zb = n * s) {cdf big eff} {c : Conf} (hc : confOf V cdf big eff = .ok c)
    (rows : List MuRow) : ∃ probs, mapE (muonProbs c.cdf c.size c.edges c.shp) rows = .ok probs ∧
      ∀ k < nz, ∀ i < nx, ∀ j < ny, (probs.map fun t => at3 t k i j) = rows.map fun r => voxelProb cdf s r (i * s, j * s, zb + k * s) + 1e-15 := by
  obtain ⟨-, -, -, -, -, h⟩ := block_conf hB n hz hc
  choose T h1 h2 using h
  refine ⟨rows.map T, C34.mapE_ok _ T rows fun r _ => h1 r, fun k hk i hi j hj => ?_⟩
  rw [List.map_map]
  exact List.map_congr_left fun r _ => h2 r k hk i hi j hj

/-- predictions of voxels, given by a function -/
def predOf (nx ny nz : Nat) (f : Nat → Nat → Nat → XF) : Except Err (List (List (List XF))) :=
  let pred := (List.range nz).map fun k => (List.range nx).map fun i => (List.range ny).map fun j => f k i j
  if pred.any fun a => a.any fun b => b.any isNan then .error .valueError else .ok pred

theorem predOf_any (nx ny nz : Nat) (f : Nat → Nat → Nat → XF) :
    (((List.range nz).map fun k => (List.range nx).map fun i => (List.range ny).map fun j => f k i j).any fun a => a.any fun b => b.any isNan) = true ↔
      ∃ k < nz, ∃ i < nx, ∃ j < ny, isNan (f k i j) = true := by
  simp only [List.any_map, List.any_eq_true, List.mem_range, Function.comp]

theorem predOf_sw (nx ny nz : Nat) (f g : Nat → Nat → Nat → XF) (h : ∀ k < nz, ∀ i < nx, ∀ j < ny, g k j i = f k i j) :
    (predOf nx ny nz f = .error .valueError ∧ predOf ny nx nz g = .error .valueError) ∨
      ∃ p p', predOf nx ny nz f = .ok p ∧ predOf ny nx nz g = .ok p' ∧ ∀ k i j, entry3 p' k j i = entry3 p k i j := by
  have e : (∃ k < nz, ∃ i < nx, ∃ j < ny, isNan (f k i j) = true) ↔ ∃ k < nz, ∃ j < ny, ∃ i < nx, isNan (g k j i) = true := by
    constructor
    · rintro ⟨k, hk, i, hi, j, hj, hh⟩
      exact ⟨k, hk, j, hj, i, hi, by rw [h k hk i hi j hj]; exact hh⟩
    · rintro ⟨k, hk, j, hj, i, hi, hh⟩
      exact ⟨k, hk, i, hi, j, hj, by rw [← h k hk i hi j hj]; exact hh⟩
  by_cases hx : ∃ k < nz, ∃ i < nx, ∃ j < ny, isNan (f k i j) = true
  · left
    exact ⟨by rw [predOf]; exact if_pos ((predOf_any ..).mpr hx), by rw [predOf]; exact if_pos ((predOf_any ..).mpr (e.mp hx))⟩
  · right
    refine ⟨_, _, by rw [predOf]; exact if_neg fun hh => hx ((predOf_any ..).mp hh), by rw [predOf]; exact if_neg fun hh => hx (e.mpr ((predOf_any ..).mp hh)), fun k i j => ?_⟩
    simp only [entry3, List.getElem?_map]
    by_cases hk : k < nz
    · by_cases hi : i < nx
      · by_cases hj : j < ny
        · simp [hk, hi, hj, h k hk i hi j hj]
        · simp [hk, hi, hj]
      · by_cases hj : j < ny
        · simp [hk, hi, hj]
        · simp [hk, hi, hj]
    · simp [hk]

theorem swRow_mem (l : List XF) (x : XF) : x ∈ swRow "poca" l ↔ x ∈ l := by
  unfold swRow
  rw [if_neg (by decide)]
  split
  · simp only [List.mem_cons]; tauto
  · rfl

theorem usable_sw (m : Mu) : (swMu m).Usable ↔ m.Usable := by
  simp only [Mu.Usable, swMu]
  refine and_congr (forall_congr' fun v => ?_) (forall_congr' fun v => imp_congr_right fun _ => ?_)
  · split
    · rename_i h; subst h; simp only [swRow_mem]
    · rfl
  · split
    · rename_i h; subst h; simp only [swRow_mem]
    · rfl

theorem isFinite_num {x : XF} (h : x.isFinite = true) : ∃ a, x = .num a := by
  cases x <;> simp_all [XF.isFinite]

theorem parse_mu (m : Mu) (hu : m.Usable) (h3 : (m.vals .poca).length = 3 ∧ (m.uncs .poca).length = 3) :
    parseRow (swMu m).rec'.vals (swMu m).rec'.uncs = (parseRow m.rec'.vals m.rec'.uncs).map swMuRow := by
  obtain ⟨a, b, c, hv⟩ := List.length_eq_three.mp h3.1
  obtain ⟨a', b', c', hv'⟩ := List.length_eq_three.mp h3.2
  have f1 := hu.1 .poca
  have f2 := hu.2 .poca (by decide)
  rw [hv] at f1
  rw [hv'] at f2
  obtain ⟨a, rfl⟩ := isFinite_num (f1 a (by simp))
  obtain ⟨b, rfl⟩ := isFinite_num (f1 b (by simp))
  obtain ⟨c, rfl⟩ := isFinite_num (f1 c (by simp))
  obtain ⟨a', rfl⟩ := isFinite_num (f2 a' (by simp))
  obtain ⟨b', rfl⟩ := isFinite_num (f2 b' (by simp))
  obtain ⟨c', rfl⟩ := isFinite_num (f2 c' (by simp))
  have e := parseRow_sw a b c a' b' c' (m.vals .totScatter ++ (m.vals .thetaIn ++ (m.vals .thetaOut ++ m.vals .mom))) (m.uncs .totScatter ++ (m.uncs .thetaIn ++ (m.uncs .thetaOut ++ (m.vals .mom).map fun _ => .num 0)))
  simpa [Mu.rec', swMu, hv, hv', swRow] using e

/-- the prediction from the usable muons, with axes exchanged -/
theorem fromMuons_sw {V W : Volume} {s zb : ℝ} {nx ny nz : Nat} {mat mat' : Nat → Nat → Nat → ℝ} (hV : Block V s zb nx ny nz mat) (hW : Block W s zb ny nx nz mat') (n : ℤ) (hz : zb = n * s) {cdf big eff}
    {c d : Conf} (hc : confOf V cdf big eff = .ok c) (hd : confOf W cdf big eff = .ok d) (ks : List Mu) (hu : ∀ m ∈ ks, m.Usable) (h3 : ∀ m ∈ ks, (m.vals .poca).length = 3 ∧ (m.uncs .poca).length = 3) :
    (∃ e, fromMuons c (ks.map Mu.rec') = .error e ∧ fromMuons d ((ks.map swMu).map Mu.rec') = .error e) ∨
      ∃ p p', fromMuons c (ks.map Mu.rec') = .ok p ∧ fromMuons d ((ks.map swMu).map Mu.rec') = .ok p' ∧ ∀ k i j, entry3 p' k j i = entry3 p k i j := by
  obtain ⟨-, c2, c3, c4, -, -⟩ := block_conf hV n hz hc
  obtain ⟨-, d2, d3, d4, -, -⟩ := block_conf hW n hz hd
  have hp : mapE (fun k : MuonRec => parseRow k.vals k.uncs) ((ks.map swMu).map Mu.rec') = (mapE (fun k : MuonRec => parseRow k.vals k.uncs) (ks.map Mu.rec')).map (·.map swMuRow) := by
    clear hc hd
    induction ks with
    | nil => rfl
    | cons m ks ih =>
      simp only [List.map_cons, mapE, parse_mu m (hu m (by simp)) (h3 m (by simp)), ih (fun m hm => hu m (by simp [hm])) (fun m hm => h3 m (by simp [hm]))]
      cases parseRow m.rec'.vals m.rec'.uncs with
      | error e => rfl
      | ok r => cases mapE (fun k : MuonRec => parseRow k.vals k.uncs) (ks.map Mu.rec') <;> rfl
  have heff : ((ks.map swMu).map Mu.rec').map (·.eff) = (ks.map Mu.rec').map (·.eff) := by
    simp only [List.map_map]
    exact List.map_congr_left fun m _ => rfl
  unfold fromMuons
  rw [hp, heff]
  cases mapE (fun k : MuonRec => parseRow k.vals k.uncs) (ks.map Mu.rec') with
  | error e => exact Or.inl ⟨e, rfl, rfl⟩
  | ok rows =>
    obtain ⟨P, p1, p2⟩ := preds_block hV n hz hc rows
    obtain ⟨Q, q1, q2⟩ := preds_block hW n hz hd (rows.map swMuRow)
    simp only [Except.map, p1, q1]
    rw [c2, c3, c4, d2, d3, d4]
    rcases predOf_sw nx ny nz (fun k i j => voxelX0 big s rows ((ks.map Mu.rec').map (·.eff)) (P.map fun t => at3 t k i j))
      (fun k j i => voxelX0 big s (rows.map swMuRow) ((ks.map Mu.rec').map (·.eff)) (Q.map fun t => at3 t k j i)) (fun k hk i hi j hj => by
        simp only [voxelX0_sw]
        rw [p2 k hk i hi j hj, q2 k hk j hj i hi]
        congr 1
        rw [List.map_map]
        exact List.map_congr_left fun r _ => by simp only [Function.comp, voxelProb_sw]) with ⟨h1, h2⟩ | h
    · exact Or.inl ⟨_, h1, h2⟩
    · exact Or.inr h

end Exchange

end

end Tomopt
