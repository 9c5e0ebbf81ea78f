import Verif.Lemmas.ScatterBatch
import Verif.Props.C27_31

/- C32, C33: building and filtering a scatter batch. -/
namespace Tomopt

noncomputable section

open Real Scatter

namespace C33

/-- the rows of muon `i` recorded at position `pos`, parsed: reco, gen, unc, eff -/
def sideRows (h : Dict String (Dict String (List (List Row)))) (pos : String) (i : Nat) (out : List X3 × List X3 × List X3 × List XF) : Prop :=
  ∃ r g u e rr gg uu ee, hitVar h pos "reco_xyz" = .ok r ∧ hitVar h pos "gen_xyz" = .ok g ∧ hitVar h pos "unc_xyz" = .ok u ∧ hitVar h pos "eff" = .ok e ∧
    r[i]? = some rr ∧ g[i]? = some gg ∧ u[i]? = some uu ∧ e[i]? = some ee ∧
    mapE parse3 rr = .ok out.1 ∧ mapE parse3 gg = .ok out.2.1 ∧ mapE parse3 uu = .ok out.2.2.1 ∧ mapE parse1 ee = .ok out.2.2.2

/-- every muon has `k` hits above in every variable -/
def WidthAbove (h : Dict String (Dict String (List (List Row)))) (k : Nat) : Prop :=
  ∀ var t, var ∈ ["reco_xyz", "gen_xyz", "unc_xyz", "eff"] → hitVar h "above" var = .ok t → ∀ r ∈ t, r.length = k

theorem cat_get {β : Type} {a b c : List (List β)} (h : catDim1 a b = .ok c) (i : Nat) (hi : i < c.length) :
    ∃ x y, a[i]? = some x ∧ b[i]? = some y ∧ c[i]? = some (x ++ y) := by
  unfold catDim1 at h
  split at h
  · rename_i hl
    simp only [Except.ok.injEq] at h
    subst h
    simp only [List.length_zipWith] at hi
    have h1 : i < a.length := by omega
    have h2 : i < b.length := by omega
    exact ⟨a[i], b[i], List.getElem?_eq_getElem h1, List.getElem?_eq_getElem h2, by simp [List.getElem?_zipWith, h1, h2]⟩
  · simp at h

theorem side_split {β : Type} (f : Row → Except Err β) {a b c : List (List Row)} {out : List (List β)} (hc : catDim1 a b = .ok c) (hm : mapE (mapE f) c = .ok out)
    (n : Nat) (hw : ∀ r ∈ a, r.length = n) (i : Nat) (o : List β) (ho : out[i]? = some o) :
    ∃ x y, a[i]? = some x ∧ b[i]? = some y ∧ mapE f x = .ok (o.take n) ∧ mapE f y = .ok (o.drop n) := by
  have hi : i < c.length := by
    rw [← mapE_length _ _ _ hm]; exact (List.getElem?_eq_some_iff.mp ho).1
  obtain ⟨x, y, hx, hy, hxy⟩ := cat_get hc i hi
  obtain ⟨o', ho', hf⟩ := mapE_get _ _ _ hm i _ hxy
  rw [ho] at ho'
  simp only [Option.some.injEq] at ho'
  subst ho'
  obtain ⟨t1, t2⟩ := mapE_take f n _ _ hf
  have hl : x.length = n := hw x (List.mem_of_getElem? hx)
  rw [← hl, List.take_left] at t1
  rw [← hl, List.drop_left] at t2
  exact ⟨x, y, hx, hy, by rw [← hl]; exact t1, by rw [← hl]; exact t2⟩

/-- **C33.** Whatever the numbers of panels: the incoming track of muon `i` is the fit of exactly the hits recorded above, in recorded order, each with
its own uncertainty over efficiency, and the outgoing track the fit of exactly those recorded below. (True hits with unit uncertainty in a
`GenScatterBatch`.) -/
theorem right_panels (h : Dict String (Dict String (List (List Row)))) (k : Nat) (hw : WidthAbove h k) (H : Hits) (he : extract h = .ok H) (gen : Bool)
    (lw : ℝ × ℝ) (ts) (ht : computeTracks gen lw H = .ok ts) (i : Nat) (tin tout : Option Track) (hi : ts[i]? = some (tin, tout)) :
    ∃ A B, sideRows h "above" i A ∧ sideRows h "below" i B ∧
      (gen = false → trajectory lw (A.1.zip (List.zipWith scaleUnc A.2.2.1 A.2.2.2)) = .ok tin ∧
        trajectory lw (B.1.zip (List.zipWith scaleUnc B.2.2.1 B.2.2.2)) = .ok tout) ∧
      (gen = true → trajectory lw (A.2.1.map fun q => (q, (.num 1, .num 1, .num 1))) = .ok tin ∧
        trajectory lw (B.2.1.map fun q => (q, (.num 1, .num 1, .num 1))) = .ok tout) := by
  obtain ⟨ra, rb, ga, gb, ua, ub, ea, eb, r, g, u, e, h1, h2, h3, h4, h5, h6, h7, h8, c1, c2, c3, c4, m1, m2, m3, m4, n1, n2⟩ := extract_parts he
  unfold computeTracks at ht
  have hilt : i < H.rows.length := by
    rw [← mapE_length _ _ _ ht]; exact (List.getElem?_eq_some_iff.mp hi).1
  have hrow : H.rows[i]? = some H.rows[i] := List.getElem?_eq_getElem hilt
  generalize H.rows[i] = row at hrow
  obtain ⟨p, hp, hf⟩ := mapE_get _ _ _ ht i _ hrow
  rw [hi] at hp
  simp only [Option.some.injEq] at hp
  subst hp
  obtain ⟨o1, o2, o3, o4⟩ := row
  simp only [Hits.rows, List.getElem?_zip_eq_some] at hrow
  obtain ⟨q1, q2, q3, q4⟩ := hrow
  obtain ⟨xr, yr, a1, a2, a3, a4⟩ := side_split parse3 c1 m1 k (hw _ _ (by simp) h1) i o1 q1
  obtain ⟨xg, yg, b1, b2, b3, b4⟩ := side_split parse3 c2 m2 k (hw _ _ (by simp) h3) i o2 q2
  obtain ⟨xu, yu, d1, d2, d3, d4⟩ := side_split parse3 c3 m3 k (hw _ _ (by simp) h5) i o3 q3
  obtain ⟨xe, ye, e1, e2, e3, e4⟩ := side_split parse1 c4 m4 k (hw _ _ (by simp) h7) i o4 q4
  have hk : H.nAbove = k := by
    rw [n1]
    cases ra with
    | nil => simp at a1
    | cons x ra => exact hw _ _ (by simp) h1 x (by simp)
  refine ⟨(o1.take k, o2.take k, o3.take k, o4.take k), (o1.drop k, o2.drop k, o3.drop k, o4.drop k),
    ⟨ra, ga, ua, ea, xr, xg, xu, xe, h1, h3, h5, h7, a1, b1, d1, e1, a3, b3, d3, e3⟩,
    ⟨rb, gb, ub, eb, yr, yg, yu, ye, h2, h4, h6, h8, a2, b2, d2, e2, a4, b4, d4, e4⟩, ?_, ?_⟩
  · rintro rfl
    simp only [rowTracks, Bool.false_eq_true, if_false, muonTracks, hk] at hf
    obtain ⟨t1, f1, hf⟩ := bind_ok hf
    obtain ⟨t2, f2, hf⟩ := bind_ok hf
    simp only [Except.ok.injEq, Prod.mk.injEq] at hf
    obtain ⟨rfl, rfl⟩ := hf
    exact ⟨f1, f2⟩
  · rintro rfl
    simp only [rowTracks, if_true, muonTracksGen, hk, ones3] at hf
    obtain ⟨t1, f1, hf⟩ := bind_ok hf
    obtain ⟨t2, f2, hf⟩ := bind_ok hf
    simp only [Except.ok.injEq, Prod.mk.injEq] at hf
    obtain ⟨rfl, rfl⟩ := hf
    exact ⟨f1, f2⟩

end C33

namespace C32

/-- A scatter batch whose tensors and tracks are those of its muons, as before the filter. -/
structure Consistent (gen : Bool) (lw : ℝ × ℝ) (s : SB) : Prop where
  aligned : HitsOk s.mu.muons.length s.mu.hits
  recorded : s.mu.hits ≠ []
  hits : ∃ h, s.mu.getHits none none = .ok h ∧ extract h = .ok s.hits
  tracks : computeTracks gen lw s.hits = .ok s.tracks

theorem lengths {gen : Bool} {lw : ℝ × ℝ} {s : SB} (hc : Consistent gen lw s) :
    s.hits.rows.length = s.mu.muons.length ∧ s.tracks.length = s.mu.muons.length := by
  obtain ⟨h, hg, he⟩ := hc.hits
  rw [getHits_stacked s.mu hc.aligned hc.recorded] at hg
  simp only [Except.ok.injEq] at hg
  subst hg
  obtain ⟨ra, rb, ga, gb, ua, ub, ea, eb, r, g, u, e, h1, h2, h3, h4, h5, h6, h7, h8, c1, c2, c3, c4, m1, m2, m3, m4, n1, n2⟩ := extract_parts he
  have w := fun pos var t ht => (stackedHits_width s.mu.muons.length s.mu.hits hc.aligned pos var t ht).1
  have catl : ∀ {a b c : List (List Row)}, catDim1 a b = .ok c → a.length = s.mu.muons.length → c.length = s.mu.muons.length := by
    intro a b c h ha
    unfold catDim1 at h
    split at h
    · rename_i hl
      simp only [Except.ok.injEq] at h
      subst h
      simp [← hl, ha]
    · simp at h
  have l1 := (mapE_length _ _ _ m1).trans (catl c1 (w _ _ _ h1))
  have l2 := (mapE_length _ _ _ m2).trans (catl c2 (w _ _ _ h3))
  have l3 := (mapE_length _ _ _ m3).trans (catl c3 (w _ _ _ h5))
  have l4 := (mapE_length _ _ _ m4).trans (catl c4 (w _ _ _ h7))
  have hr : s.hits.rows.length = s.mu.muons.length := by simp [Hits.rows, l1, l2, l3, l4]
  refine ⟨hr, ?_⟩
  have := hc.tracks
  unfold computeTracks at this
  rw [mapE_length _ _ _ this, hr]

/-- extraction commutes with selecting muons -/
theorem extract_pick (n : Nat) (d : Dict String (Dict String (List (List Row)))) (hl : ∀ pos var t, hitVar d pos var = .ok t → t.length = n)
    (m : List Bool) (hm : m.length = n) (H : Hits) (he : extract d = .ok H) :
    ∃ H', extract (d.mapVals fun vars => vars.mapVals (pick m)) = .ok H' ∧ H'.rows = pick m H.rows ∧
      H'.nAbove = (match hitVar d "above" "reco_xyz" with | .ok t => shape1 (pick m t) | .error _ => 0) := by
  obtain ⟨ra, rb, ga, gb, ua, ub, ea, eb, r, g, u, e, h1, h2, h3, h4, h5, h6, h7, h8, c1, c2, c3, c4, m1, m2, m3, m4, n1, n2⟩ := extract_parts he
  refine ⟨⟨shape1 (pick m ra), shape1 (pick m rb), pick m H.reco, pick m H.gen, pick m H.unc, pick m H.eff⟩, ?_, ?_, ?_⟩
  · have p1 := catDim1_pick m ra rb r (by rw [hm, hl _ _ _ h1]) c1
    have p2 := catDim1_pick m ga gb g (by rw [hm, hl _ _ _ h3]) c2
    have p3 := catDim1_pick m ua ub u (by rw [hm, hl _ _ _ h5]) c3
    have p4 := catDim1_pick m ea eb e (by rw [hm, hl _ _ _ h7]) c4
    simp only [extract, bothSides, hitVar_pick, h1, h2, h3, h4, h5, h6, h7, h8, Except.map, bind, Except.bind, p1, p2, p3, p4,
      mapE_pick _ m _ _ m1, mapE_pick _ m _ _ m2, mapE_pick _ m _ _ m3, mapE_pick _ m _ _ m4]
  · simp only [Hits.rows, pick_zip]
  · simp only [h1]

/-- **C32, what holds**: for a batch of any number of muons, except a single muon that is to be dropped: the filter keeps exactly the muons that pass
(`keepMask`: by `mask_iff` below the usable ones), and muons, hit tensors and tracks afterwards are those of the kept muons, row by row, in order; a second filtering keeps everything.
Missing: the single muon. -/
theorem filter_spec_partial (gen : Bool) (lw zr : ℝ × ℝ) (s : SB) (hc : Consistent gen lw s)
    (hn : s.mu.muons.length ≠ 1 ∨ (keepMask gen lw zr s).all id = true) :
    (keepMask gen lw zr s).length = s.mu.muons.length ∧
    ∃ s', filterScatters gen lw zr s = .ok s' ∧ Consistent gen lw s' ∧ s'.mu.muons = pick (keepMask gen lw zr s) s.mu.muons ∧
      s'.tracks = pick (keepMask gen lw zr s) s.tracks ∧ s'.hits.rows = pick (keepMask gen lw zr s) s.hits.rows ∧
      (keepMask gen lw zr s').all id = true := by
  obtain ⟨lr, lt⟩ := lengths hc
  have hlen : (keepMask gen lw zr s).length = s.mu.muons.length := by simp [keepMask, lr, lt]
  refine ⟨hlen, ?_⟩
  generalize hm : keepMask gen lw zr s = m at *
  unfold filterScatters
  simp only [hm]
  by_cases hall : m.all id = true
  · have hrep : m = List.replicate m.length true := by
      apply List.eq_replicate_iff.mpr
      refine ⟨rfl, ?_⟩
      intro b hb
      simpa using List.all_eq_true.mp hall b hb
    have pk : ∀ {β : Type} (xs : List β), xs.length = s.mu.muons.length → pick m xs = xs := by
      intro β xs hx
      rw [hrep, hlen, ← hx]; exact pick_replicate_true xs
    refine ⟨s, by rw [if_pos hall], hc, (pk _ rfl).symm, (pk _ lt).symm, (pk _ lr).symm, by rw [hm]; exact hall⟩
  · have h1 : m.length ≠ 1 := by
      rw [hlen]; rcases hn with h | h
      · exact h
      · exact absurd h hall
    rw [if_neg hall, if_neg h1]
    have hcount : countTrue m < s.mu.muons.length := by
      rw [← hlen]
      by_contra hc'
      apply hall
      rw [all_true_of_count m hc']
      simp
    obtain ⟨h, hg, he⟩ := hc.hits
    rw [getHits_stacked s.mu hc.aligned hc.recorded] at hg
    simp only [Except.ok.injEq] at hg
    subst hg
    have hok : HitsOk m.length s.mu.hits := by rw [hlen]; exact hc.aligned
    have hw := fun pos var t ht => stackedHits_width s.mu.muons.length s.mu.hits hc.aligned pos var t ht
    obtain ⟨H', hH', hrows, hnA⟩ := extract_pick s.mu.muons.length _ (fun pos var t ht => (hw pos var t ht).1) m hlen s.hits he
    -- the filtered muon batch
    have hfil : s.mu.filterMuons m = .ok { s.mu with
        removed := s.mu.removed ++ (pick (Tomopt.inv m) s.mu.muons).map MuonOf.toRaw
        muons := pick m s.mu.muons, hits := Batch.filterHits s.mu.hits m } := by
      unfold Batch.filterMuons
      rw [if_pos hcount, if_neg (by rw [hlen]; simp)]
    generalize hmu : ({ s.mu with
        removed := s.mu.removed ++ (pick (Tomopt.inv m) s.mu.muons).map MuonOf.toRaw
        muons := pick m s.mu.muons, hits := Batch.filterHits s.mu.hits m } : Batch Row) = mu' at hfil
    have hmuons : mu'.muons = pick m s.mu.muons := by rw [← hmu]
    have hhits : mu'.hits = Batch.filterHits s.mu.hits m := by rw [← hmu]
    have hml : mu'.muons.length = countTrue m := by rw [hmuons]; exact pick_length m _ hlen
    have hal : HitsOk mu'.muons.length mu'.hits := by rw [hml, hhits]; exact HitsOk_filter hok rfl
    have hrec : mu'.hits ≠ [] := by
      rw [hhits]
      have := hc.recorded
      cases hh : s.mu.hits with
      | nil => exact absurd hh this
      | cons a l => simp [Batch.filterHits, Dict.mapVals]
    have hget : mu'.getHits none none = .ok ((stackedHits s.mu.muons.length s.mu.hits).mapVals fun vars => vars.mapVals (pick m)) := by
      rw [getHits_stacked mu' hal hrec, hml, hhits, stackedHits_filter m s.mu.hits hok, hlen]
    -- tracks
    have htr : computeTracks gen lw H' = .ok (pick m s.tracks) := by
      have h0 := hc.tracks
      unfold computeTracks at h0 ⊢
      rw [hrows]
      have hp := mapE_pick _ m _ _ h0
      cases hpr : pick m s.hits.rows with
      | nil =>
        rw [hpr] at hp
        simp only [mapE] at hp ⊢
        exact hp
      | cons r0 rest =>
        have hnn : H'.nAbove = s.hits.nAbove := by
          rw [hnA]
          obtain ⟨ra, rb, ga, gb, ua, ub, ea, eb, r, g, u, e, h1, h2, h3, h4, h5, h6, h7, h8, c1, c2, c3, c4, m1, m2, m3, m4, n1, n2⟩ := extract_parts he
          simp only [h1]
          obtain ⟨wl, k, wk⟩ := hw _ _ _ h1
          have hpos : 0 < countTrue m := by
            have := pick_length m s.hits.rows (by rw [hlen, lr])
            rw [hpr] at this; simp at this; omega
          have hpl := pick_length m ra (by rw [hlen, wl])
          rw [n1]
          cases hpa : pick m ra with
          | nil => rw [hpa] at hpl; simp at hpl; omega
          | cons x xs =>
            have hx : x ∈ ra := (pick_sublist m ra).subset (by rw [hpa]; simp)
            cases hra : ra with
            | nil => rw [hra] at hx; simp at hx
            | cons y ys => simp only [shape1]; rw [wk x hx, wk y (by rw [hra]; simp)]
        rw [hnn, ← hpr]; exact hp
    refine ⟨⟨mu', H', pick m s.tracks⟩, ?_, ⟨hal, hrec, ⟨_, hget, hH'⟩, htr⟩, hmuons, rfl, hrows, ?_⟩
    · simp only [hfil, hget, hH', htr, bind, Except.bind]
    · simp only [keepMask] at hm ⊢
      rw [hrows, ← pick_zipWith, hm]
      have : ∀ m : List Bool, (pick m m).all id = true := by
        intro m
        induction m with
        | nil => rfl
        | cons b m ih => cases b <;> simpa using ih
      exact this m

/-- **C32, the single muon (violated).** A batch of one muon that should be dropped raises instead. -/
theorem single_violated (gen : Bool) (lw zr : ℝ × ℝ) (s : SB) (hc : Consistent gen lw s) (h1 : s.mu.muons.length = 1)
    (hk : (keepMask gen lw zr s).all id = false) :
    filterScatters gen lw zr s = .error (if s.mu.removed.isEmpty then .runtimeError else .valueError) := by
  obtain ⟨lr, lt⟩ := lengths hc
  have hlen : (keepMask gen lw zr s).length = 1 := by simp [keepMask, lr, lt, h1]
  unfold filterScatters
  simp only [hk, hlen]
  rfl

/-! Concrete single muon -/

def num3 (a b c : ℝ) : Row := [.num a, .num b, .num c]

/-- hits of one vertical muon on two panels above and two below -/
def vert : Dict String (Dict String (List (List Row))) :=
  [("above", [("reco_xyz", [[num3 0 0 4], [num3 0 0 3]]), ("gen_xyz", [[num3 0 0 4], [num3 0 0 3]]), ("unc_xyz", [[num3 1 1 0], [num3 1 1 0]]), ("eff", [[[.num 1]], [[.num 1]]])]),
   ("below", [("reco_xyz", [[num3 0 0 2], [num3 0 0 1]]), ("gen_xyz", [[num3 0 0 2], [num3 0 0 1]]), ("unc_xyz", [[num3 1 1 0], [num3 1 1 0]]), ("eff", [[[.num 1]], [[.num 1]]])])]

def oneMuon : Batch Row := { muons := [⟨0, 0, 0, 0, 5, 0, 0⟩], removed := [], hits := vert, hist := [] }

def vertHits : Hits :=
  ⟨2, 2, [[(.num 0, .num 0, .num 4), (.num 0, .num 0, .num 3), (.num 0, .num 0, .num 2), (.num 0, .num 0, .num 1)]],
    [[(.num 0, .num 0, .num 4), (.num 0, .num 0, .num 3), (.num 0, .num 0, .num 2), (.num 0, .num 0, .num 1)]],
    [[(.num 1, .num 1, .num 0), (.num 1, .num 1, .num 0), (.num 1, .num 1, .num 0), (.num 1, .num 1, .num 0)]],
    [[.num 1, .num 1, .num 1, .num 1]]⟩

def vertTracks : List (Option Track × Option Track) := [(some ((0, 0, -1), (0, 0, 4)), some ((0, 0, -1), (0, 0, 2)))]

theorem vert_consistent : Consistent false (1, 1) ⟨oneMuon, vertHits, vertTracks⟩ := by
  refine ⟨?_, by simp [oneMuon, vert], ?_, ?_⟩
  · intro pv hpv
    simp only [oneMuon, vert, List.mem_cons, List.not_mem_nil, or_false] at hpv
    rcases hpv with rfl | rfl <;> simp [oneMuon]
  · refine ⟨_, rfl, rfl⟩
  · have t : ∀ a b : ℝ, a ≠ b → trajectory (1, 1) [((.num 0, .num 0, .num a), (.num 1, .num 1, .num 0)), ((.num 0, .num 0, .num b), (.num 1, .num 1, .num 0))] =
        .ok (some ((0, 0, b - a), (0, 0, a))) := by
      intro a b hab
      have hw : ∀ h ∈ [(⟨0, a, 1⟩ : FitPt), ⟨0, b, 1⟩], 0 ≤ h.w := by
        intro h hh
        simp only [List.mem_cons, List.not_mem_nil, or_false] at hh
        rcases hh with rfl | rfl <;> norm_num
      have hf : fitAxis [⟨0, a, 1⟩, ⟨0, b, 1⟩] = some (0, 0) := by
        unfold fitAxis
        have e : a * a + b * b ≠ 0 := by
          intro h
          have h1 : a = 0 := by nlinarith [mul_self_nonneg a, mul_self_nonneg b]
          have h2 : b = 0 := by nlinarith [mul_self_nonneg a, mul_self_nonneg b]
          exact hab (h1.trans h2.symm)
        have e2 : (a + b) ^ 2 ≠ 2 * (a * a + b * b) := by
          intro h
          have : (a - b) ^ 2 = 0 := by linarith
          exact hab (by have := pow_eq_zero_iff (two_ne_zero) |>.mp this; linarith)
        simp only [List.map_cons, List.map_nil, List.sum_cons, List.sum_nil, mul_one, add_zero, zero_mul, zero_div, mul_zero, sub_zero]
        rw [if_neg (by norm_num), if_neg (by
          intro h; apply e; rw [div_eq_zero_iff] at h; rcases h with h | h
          · exact h
          · norm_num at h), if_neg]
        · intro h
          apply e2
          have : (1 : ℝ) + 1 = 2 := by norm_num
          rw [this, sub_eq_zero, eq_div_iff (div_ne_zero e (by norm_num)), one_mul, div_pow, div_eq_div_iff (by norm_num) (by norm_num)] at h
          linarith
      simp [trajectory, axisPts, hitCoord, invUnc2, hf, calcXYZ]
    have q : (XF.num 1).div (.num 1) = .num 1 := by simp [XF.div, XF.quot]
    have q0 : (XF.num 0).div (.num 1) = .num 0 := by simp [XF.div, XF.quot]
    simp only [computeTracks, Hits.rows, vertHits, List.zip_cons_cons, List.zip_nil_right, mapE, rowTracks, Bool.false_eq_true, if_false, muonTracks, List.take_succ_cons,
      List.take_zero, List.drop_succ_cons, List.drop_zero, List.zipWith_cons_cons, List.zipWith_nil_right, scaleUnc, q, q0, t 4 3 (by norm_num), t 2 1 (by norm_num), bind,
      Except.bind, vertTracks]
    norm_num

/-- Non-vacuity of the violation: an unscattered vertical muon alone in its batch. -/
theorem single_violated_example : filterScatters false (1, 1) (2, 3) ⟨oneMuon, vertHits, vertTracks⟩ = .error .runtimeError := by
  apply single_violated _ _ _ _ vert_consistent rfl
  have hz : thetaMsc ((0, 0, -1) : V3) (0, 0, -1) = some 0 :=
    (C29.msc_zero_iff _ _ (by simp) (by simp)).mpr ⟨1, one_pos, by simp [scale3]⟩
  simp only [keepMask, vertTracks, Hits.rows, vertHits, List.zip_cons_cons, List.zip_nil_right, List.zipWith_cons_cons, List.zipWith_nil_right, keepMuon, hz]
  simp

/-- A track that goes down at more than 1e-5 to the horizontal. -/
def Steep (v : V3) : Prop := sin 1e-5 * len3 v < -v.2.2

/-- Where the line of a track crosses the height `z`, it is less than ten lengths and widths of the volume from the origin. -/
def NearAt (lw : ℝ × ℝ) (z : ℝ) (t : Track) : Prop := ∃ s, (t.point s).2.2 = z ∧ |(t.point s).1| < 10 * lw.1 ∧ |(t.point s).2.1| < 10 * lw.2

/-- The muons that can be used, in geometric terms: both tracks exist, both are steep, they do not point the same way, the incoming one enters and the outgoing one leaves the
passive volume (heights `zr`) not too far out, and all hits have uncertainties below 1e10 in x and y. -/
def Usable (lw zr : ℝ × ℝ) (t : Option Track × Option Track) (unc : List X3) : Prop :=
  ∃ tin tout, t = (some tin, some tout) ∧ Steep tin.1 ∧ Steep tout.1 ∧ ¬ SameWay tin.1 tout.1 ∧ NearAt lw zr.2 tin ∧ NearAt lw zr.1 tout ∧
    ∀ u ∈ unc, (u.1 = .ninf ∨ ∃ a, u.1 = .num a ∧ a < 1e10) ∧ (u.2.1 = .ninf ∨ ∃ a, u.2.1 = .num a ∧ a < 1e10)

theorem steep_iff (v : V3) : (match thetaOf v with | some a => decide (a - π / 2 < -1e-5) | none => false) = true ↔ Steep v := by
  by_cases hv : v = (0, 0, 0)
  · subst hv
    rw [C28.zero_nan]
    simp [Steep, len3]
  · obtain ⟨th, hth, h0, hpi, _, _, hdir, _⟩ := C28.angles v hv
    have hl := len3_pos v hv
    have hz : -v.2.2 = len3 v * cos th := by
      have := congrArg (fun w : V3 => w.2.2) hdir
      simp only [scale3, dir] at this
      linarith
    rw [hth]
    simp only [decide_eq_true_eq, Steep, hz]
    rw [mul_comm, mul_lt_mul_iff_right₀ hl, ← cos_pi_div_two_sub, strictAntiOn_cos.lt_iff_gt ⟨by linarith [pi_gt_three], by linarith [pi_gt_three]⟩ ⟨h0, hpi⟩]
    constructor <;> intro h <;> linarith

theorem near_iff (lw : ℝ × ℝ) (z : ℝ) (t : Track) (hz : t.1.2.2 ≠ 0) :
    NearAt lw z t ↔ |t.2.1 + (z - t.2.2.2) / t.1.2.2 * t.1.1| < 10 * lw.1 ∧ |t.2.2.1 + (z - t.2.2.2) / t.1.2.2 * t.1.2.1| < 10 * lw.2 := by
  constructor
  · rintro ⟨s, h1, h2, h3⟩
    have hs : s = (z - t.2.2.2) / t.1.2.2 := by
      rw [eq_div_iff hz, ← h1]
      simp only [Track.point]
      ring
    subst hs
    exact ⟨h2, h3⟩
  · rintro ⟨h2, h3⟩
    refine ⟨(z - t.2.2.2) / t.1.2.2, ?_, h2, h3⟩
    simp only [Track.point]
    rw [div_mul_cancel₀ _ hz]
    ring

/-- **C32, who is kept.** The filter keeps exactly the usable muons. -/
theorem kept_iff (lw zr : ℝ × ℝ) (t : Option Track × Option Track) (unc : List X3) : keepMuon lw zr t unc = true ↔ Usable lw zr t unc := by
  obtain ⟨o1, o2⟩ := t
  cases o1 with
  | none => simp [keepMuon, Usable]
  | some tin =>
    cases o2 with
    | none => simp [keepMuon, Usable]
    | some tout =>
      simp only [keepMuon, Bool.and_eq_true]
      have hstep : ∀ v : V3, Steep v → v ≠ (0, 0, 0) ∧ v.2.2 ≠ 0 := by
        intro v hv
        have h5 : (0:ℝ) < sin 1e-5 := sin_pos_of_pos_of_lt_pi (by norm_num) (by linarith [pi_gt_three])
        have hl : 0 ≤ len3 v := sqrt_nonneg _
        have hlt : v.2.2 < 0 := by
          have := mul_nonneg h5.le hl
          unfold Steep at hv
          linarith
        exact ⟨fun h => by rw [h] at hlt; simp at hlt, hlt.ne⟩
      have hlt : ∀ x : XF, x.lt 1e10 = true ↔ (x = .ninf ∨ ∃ a, x = .num a ∧ a < 1e10) := by
        intro x
        cases x <;> simp [XF.lt]
      have hunc : (unc.all fun u => u.1.lt 1e10 && u.2.1.lt 1e10) = true ↔
          ∀ u ∈ unc, (u.1 = .ninf ∨ ∃ a, u.1 = .num a ∧ a < 1e10) ∧ (u.2.1 = .ninf ∨ ∃ a, u.2.1 = .num a ∧ a < 1e10) := by
        simp only [List.all_eq_true, Bool.and_eq_true, hlt]
      rw [hunc]
      constructor
      · rintro ⟨⟨⟨⟨⟨k1, k2⟩, k3⟩, k4⟩, k5⟩, k6⟩
        replace k2 : Steep tin.1 := (steep_iff _).mp k2
        replace k3 : Steep tout.1 := (steep_iff _).mp k3
        obtain ⟨n1, z1⟩ := hstep _ k2
        obtain ⟨n2, z2⟩ := hstep _ k3
        refine ⟨tin, tout, rfl, k2, k3, ?_, ?_, ?_, k6⟩
        · intro hs
          rw [(C29.msc_zero_iff _ _ n1 n2).mpr hs] at k1
          simp at k1
        · rw [near_iff _ _ _ z1]
          simp only [xyzIn, if_neg z1, Bool.and_eq_true, decide_eq_true_eq] at k4
          obtain ⟨⟨⟨a, b⟩, c⟩, d⟩ := k4
          exact ⟨abs_lt.mpr ⟨by linarith, c⟩, abs_lt.mpr ⟨by linarith, d⟩⟩
        · rw [near_iff _ _ _ z2]
          simp only [xyzOut, if_neg z2, Bool.and_eq_true, decide_eq_true_eq] at k5
          obtain ⟨⟨⟨a, b⟩, c⟩, d⟩ := k5
          have e1 : tout.2.1 + (zr.1 - tout.2.2.2) / tout.1.2.2 * tout.1.1 = tout.2.1 - (tout.2.2.2 - zr.1) / tout.1.2.2 * tout.1.1 := by ring
          have e2 : tout.2.2.1 + (zr.1 - tout.2.2.2) / tout.1.2.2 * tout.1.2.1 = tout.2.2.1 - (tout.2.2.2 - zr.1) / tout.1.2.2 * tout.1.2.1 := by ring
          rw [e1, e2]
          exact ⟨abs_lt.mpr ⟨by linarith, c⟩, abs_lt.mpr ⟨by linarith, d⟩⟩
      · rintro ⟨tin', tout', he, k2, k3, k1, k4, k5, k6⟩
        simp only [Prod.mk.injEq, Option.some.injEq] at he
        obtain ⟨rfl, rfl⟩ := he
        obtain ⟨n1, z1⟩ := hstep _ k2
        obtain ⟨n2, z2⟩ := hstep _ k3
        rw [near_iff _ _ _ z1] at k4
        rw [near_iff _ _ _ z2] at k5
        have e1 : tout.2.1 + (zr.1 - tout.2.2.2) / tout.1.2.2 * tout.1.1 = tout.2.1 - (tout.2.2.2 - zr.1) / tout.1.2.2 * tout.1.1 := by ring
        have e2 : tout.2.2.1 + (zr.1 - tout.2.2.2) / tout.1.2.2 * tout.1.2.1 = tout.2.2.1 - (tout.2.2.2 - zr.1) / tout.1.2.2 * tout.1.2.1 := by ring
        rw [e1, e2, abs_lt, abs_lt] at k5
        rw [abs_lt, abs_lt] at k4
        refine ⟨⟨⟨⟨⟨?_, (steep_iff _).mpr k2⟩, (steep_iff _).mpr k3⟩, ?_⟩, ?_⟩, k6⟩
        · rw [C29.msc_some _ _ n1 n2]
          simp only [ne_eq, decide_eq_true_eq]
          intro h0
          exact k1 ((C29.msc_zero_iff _ _ n1 n2).mp (by rw [C29.msc_some _ _ n1 n2, h0]))
        · simp only [xyzIn, if_neg z1, Bool.and_eq_true, decide_eq_true_eq]
          exact ⟨⟨⟨by linarith [k4.1.1], by linarith [k4.2.1]⟩, k4.1.2⟩, k4.2.2⟩
        · simp only [xyzOut, if_neg z2, Bool.and_eq_true, decide_eq_true_eq]
          exact ⟨⟨⟨by linarith [k5.1.1], by linarith [k5.2.1]⟩, k5.1.2⟩, k5.2.2⟩

/-- a muon that enters vertically and leaves at 45 degrees is usable -/
example : Usable (1, 1) (2, 3) (some ((0, 0, -1), (0.5, 0.5, 4)), some ((1, 0, -1), (0.5, 0.5, 1))) [(.num 0.1, .num 0.1, .num 0)] := by
  have hs : sin 1e-5 ≤ 1e-5 := sin_le (by norm_num)
  refine ⟨_, _, rfl, ?_, ?_, ?_, ⟨1, ?_, ?_, ?_⟩, ⟨-1, ?_, ?_, ?_⟩, ?_⟩
  · simp only [Steep, len3]
    norm_num at hs ⊢
    linarith
  · simp only [Steep, len3]
    have : sqrt (1 ^ 2 + 0 ^ 2 + (-1 : ℝ) ^ 2) ≤ 2 := by
      rw [sqrt_le_left (by norm_num)]
      norm_num
    have h0 : 0 ≤ sqrt (1 ^ 2 + 0 ^ 2 + (-1 : ℝ) ^ 2) := sqrt_nonneg _
    have h1 := mul_le_mul hs this h0 (by norm_num)
    norm_num at h1 ⊢
    linarith
  · rintro ⟨c, _, h⟩
    simp [scale3] at h
  all_goals norm_num [Track.point, abs_lt]

/-- row by row -/
theorem mask_iff (gen : Bool) (lw zr : ℝ × ℝ) (s : SB) (i : Nat) (t : Option Track × Option Track) (r : List X3 × List X3 × List X3 × List XF) (ht : s.tracks[i]? = some t)
    (hr : s.hits.rows[i]? = some r) : (keepMask gen lw zr s)[i]? = some true ↔ Usable lw zr t (if gen then r.2.1.map ones3 else r.2.2.1) := by
  rw [keepMask, List.getElem?_zipWith, ht, hr]
  simp only [Option.some.injEq]
  rw [kept_iff]
  rfl

end C32

namespace C27

/-- Kept muons never have parallel tracks, so the matrix inversion of the kept batch never fails. -/
theorem kept_not_parallel (lw zr : ℝ × ℝ) (t : Option Track × Option Track) (unc : List X3) (hk : keepMuon lw zr t unc = true) :
    ∃ tin tout, t = (some tin, some tout) ∧ ¬ Parallel tin.1 tout.1 := by
  obtain ⟨o1, o2⟩ := t
  cases o1 with
  | none => simp [keepMuon] at hk
  | some tin =>
    cases o2 with
    | none => simp [keepMuon] at hk
    | some tout =>
      refine ⟨tin, tout, rfl, ?_⟩
      simp only [keepMuon, Bool.and_eq_true] at hk
      obtain ⟨⟨⟨⟨⟨k1, k2⟩, k3⟩, _⟩, _⟩, _⟩ := hk
      intro hp
      have down : ∀ v : V3, (match thetaOf v with | some a => decide (a - π / 2 < -1e-5) | none => false) = true → v ≠ (0, 0, 0) ∧ v.2.2 < 0 := by
        intro v hv
        have hne : v ≠ (0, 0, 0) := by
          rintro rfl
          rw [C28.zero_nan] at hv; simp at hv
        obtain ⟨th, hth, _, _, _, _, _, hlt⟩ := C28.angles v hne
        rw [hth] at hv
        simp only [decide_eq_true_eq] at hv
        exact ⟨hne, hlt.mpr (by have : (0:ℝ) < 1e-5 := by norm_num
                                linarith)⟩
      obtain ⟨n1, z1⟩ := down _ k2
      obtain ⟨n2, z2⟩ := down _ k3
      obtain ⟨a, b, hab, he⟩ := hp
      simp only [scale3, Prod.mk.injEq] at he
      obtain ⟨e1, e2, e3⟩ := he
      have hb : b ≠ 0 := by
        rintro rfl
        have : a = 0 := by
          rcases mul_eq_zero.mp (show a * tin.1.2.2 = 0 by linarith) with h | h
          · exact h
          · exact absurd h z1.ne
        rcases hab with h | h
        · exact h this
        · exact h rfl
      have hc : 0 < a / b := by
        have h3 : tout.1.2.2 = a / b * tin.1.2.2 := by field_simp; linarith
        by_contra hneg
        have := mul_nonneg_of_nonpos_of_nonpos (not_lt.mp hneg) z1.le
        linarith
      have hsame : SameWay tin.1 tout.1 := by
        refine ⟨a / b, hc, ?_⟩
        simp only [scale3]
        refine Prod.ext ?_ (Prod.ext ?_ ?_) <;> simp only <;> rw [div_mul_eq_mul_div, eq_div_iff hb] <;> linarith
      rw [(C29.msc_zero_iff _ _ n1 n2).mpr hsame] at k1
      simp at k1

theorem kept_batch_regular (gen : Bool) (lw zr : ℝ × ℝ) (s : SB) (hl : s.tracks.length ≤ s.hits.rows.length) (hk : (keepMask gen lw zr s).all id = true) :
    ∃ cs, mapE coefsOf s.tracks = .ok cs ∧ cs.length = s.tracks.length := by
  have hall : ∀ t ∈ s.tracks, ∃ c, coefsOf t = .ok c := by
    intro t ht
    obtain ⟨i, hi, rfl⟩ := List.mem_iff_getElem.mp ht
    have hi' : i < s.hits.rows.length := by omega
    have hm : (keepMask gen lw zr s)[i]? = some (keepMuon lw zr s.tracks[i] (rowUnc gen s.hits.rows[i])) := by
      simp [keepMask, List.getElem?_zipWith, hi, hi']
    have := List.all_eq_true.mp hk _ (List.mem_of_getElem? hm)
    obtain ⟨tin, tout, he, hnp⟩ := kept_not_parallel lw zr _ _ this
    rw [he]
    obtain ⟨c, hc, _⟩ := poca_midpoint tin tout hnp
    exact ⟨(tin, tout, c), by simp [coefsOf, hc]⟩
  generalize s.tracks = ts at hall
  induction ts with
  | nil => exact ⟨[], rfl, rfl⟩
  | cons t ts ih =>
    obtain ⟨c, hc⟩ := hall t (by simp)
    obtain ⟨cs, hcs, hlen⟩ := ih (fun t ht => hall t (by simp [ht]))
    exact ⟨c :: cs, by simp [mapE, hc, hcs], by simp [hlen]⟩

/-- **C27, a whole batch.** Whenever filtering succeeds on a consistent batch, the locations of all remaining muons are computed: one per muon. -/
theorem batch_never_singular (gen : Bool) (lw zr : ℝ × ℝ) (s s' : SB) (hc : C32.Consistent gen lw s) (hf : filterScatters gen lw zr s = .ok s') :
    ∃ cs, mapE coefsOf s'.tracks = .ok cs ∧ cs.length = s'.mu.muons.length := by
  have hn : s.mu.muons.length ≠ 1 ∨ (keepMask gen lw zr s).all id = true := by
    by_contra hcon
    push Not at hcon
    obtain ⟨h1, h2⟩ := hcon
    rw [C32.single_violated gen lw zr s hc h1 (by simpa using h2)] at hf
    simp at hf
  obtain ⟨_, s'', hf', hc', _, _, _, hk⟩ := C32.filter_spec_partial gen lw zr s hc hn
  rw [hf] at hf'
  simp only [Except.ok.injEq] at hf'
  subst hf'
  obtain ⟨lr, lt⟩ := C32.lengths hc'
  obtain ⟨cs, h1, h2⟩ := kept_batch_regular gen lw zr s' (by omega) hk
  exact ⟨cs, h1, by omega⟩

end C27

end

end Tomopt
