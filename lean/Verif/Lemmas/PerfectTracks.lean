import Verif.Lemmas.Readout

/- Helper lemmas: tracks fitted to what panels without noise record. -/
namespace Tomopt

noncomputable section
open Real Scatter

/-- the parsed rows of one panel -/
def Panel.recoX (p : Panel) (n : ℝ × ℝ) (m : Muon) : X3 :=
  (Panel.recoCoord p p.low.1 p.scaledSpan.1 (crossing m p.z).1 n.1 (p.resAt (crossing m p.z) (p.inside m)).1 (p.inside m),
   Panel.recoCoord p p.low.2 p.scaledSpan.2 (crossing m p.z).2 n.2 (p.resAt (crossing m p.z) (p.inside m)).2 (p.inside m), .num p.z)

def Panel.uncX (p : Panel) (m : Muon) : X3 :=
  (XF.quot 1 (p.resAt (crossing m p.z) (p.inside m)).1, XF.quot 1 (p.resAt (crossing m p.z) (p.inside m)).2, .num 0)

def Panel.effX (p : Panel) (m : Muon) : XF := .num (p.effAt (crossing m p.z) (p.inside m))

theorem parse_notes {β : Type} (f : β → Row) (g : β → X3) (h : ∀ x, parse3 (f x) = .ok (g x)) : ∀ l : List β, mapE parse3 (l.map f) = .ok (l.map g)
  | [] => rfl
  | x :: l => by simp only [List.map_cons, mapE, h x, parse_notes f g h l]

theorem parse_notes1 {β : Type} (f : β → Row) (g : β → XF) (h : ∀ x, parse1 (f x) = .ok (g x)) : ∀ l : List β, mapE parse1 (l.map f) = .ok (l.map g)
  | [] => rfl
  | x :: l => by simp only [List.map_cons, mapE, h x, parse_notes1 f g h l]

theorem zip3_map {β : Type} (l : List β) (f : β → X3) (g : β → X3) (e : β → XF) :
    (l.map f).zip (List.zipWith scaleUnc (l.map g) (l.map e)) = l.map fun x => (f x, scaleUnc (g x) (e x)) := by
  induction l with
  | nil => rfl
  | cons x l ih => simp only [List.map_cons, List.zipWith_cons_cons, List.zip_cons_cons, ih]

/-- the uncertainties of a row, both sides -/
theorem unc_split {h : Dict String (Dict String (List (List Row)))} {k : Nat} (hw : C33.WidthAbove h k) {H : Hits} (he : extract h = .ok H) (i : Nat) (u : List X3)
    (hu : H.unc[i]? = some u) : ∃ ua ub xa xb, hitVar h "above" "unc_xyz" = .ok ua ∧ hitVar h "below" "unc_xyz" = .ok ub ∧ ua[i]? = some xa ∧ ub[i]? = some xb ∧
      mapE parse3 xa = .ok (u.take k) ∧ mapE parse3 xb = .ok (u.drop k) := by
  obtain ⟨ra, rb, ga, gb, ua, ub, ea, eb, r, g, u', e, h1, h2, h3, h4, h5, h6, h7, h8, c1, c2, c3, c4, m1, m2, m3, m4, n1, n2⟩ := extract_parts he
  obtain ⟨x, y, q1, q2, q3, q4⟩ := C33.side_split parse3 c3 m3 k (hw _ _ (by simp) h5) i u hu
  exact ⟨ua, ub, x, y, h5, h6, q1, q2, q3, q4⟩

/-- What the fit gets for one muon. -/
theorem ReadOut.row {noise : Nat → Nat → Nat → ℝ × ℝ} {b b' mu : Batch Row} {rA rB : List Reader} (ro : ReadOut noise b b' rA rB) (hn : b.ids.Nodup) (hc : Carries b' mu)
    (lw : ℝ × ℝ) (h) (hh : mu.getHits none none = .ok h) (H : Hits) (hH : extract h = .ok H) (ts) (hts : computeTracks false lw H = .ok ts) (i : Nat) (m m0 m1 : Muon)
    (hm : mu.muons[i]? = some m) (hm0 : m0 ∈ b.muons) (e0 : m0.id = m.id) (hm1 : m1 ∈ b'.muons) (e1 : m1.id = m.id) (tin tout : Option Track)
    (hi : ts[i]? = some (tin, tout)) (row) (hr : H.rows[i]? = some row) :
    trajectory lw (rA.map fun r => (r.2.2.recoX (noise r.1 r.2.1 m0.id) m0, scaleUnc (r.2.2.uncX m0) (r.2.2.effX m0))) = .ok tin ∧
    trajectory lw (rB.map fun r => (r.2.2.recoX (noise r.1 r.2.1 m1.id) m1, scaleUnc (r.2.2.uncX m1) (r.2.2.effX m1))) = .ok tout ∧
    row.2.2.1 = (rA.map fun r => r.2.2.uncX m0) ++ rB.map fun r => r.2.2.uncX m1 := by
  have hs : (b.muons.map (·.id)).Nodup := hn
  have hd : (b'.muons.map (·.id)).Nodup := ro.dl.nodup
  obtain ⟨hok, hne, -, -, wA⟩ := ro.dl.carries hc
  rw [getHits_stacked mu hok hne] at hh
  simp only [Except.ok.injEq] at hh
  subst hh
  have hw : C33.WidthAbove (stackedHits mu.muons.length mu.hits) rA.length := by
    intro var t hv htv r hr
    obtain ⟨j, hj, rfl⟩ := List.getElem_of_mem hr
    rw [(stacked_row mu hok "above" var t htv j _ (List.getElem?_eq_getElem hj)).2, wA var hv, List.length_map]
  have noteA : ∀ var ∈ ["reco_xyz", "gen_xyz", "unc_xyz", "eff"], ∀ t, hitVar (stackedHits mu.muons.length mu.hits) "above" var = .ok t → ∀ r, t[i]? = some r →
      r = rA.map fun r => r.2.2.note (noise r.1 r.2.1 m0.id) m0 var := by
    intro var hv t ht r hr
    rw [(stacked_row mu hok _ _ _ ht i _ hr).1, recorded_row (f := fun (r : Reader) m => r.2.2.note (noise r.1 r.2.1 m.id) m var) hs (hc.log _ _ _ (ro.above var hv)) i m m0 hm hm0 e0]
  have noteB : ∀ var ∈ ["reco_xyz", "gen_xyz", "unc_xyz", "eff"], ∀ t, hitVar (stackedHits mu.muons.length mu.hits) "below" var = .ok t → ∀ r, t[i]? = some r →
      r = rB.map fun r => r.2.2.note (noise r.1 r.2.1 m1.id) m1 var := by
    intro var hv t ht r hr
    rw [(stacked_row mu hok _ _ _ ht i _ hr).1, recorded_row (f := fun (r : Reader) m => r.2.2.note (noise r.1 r.2.1 m.id) m var) hd (hc.log _ _ _ (ro.below var hv)) i m m1 hm hm1 e1]
  have pr : ∀ (l : List Reader) (m : Muon), mapE parse3 (l.map fun r => r.2.2.note (noise r.1 r.2.1 m.id) m "reco_xyz") =
      .ok (l.map fun r => r.2.2.recoX (noise r.1 r.2.1 m.id) m) := fun l m => parse_notes _ _ (fun _ => rfl) l
  have pu : ∀ (l : List Reader) (m : Muon), mapE parse3 (l.map fun r => r.2.2.note (noise r.1 r.2.1 m.id) m "unc_xyz") = .ok (l.map fun r => r.2.2.uncX m) :=
    fun l m => parse_notes _ _ (fun _ => rfl) l
  have pe : ∀ (l : List Reader) (m : Muon), mapE parse1 (l.map fun r => r.2.2.note (noise r.1 r.2.1 m.id) m "eff") = .ok (l.map fun r => r.2.2.effX m) :=
    fun l m => parse_notes1 _ _ (fun _ => rfl) l
  obtain ⟨A, B, ⟨ar, ag, au, ae, arr, agg, auu, aee, ar1, ag1, au1, ae1, ar2, ag2, au2, ae2, ar3, ag3, au3, ae3⟩,
    ⟨br, bg, bu, be, brr, bgg, buu, bee, br1, bg1, bu1, be1, br2, bg2, bu2, be2, br3, bg3, bu3, be3⟩, htr, -⟩ :=
    C33.right_panels _ rA.length hw H hH false lw ts hts i tin tout hi
  obtain ⟨htin, htout⟩ := htr rfl
  rw [noteA _ (by simp) _ ar1 _ ar2, pr] at ar3
  rw [noteA _ (by simp) _ au1 _ au2, pu] at au3
  rw [noteA _ (by simp) _ ae1 _ ae2, pe] at ae3
  rw [noteB _ (by simp) _ br1 _ br2, pr] at br3
  rw [noteB _ (by simp) _ bu1 _ bu2, pu] at bu3
  rw [noteB _ (by simp) _ be1 _ be2, pe] at be3
  simp only [Except.ok.injEq] at ar3 au3 ae3 br3 bu3 be3
  rw [← ar3, ← au3, ← ae3, zip3_map] at htin
  rw [← br3, ← bu3, ← be3, zip3_map] at htout
  refine ⟨htin, htout, ?_⟩
  obtain ⟨o1, o2, o3, o4⟩ := row
  simp only [Hits.rows, List.getElem?_zip_eq_some] at hr
  obtain ⟨ua, ub, xa, xb, q1, q2, q3, q4, q5, q6⟩ := unc_split hw hH i o3 hr.2.2.1
  rw [noteA _ (by simp) _ q1 _ q3, pu] at q5
  rw [noteB _ (by simp) _ q2 _ q4, pu] at q6
  simp only [Except.ok.injEq] at q5 q6
  simp only
  rw [q5, q6, List.take_append_drop]

/-- the uncertainty a panel reports passes the filter exactly if the panel sees the muon -/
theorem unc_sees (p : Panel) (hres : 0 < p.res) (m : Muon) :
    (((p.uncX m).1 = .ninf ∨ ∃ a, (p.uncX m).1 = .num a ∧ a < 1e10) ∧ ((p.uncX m).2.1 = .ninf ∨ ∃ a, (p.uncX m).2.1 = .num a ∧ a < 1e10)) ↔ p.Sees m := by
  have key : ∀ r : ℝ, 0 < r → ((XF.quot 1 r = .ninf ∨ ∃ a, XF.quot 1 r = .num a ∧ a < 1e10) ↔ 1e-10 < r) := by
    intro r hr
    simp only [XF.quot, ne_eq, hr.ne', not_false_eq_true, if_true, reduceCtorEq, XF.num.injEq, false_or]
    constructor
    · rintro ⟨a, rfl, h⟩
      rw [div_lt_iff₀ hr] at h
      norm_num at h ⊢
      linarith
    · intro h
      refine ⟨_, rfl, ?_⟩
      rw [div_lt_iff₀ hr]
      norm_num at h ⊢
      linarith
  have key0 : ¬ (XF.quot 1 0 = .ninf ∨ ∃ a, XF.quot 1 0 = .num a ∧ a < 1e10) := by simp [XF.quot]
  have hin : p.inside m = true ↔ (p.low.1 ≤ (crossing m p.z).1 ∧ (crossing m p.z).1 < p.high.1) ∧ (p.low.2 ≤ (crossing m p.z).2 ∧ (crossing m p.z).2 < p.high.2) := by
    simp only [Panel.inside, Batch.inWindow, Bool.and_eq_true, decide_eq_true_eq, ge_iff_le]
    rw [show (atHeight p.z m).x = (crossing m p.z).1 from rfl, show (atHeight p.z m).y = (crossing m p.z).2 from rfl]
    tauto
  unfold Panel.Sees Panel.uncX Panel.resAt
  by_cases hc : p.training = true ∨ p.realistic = false
  · have hcont : p.continuous = true := by
      unfold Panel.continuous
      rcases hc with h | h <;> simp [h]
    have h10 : ∀ x : ℝ, (0:ℝ) < max x 1e-10 := fun x => lt_max_of_lt_right (by norm_num)
    have hlt : ∀ x : ℝ, (1e-10 : ℝ) < max x 1e-10 ↔ 1e-10 < x := fun x => by simp
    rw [if_pos hc]
    simp only [hcont, if_true]
    rw [key _ (h10 _), key _ (h10 _), hlt, hlt]
  · have hcont : p.continuous = false := by
      unfold Panel.continuous
      push Not at hc
      simp [hc.1, hc.2]
    rw [if_neg hc, ← hin]
    simp only [hcont, Bool.false_eq_true, if_false]
    cases hi : p.inside m with
    | true =>
      simp only [if_true, key _ hres, and_self, and_true]
    | false =>
      simp only [Bool.false_eq_true, if_false, and_false, iff_false, not_and]
      intro h
      exact absurd h key0

theorem inside_iff (p : Panel) (m : Muon) : p.inside m = true ↔
    (p.low.1 ≤ (crossing m p.z).1 ∧ (crossing m p.z).1 < p.high.1) ∧ (p.low.2 ≤ (crossing m p.z).2 ∧ (crossing m p.z).2 < p.high.2) := by
  simp only [Panel.inside, Batch.inWindow, Bool.and_eq_true, decide_eq_true_eq, ge_iff_le]
  rw [show (atHeight p.z m).x = (crossing m p.z).1 from rfl, show (atHeight p.z m).y = (crossing m p.z).2 from rfl]
  tauto

/-- without noise a coordinate is recorded as it is -/
theorem reco_exact (p : Panel) (low span x res : ℝ) (inside : Bool) (hr : 0 < res) (hi : inside = true → low ≤ x ∧ x ≤ low + span) :
    Panel.recoCoord p low span x 0 res inside = .num x := by
  unfold Panel.recoCoord
  simp only [XF.quot, ne_eq, hr.ne', not_false_eq_true, if_true, zero_div, XF.addR, add_zero]
  generalize hb : (!p.training && p.realistic && inside) = c
  cases c with
  | true =>
    have : inside = true := by
      cases inside with
      | true => rfl
      | false => simp at hb
    obtain ⟨h1, h2⟩ := hi this
    simp only [if_true, XF.clamp, XF.addR]
    rw [max_eq_left (by linarith), min_eq_left (by linarith)]
    simp
  | false => simp [XF.addR]

/-- a panel that sees the muon has positive resolution and efficiency there -/
theorem sees_pos (p : Panel) (hres : 0 < p.res) (heff : 0 < p.eff) (m : Muon) (h : p.Sees m) :
    0 < (p.resAt (crossing m p.z) (p.inside m)).1 ∧ 0 < (p.resAt (crossing m p.z) (p.inside m)).2 ∧ 0 < p.effAt (crossing m p.z) (p.inside m) := by
  unfold Panel.Sees at h
  by_cases hc : p.training = true ∨ p.realistic = false
  · have hcont : p.continuous = true := by
      unfold Panel.continuous
      rcases hc with h | h <;> simp [h]
    rw [if_pos hc] at h
    have h10 : ∀ x : ℝ, (0:ℝ) < max x 1e-10 := fun x => lt_max_of_lt_right (by norm_num)
    have r1 : 0 < Panel.ratio p.kind p.xy.1 p.scaledSpan.1 (crossing m p.z).1 := by
      have : 0 < p.res * Panel.ratio p.kind p.xy.1 p.scaledSpan.1 (crossing m p.z).1 := lt_trans (by norm_num) h.1
      exact (mul_pos_iff_of_pos_left hres).mp this
    have r2 : 0 < Panel.ratio p.kind p.xy.2 p.scaledSpan.2 (crossing m p.z).2 := by
      have : 0 < p.res * Panel.ratio p.kind p.xy.2 p.scaledSpan.2 (crossing m p.z).2 := lt_trans (by norm_num) h.2
      exact (mul_pos_iff_of_pos_left hres).mp this
    unfold Panel.resAt Panel.effAt
    simp only [hcont, if_true]
    refine ⟨h10 _, h10 _, ?_⟩
    split
    · exact mul_pos heff (mul_pos r1 r2)
    · exact h10 _
  · have hcont : p.continuous = false := by
      unfold Panel.continuous
      push Not at hc
      simp [hc.1, hc.2]
    rw [if_neg hc, ← inside_iff] at h
    unfold Panel.resAt Panel.effAt
    simp only [hcont, Bool.false_eq_true, if_false, h.2, if_true]
    exact ⟨hres, hres, heff⟩

/-- without noise, a panel that sees the muon records where it crossed, with finite positive uncertainties -/
theorem sees_exact (p : Panel) (hres : 0 < p.res) (heff : 0 < p.eff) (m : Muon) (h : p.Sees m) :
    p.recoX (0, 0) m = (.num (crossing m p.z).1, .num (crossing m p.z).2, .num p.z) ∧
    ∃ u v, 0 < u ∧ 0 < v ∧ scaleUnc (p.uncX m) (p.effX m) = (.num u, .num v, .num 0) := by
  obtain ⟨h1, h2, h3⟩ := sees_pos p hres heff m h
  have hspan : p.high.1 = p.low.1 + p.scaledSpan.1 ∧ p.high.2 = p.low.2 + p.scaledSpan.2 := by
    simp only [Panel.high, Panel.low]; constructor <;> ring
  constructor
  · unfold Panel.recoX
    rw [reco_exact p _ _ _ _ _ h1 (fun hi => ⟨((inside_iff p m).mp hi).1.1, by linarith [((inside_iff p m).mp hi).1.2, hspan.1]⟩),
      reco_exact p _ _ _ _ _ h2 (fun hi => ⟨((inside_iff p m).mp hi).2.1, by linarith [((inside_iff p m).mp hi).2.2, hspan.2]⟩)]
  · refine ⟨1 / (p.resAt (crossing m p.z) (p.inside m)).1 / p.effAt (crossing m p.z) (p.inside m),
      1 / (p.resAt (crossing m p.z) (p.inside m)).2 / p.effAt (crossing m p.z) (p.inside m), div_pos (div_pos one_pos h1) h3, div_pos (div_pos one_pos h2) h3, ?_⟩
    unfold scaleUnc Panel.uncX Panel.effX
    simp only [XF.quot, ne_eq, h1.ne', h2.ne', h3.ne', not_false_eq_true, if_true, XF.div, zero_div]

/-- a fit with any positive uncertainties through points of a line gives the line -/
theorem fit_line {β : Type} (lw : ℝ × ℝ) (m : Muon) (hd : Downward m) (z : β → ℝ) (f : β → X3 × X3) (l : List β) (h2 : 2 ≤ l.length)
    (hs : (l.map z).Pairwise fun a c => c < a)
    (hf : ∀ x ∈ l, ∃ u v, 0 < u ∧ 0 < v ∧ f x = ((.num (crossing m (z x)).1, .num (crossing m (z x)).2, .num (z x)), (.num u, .num v, .num 0))) :
    ∃ t, trajectory lw (l.map f) = .ok (some t) ∧ IsLineOf t m := by
  have hms : ∃ ms : List C26.Meas, l.map f = C26.rows ms ∧ ms.map (fun q => q.1.2.2) = l.map z ∧ (∀ q ∈ ms, 0 < q.2.1 ∧ 0 < q.2.2) ∧
      ∀ q ∈ ms, q.1 = ((crossing m q.1.2.2).1, (crossing m q.1.2.2).2, q.1.2.2) := by
    clear h2 hs
    induction l with
    | nil => exact ⟨[], rfl, rfl, by simp, by simp⟩
    | cons x l ih =>
      obtain ⟨ms, e1, e2, e3, e4⟩ := ih fun y hy => hf y (by simp [hy])
      obtain ⟨u, v, hu, hv, hx⟩ := hf x (by simp)
      refine ⟨(((crossing m (z x)).1, (crossing m (z x)).2, z x), u, v) :: ms, ?_, ?_, ?_, ?_⟩
      · rw [List.map_cons, e1, hx]; rfl
      · rw [List.map_cons, List.map_cons, e2]
      · intro q hq
        rcases List.mem_cons.mp hq with rfl | hq
        · exact ⟨hu, hv⟩
        · exact e3 q hq
      · intro q hq
        rcases List.mem_cons.mp hq with rfl | hq
        · rfl
        · exact e4 q hq
  obtain ⟨ms, e1, e2, e3, e4⟩ := hms
  have hlen : ms.length = l.length := by simpa using congrArg List.length e2
  match ms, (show 2 ≤ ms.length by omega) with
  | q0 :: q1 :: ms, _ =>
    rw [← e2] at hs
    have hlt : q1.1.2.2 < q0.1.2.2 := (List.pairwise_cons.mp hs).1 _ (by simp)
    have hc : 0 < cos m.th := cos_pos_of_mem_Ioo ⟨by linarith [hd.1, pi_pos], hd.2.1⟩
    have hfit := C26.exact_line lw q0 q1 ms e3 hlt.ne' (m.x + m.z * tan m.th * cos m.ph) (-(tan m.th * cos m.ph)) (m.y + m.z * tan m.th * sin m.ph)
      (-(tan m.th * sin m.ph)) (by
        intro q hq
        have h := e4 q hq
        rw [h]
        simp only [crossing]
        constructor <;> ring)
    rw [e1]
    have h0 := e4 q0 (by simp)
    have h1 := e4 q1 (by simp)
    refine ⟨_, hfit, ⟨(q0.1.2.2 - q1.1.2.2) / cos m.th, div_pos (by linarith) hc, ?_⟩, (m.z - q0.1.2.2) / cos m.th, ?_⟩
    · rw [h0, h1]
      simp only [crossing, scale3, dir, tan_eq_sin_div_cos, Prod.mk.injEq]
      refine ⟨?_, ?_, ?_⟩ <;> field_simp <;> ring
    · simp only
      rw [h0]
      simp only [crossing, MuonOf.at, dir, tan_eq_sin_div_cos, Prod.mk.injEq]
      refine ⟨?_, ?_, ?_⟩ <;> field_simp <;> ring

/-- which pairs of lines are usable with given uncertainties -/
theorem usable_iff_unc (lw zr : ℝ × ℝ) (m m' : Muon) (hd : Downward m) (hd' : Downward m') (a c : Track) (ha : IsLineOf a m) (hc : IsLineOf c m') (us : List X3)
    (hu : ∀ u ∈ us, (u.1 = .ninf ∨ ∃ a, u.1 = .num a ∧ a < 1e10) ∧ (u.2.1 = .ninf ∨ ∃ a, u.2.1 = .num a ∧ a < 1e10)) :
    C32.Usable lw zr (some a, some c) us ↔ Bends lw zr m m' := by
  rw [← usable_iff lw zr m m' hd hd' a c ha hc []]
  constructor
  · rintro ⟨t1, t2, he, h1, h2, h3, h4, h5, _⟩
    exact ⟨t1, t2, he, h1, h2, h3, h4, h5, by simp⟩
  · rintro ⟨t1, t2, he, h1, h2, h3, h4, h5, _⟩
    exact ⟨t1, t2, he, h1, h2, h3, h4, h5, hu⟩

/-- every usable muon: tracks and condition -/
theorem ReadOut.exact {b b' mu : Batch Row} {rA rB : List Reader} (ro : ReadOut (fun _ _ _ => (0, 0)) b b' rA rB) (hn : b.ids.Nodup) (hd : ∀ m ∈ b.muons, Downward m)
    (hp : ∀ r ∈ rA ++ rB, 0 < r.2.2.res ∧ 0 < r.2.2.eff) (hc : Carries b' mu) (hsub : mu.muons.Sublist b'.muons) (lw zr : ℝ × ℝ) (h) (hh : mu.getHits none none = .ok h)
    (H : Hits) (hH : extract h = .ok H) (ts) (hts : computeTracks false lw H = .ok ts) (i : Nat) (hi : i < mu.muons.length) (t) (hti : ts[i]? = some t) (row)
    (hr : H.rows[i]? = some row) :
    ∃ m0 ∈ b.muons, m0.id = mu.muons[i].id ∧
      (C32.Usable lw zr t row.2.2.1 ↔ Bends lw zr m0 mu.muons[i] ∧ (∀ r ∈ rA, r.2.2.Sees m0) ∧ ∀ r ∈ rB, r.2.2.Sees mu.muons[i]) ∧
      (C32.Usable lw zr t row.2.2.1 → ∃ a c, t = (some a, some c) ∧ IsLineOf a m0 ∧ IsLineOf c mu.muons[i]) := by
  have hm' : mu.muons[i] ∈ b'.muons := hsub.subset (List.getElem_mem hi)
  have hid : mu.muons[i].id ∈ b.ids := ro.dl.sub.subset (List.mem_map.mpr ⟨_, hm', rfl⟩)
  obtain ⟨m0, hm0, e0⟩ := List.mem_map.mp hid
  obtain ⟨tin, tout⟩ := t
  obtain ⟨f1, f2, f3⟩ := ro.row hn hc lw h hh H hH ts hts i mu.muons[i] m0 mu.muons[i] (List.getElem?_eq_getElem hi) hm0 e0 hm' rfl tin tout hti row hr
  have lines : (∀ r ∈ rA, r.2.2.Sees m0) → (∀ r ∈ rB, r.2.2.Sees mu.muons[i]) → ∃ a c, (tin, tout) = (some a, some c) ∧ IsLineOf a m0 ∧ IsLineOf c mu.muons[i] := by
    intro sA sB
    obtain ⟨a, fa, la⟩ := fit_line lw m0 (hd m0 hm0) (fun r : Reader => r.2.2.z) (fun r => (r.2.2.recoX (0, 0) m0, scaleUnc (r.2.2.uncX m0) (r.2.2.effX m0))) rA
      (by simpa using ro.dl.twoA) ro.dl.downA (by
        intro r hr
        obtain ⟨g1, u, v, hu, hv, g2⟩ := sees_exact r.2.2 (hp r (by simp [hr])).1 (hp r (by simp [hr])).2 m0 (sA r hr)
        exact ⟨u, v, hu, hv, by rw [g1, g2]⟩)
    obtain ⟨c, fc, lc⟩ := fit_line lw mu.muons[i] (ro.dl.down _ hm') (fun r : Reader => r.2.2.z)
      (fun r => (r.2.2.recoX (0, 0) mu.muons[i], scaleUnc (r.2.2.uncX mu.muons[i]) (r.2.2.effX mu.muons[i]))) rB
      (by simpa using ro.dl.twoB) ro.dl.downB (by
        intro r hr
        obtain ⟨g1, u, v, hu, hv, g2⟩ := sees_exact r.2.2 (hp r (by simp [hr])).1 (hp r (by simp [hr])).2 mu.muons[i] (sB r hr)
        exact ⟨u, v, hu, hv, by rw [g1, g2]⟩)
    rw [fa] at f1
    rw [fc] at f2
    simp only [Except.ok.injEq] at f1 f2
    exact ⟨a, c, by rw [← f1, ← f2], la, lc⟩
  have uncs : (∀ u ∈ row.2.2.1, (u.1 = .ninf ∨ ∃ a, u.1 = .num a ∧ a < 1e10) ∧ (u.2.1 = .ninf ∨ ∃ a, u.2.1 = .num a ∧ a < 1e10)) ↔
      (∀ r ∈ rA, r.2.2.Sees m0) ∧ ∀ r ∈ rB, r.2.2.Sees mu.muons[i] := by
    rw [f3]
    simp only [List.mem_append, List.mem_map]
    constructor
    · intro hall
      exact ⟨fun r hr => (unc_sees r.2.2 (hp r (by simp [hr])).1 m0).mp (hall _ (Or.inl ⟨r, hr, rfl⟩)),
        fun r hr => (unc_sees r.2.2 (hp r (by simp [hr])).1 _).mp (hall _ (Or.inr ⟨r, hr, rfl⟩))⟩
    · rintro ⟨sA, sB⟩ u (⟨r, hr, rfl⟩ | ⟨r, hr, rfl⟩)
      · exact (unc_sees r.2.2 (hp r (by simp [hr])).1 m0).mpr (sA r hr)
      · exact (unc_sees r.2.2 (hp r (by simp [hr])).1 _).mpr (sB r hr)
  have use : C32.Usable lw zr (tin, tout) row.2.2.1 → (∀ r ∈ rA, r.2.2.Sees m0) ∧ ∀ r ∈ rB, r.2.2.Sees mu.muons[i] := by
    rintro ⟨_, _, _, _, _, _, _, _, hu⟩
    exact uncs.mp hu
  refine ⟨m0, hm0, e0, ⟨fun hU => ?_, fun hB => ?_⟩, fun hU => lines (use hU).1 (use hU).2⟩
  · obtain ⟨sA, sB⟩ := use hU
    obtain ⟨a, c, e, la, lc⟩ := lines sA sB
    rw [e] at hU
    exact ⟨(usable_iff_unc lw zr m0 _ (hd m0 hm0) (ro.dl.down _ hm') a c la lc _ (uncs.mpr ⟨sA, sB⟩)).mp hU, sA, sB⟩
  · obtain ⟨hB, sA, sB⟩ := hB
    obtain ⟨a, c, e, la, lc⟩ := lines sA sB
    rw [e]
    exact (usable_iff_unc lw zr m0 _ (hd m0 hm0) (ro.dl.down _ hm') a c la lc _ (uncs.mpr ⟨sA, sB⟩)).mpr hB

end

end Tomopt
