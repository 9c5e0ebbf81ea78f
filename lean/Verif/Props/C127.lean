import Verif.Lemmas.Update

/- C127: an update of the detector leaves it physical and moves it no further than allowed. -/
namespace Tomopt

noncomputable section

namespace C127

open DetCb (Par Limits limit limit2 limitPar meanXY)
open Update

theorem near (lo hi old x m : ℝ) (h1 : lo ≤ old) (h2 : old ≤ hi) (h : |x - old| ≤ m) : |clampR x lo hi - old| ≤ m := by
  unfold clampR
  rw [abs_le] at h ⊢
  rcases le_total x lo with a | a
  · rw [max_eq_right a, min_eq_left (h1.trans h2)]; constructor <;> linarith
  · rw [max_eq_left a]
    rcases le_total x hi with b | b
    · rw [min_eq_left b]; exact h
    · rw [min_eq_right b]; constructor <;> linarith

theorem near_margin (lo hi eps old x m : ℝ) (h0 : 0 ≤ eps) (hw : lo + eps ≤ hi - eps) (h1 : lo ≤ old) (h2 : old ≤ hi) (h : |x - old| ≤ m) :
    |clampR x (lo + eps) (hi - eps) - old| ≤ max m eps := by
  unfold clampR
  have m1 := le_max_left m eps
  have m2 := le_max_right m eps
  rw [abs_le] at h ⊢
  rcases le_total x (lo + eps) with a | a
  · rw [max_eq_right a, min_eq_left hw]; constructor <;> linarith
  · rw [max_eq_left a]
    rcases le_total x (hi - eps) with b | b
    · rw [min_eq_left b]; constructor <;> linarith
    · rw [min_eq_right b]; constructor <;> linarith

theorem clamp_id (x lo hi : ℝ) (h1 : lo ≤ x) (h2 : x ≤ hi) : clampR x lo hi = x := by
  unfold clampR
  rw [max_eq_left h1, min_eq_left h2]

theorem conform_physical (b : Box) (eps : ℝ) (p : Par) (hb : 0 ≤ b.lw.1 ∧ 0 ≤ b.lw.2 ∧ 2e-3 ≤ b.size) (he : 0 ≤ eps ∧ eps < 1e-3) : Physical b (conformPar b eps p) := by
  obtain ⟨b1, b2, b3⟩ := hb
  have b3' : (2 : ℝ) / 1000 ≤ b.size := by norm_num at b3 ⊢; exact b3
  have he' : eps < 1 / 1000 := by have := he.2; norm_num at this ⊢; exact this
  have hz := C22.clamp_mem p.z (b.z - b.size + eps) (b.z - eps) (by linarith)
  refine ⟨C22.clamp_mem _ _ _ b1, C22.clamp_mem _ _ _ b2, ⟨?_, ?_⟩, C22.clamp_mem _ _ _ (by linarith), C22.clamp_mem _ _ _ (by linarith)⟩
  · exact le_trans (by linarith [he.1]) hz.1
  · exact le_trans hz.2 (by linarith [he.1])

theorem panel_get {d : Det} {i : Nat} {o : Par} (h : d.view[i]? = some o) : ∃ p, d.panels[i]? = some p ∧ o = par d.store p := by
  simp only [Det.view, List.getElem?_map, Option.map_eq_some_iff] at h
  obtain ⟨p, hp, e⟩ := h
  exact ⟨p, hp, e.symm⟩

theorem get_view {d : Det} {i : Nat} {p : PRef} (h : d.panels[i]? = some p) : d.view[i]? = some (par d.store p) := by
  simp [Det.view, h]

theorem good_alike {d e : Det} (h : Alike d e) (hg : GoodBoxes d) : GoodBoxes e := by
  unfold GoodBoxes; rw [h.1]; exact hg

theorem conform_all {d : Det} {eps : Nat → ℝ} (h : Wired d) (hg : GoodBoxes d) (he : Margins eps) : AllPhysical (d.conform eps) := by
  intro p hp
  obtain ⟨i, hi, rfl⟩ := List.mem_iff_getElem.mp hp
  have hi' : i < d.panels.length := by rw [← (conform_alike eps d).length]; exact hi
  have hg1 := conform_get (eps := eps) h i _ (List.getElem?_eq_getElem hi')
  rw [get_view (List.getElem?_eq_getElem hi), Option.some.injEq] at hg1
  rw [hg1, box_alike (conform_alike eps d) i _ _ (List.getElem?_eq_getElem hi') (List.getElem?_eq_getElem hi)]
  exact conform_physical _ _ _ (box_good hg h _ (List.getElem_mem hi')) (he i)

theorem wired {d : Det} (h : Wired d) (cbs : List Cb) (δ : Option (Nat → Par)) (eps : Nat → ℝ) : Alike d (d.update cbs δ eps) ∧ Wired (d.update cbs δ eps) := by
  have hb := before_conform cbs δ h
  rw [update_eq]
  exact ⟨hb.1.trans (conform_alike eps _), conform_wired hb.2⟩

/-- **C127.** Whatever the optimisers did, if they did anything, and whatever callbacks did after them, in any order and any number: after the update every panel is
inside its layer and has a usable span, and the layers and the panels in them are the same ones. -/
theorem physical (d : Det) (h : Wired d) (hg : GoodBoxes d) (cbs : List Cb) (δ : Option (Nat → Par)) (eps : Nat → ℝ) (he : Margins eps) :
    AllPhysical (d.update cbs δ eps) ∧ (d.update cbs δ eps).boxes = d.boxes ∧ (d.update cbs δ eps).panels.map (·.layer) = d.panels.map (·.layer) ∧
      Wired (d.update cbs δ eps) := by
  have hb := before_conform cbs δ h
  have hw := wired h cbs δ eps
  refine ⟨?_, hw.1.1, hw.1.2, hw.2⟩
  rw [update_eq]
  exact conform_all hb.2 (good_alike hb.1 hg) he

theorem train_append (cbs : List Cb) (us vs : List (Option (Nat → Par) × (Nat → ℝ))) (d : Det) : d.train cbs (us ++ vs) = (d.train cbs us).train cbs vs := by
  induction us generalizing d with
  | nil => rfl
  | cons u us ih => exact ih _

theorem train_alike (cbs : List Cb) (us : List (Option (Nat → Par) × (Nat → ℝ))) {d : Det} (h : Wired d) : Alike d (d.train cbs us) ∧ Wired (d.train cbs us) := by
  induction us generalizing d with
  | nil => exact ⟨⟨rfl, rfl⟩, h⟩
  | cons u us ih =>
    have := wired h cbs u.1 u.2
    have := ih this.2
    exact ⟨(wired h cbs u.1 u.2).1.trans this.1, this.2⟩

/-- **C127.** The detector is physical from the first update of a training run to its last, wherever it started. -/
theorem trained (d : Det) (h : Wired d) (hg : GoodBoxes d) (cbs : List Cb) (us : List (Option (Nat → Par) × (Nat → ℝ))) (hu : ∀ u ∈ us, Margins u.2)
    (hs : us ≠ [] ∨ AllPhysical d) : AllPhysical (d.train cbs us) := by
  rcases List.eq_nil_or_concat us with rfl | ⟨us, u, rfl⟩
  · exact hs.resolve_left (by simp)
  · rw [List.concat_eq_append] at hu ⊢
    have ha := train_alike cbs us h
    rw [train_append]
    exact (physical _ ha.2 (good_alike ha.1 hg) cbs u.1 u.2 (hu u (by simp))).1

/- Limits. -/

theorem limit_near {l : Limits} (hl : GoodLimits l) (o x : Par) :
    (∀ m, l.xy = some m → |(limitPar l o x).xy.1 - o.xy.1| ≤ m.1 ∧ |(limitPar l o x).xy.2 - o.xy.2| ≤ m.2) ∧ (∀ m, l.z = some m → |(limitPar l o x).z - o.z| ≤ m) ∧
      (∀ m, l.span = some m → |(limitPar l o x).span.1 - o.span.1| ≤ m.1 ∧ |(limitPar l o x).span.2 - o.span.2| ≤ m.2) := by
  refine ⟨fun m hm => ?_, fun m hm => ?_, fun m hm => ?_⟩
  · simp only [limitPar, hm, limit2]
    exact ⟨(C48.limit_spec _ _ _ (hl.xy m hm).1).1, (C48.limit_spec _ _ _ (hl.xy m hm).2).1⟩
  · simp only [limitPar, hm]
    exact (C48.limit_spec _ _ _ (hl.z m hm)).1
  · simp only [limitPar, hm, limit2]
    exact ⟨(C48.limit_spec _ _ _ (hl.span m hm).1).1, (C48.limit_spec _ _ _ (hl.span m hm).2).1⟩

theorem conform_within {l : Limits} {b : Box} {eps : ℝ} {o x : Par} (hb : 2e-3 ≤ b.size) (he : 0 ≤ eps ∧ eps < 1e-3) (ho : Physical b o)
    (h1 : ∀ m, l.xy = some m → |x.xy.1 - o.xy.1| ≤ m.1 ∧ |x.xy.2 - o.xy.2| ≤ m.2) (h2 : ∀ m, l.z = some m → |x.z - o.z| ≤ m)
    (h3 : ∀ m, l.span = some m → |x.span.1 - o.span.1| ≤ m.1 ∧ |x.span.2 - o.span.2| ≤ m.2) : Within l eps o (conformPar b eps x) := by
  have b3' : (2 : ℝ) / 1000 ≤ b.size := by norm_num at hb ⊢; exact hb
  have he' : eps < 1 / 1000 := by have := he.2; norm_num at this ⊢; exact this
  exact ⟨fun m hm => near _ _ _ _ _ ho.x.1 ho.x.2 (h1 m hm).1, fun m hm => near _ _ _ _ _ ho.y.1 ho.y.2 (h1 m hm).2,
    fun m hm => near_margin _ _ _ _ _ _ he.1 (by linarith) ho.z.1 ho.z.2 (h2 m hm), fun m hm => near _ _ _ _ _ ho.spanX.1 ho.spanX.2 (h3 m hm).1,
    fun m hm => near _ _ _ _ _ ho.spanY.1 ho.spanY.2 (h3 m hm).2⟩

/-- the parameters after a limiter that came last are those before it, limited -/
theorem limited_get (d : Det) (h : Wired d) (pre : List Cb) (l : Limits) (δ : Option (Nat → Par)) (i : Nat) (o : Par) (ho : d.view[i]? = some o) (q : PRef)
    (hq : (runCbs d.view (pre ++ [.limiter l]) (stepped δ d)).panels[i]? = some q) :
    ∃ x, par (runCbs d.view (pre ++ [.limiter l]) (stepped δ d)).store q = limitPar l o x ∧ (runCbs d.view pre (stepped δ d)).view[i]? = some x := by
  have hb := before_conform pre δ h
  have hv := limit_view (l := l) (old := d.view) (by rw [hb.1.length]; simp [Det.view]) hb.2
  have hq' := get_view hq
  rw [runCbs_append] at hq' ⊢
  simp only [runCbs] at hq' ⊢
  rw [hv, List.getElem?_zipWith, ho] at hq'
  rcases hx : (runCbs d.view pre (stepped δ d)).view[i]? with _ | x
  · rw [hx] at hq'; simp at hq'
  · rw [hx] at hq'
    simp only [Option.some.injEq] at hq'
    exact ⟨x, hq'.symm, rfl⟩

/-- **C127.** If the last callback is the limiter, no update moves or resizes a panel by more than the maximal steps, in the end, after conforming; heights may change by
the random margin, if that is larger. -/
theorem limited (d : Det) (h : Wired d) (hg : GoodBoxes d) (hp : AllPhysical d) (pre : List Cb) (l : Limits) (hl : GoodLimits l) (δ : Option (Nat → Par)) (eps : Nat → ℝ)
    (he : Margins eps) (i : Nat) (o n : Par) (ho : d.view[i]? = some o) (hn : (d.update (pre ++ [.limiter l]) δ eps).view[i]? = some n) : Within l (eps i) o n := by
  have hb := before_conform (pre ++ [.limiter l]) δ h
  obtain ⟨p, hpi, rfl⟩ := panel_get ho
  rw [update_eq] at hn
  have hi : i < (runCbs d.view (pre ++ [.limiter l]) (stepped δ d)).panels.length := by
    rw [hb.1.length]; exact (List.getElem?_eq_some_iff.mp hpi).1
  have hq := List.getElem?_eq_getElem hi
  obtain ⟨x, hx, -⟩ := limited_get d h pre l δ i _ ho _ hq
  rw [conform_get hb.2 i _ hq, hx, box_alike hb.1 i _ _ hpi hq, Option.some.injEq] at hn
  subst hn
  have hm := List.mem_of_getElem? hpi
  obtain ⟨l1, l2, l3⟩ := limit_near hl (par d.store p) x
  exact conform_within (box_good hg h p hm).2.2 (he i) (hp p hm) l1 l2 l3

theorem mean_near (xs : List ℝ) (c m : ℝ) (hne : xs ≠ []) (h : ∀ x ∈ xs, |x - c| ≤ m) : |xs.sum / xs.length - c| ≤ m := by
  have key : |xs.sum - xs.length * c| ≤ xs.length * m := by
    clear hne
    induction xs with
    | nil => simp
    | cons x xs ih =>
      have h1 := h x List.mem_cons_self
      have h2 := ih fun y hy => h y (List.mem_cons_of_mem _ hy)
      rw [List.sum_cons, List.length_cons]
      push_cast
      rw [abs_le] at h1 h2 ⊢
      constructor <;> linarith [h1.1, h1.2, h2.1, h2.2]
  have hn : (0 : ℝ) < xs.length := by
    have := List.length_pos_iff.mpr hne
    exact_mod_cast this
  rw [abs_le] at key ⊢
  constructor
  · rw [le_sub_iff_add_le, le_div_iff₀ hn]; linarith [key.1]
  · rw [sub_le_iff_le_add, div_le_iff₀ hn]; linarith [key.2]

theorem centre_get {d : Det} (h : Wired d) {i : Nat} {p : PRef} (hp : d.panels[i]? = some p) :
    d.centre.panels[i]? = some { p with xy := d.store.length + p.layer } ∧ par d.centre.store { p with xy := d.store.length + p.layer } = ⟨meanXY (d.xys p.layer), p.z, p.span⟩ := by
  refine ⟨by simp [Det.centre, hp], ?_⟩
  simp only [par]
  rw [centre_look h p (List.mem_of_getElem? hp)]

/-- **C127.** If the panels of every layer are at one place, the same holds with centring after the limiter. -/
theorem limited_centred (d : Det) (h : Wired d) (hg : GoodBoxes d) (hp : AllPhysical d) (hc : Centred d) (pre : List Cb) (l : Limits) (hl : GoodLimits l)
    (δ : Option (Nat → Par)) (eps : Nat → ℝ) (he : Margins eps) (i : Nat) (o n : Par) (ho : d.view[i]? = some o)
    (hn : (d.update (pre ++ [.limiter l, .centring]) δ eps).view[i]? = some n) : Within l (eps i) o n := by
  have hb := before_conform (pre ++ [.limiter l]) δ h
  obtain ⟨p, hpi, rfl⟩ := panel_get ho
  rw [update_eq, show pre ++ [Cb.limiter l, .centring] = (pre ++ [.limiter l]) ++ [.centring] by simp, runCbs_append] at hn
  simp only [runCbs] at hn
  generalize hE : runCbs d.view (pre ++ [.limiter l]) (stepped δ d) = e at hb hn
  have hi : i < e.panels.length := by
    rw [hb.1.length]; exact (List.getElem?_eq_some_iff.mp hpi).1
  have hq := List.getElem?_eq_getElem hi
  obtain ⟨c1, c2⟩ := centre_get hb.2 hq
  rw [conform_get (centre_wired hb.2) i _ c1, c2, box_alike (hb.1.trans (centre_alike e)) i _ _ hpi c1, Option.some.injEq] at hn
  subst hn
  have hm := List.mem_of_getElem? hpi
  have lay : ∀ (j : Nat) (q : PRef), e.panels[j]? = some q → ∃ r, d.panels[j]? = some r ∧ r.layer = q.layer := by
    intro j q hj
    have := congrArg (·[j]?) hb.1.2
    simp only [List.getElem?_map, hj, Option.map_some] at this
    rcases hr : d.panels[j]? with _ | r
    · rw [hr] at this; simp at this
    · rw [hr] at this; exact ⟨r, rfl, by simpa using this.symm⟩
  have lim : ∀ (j : Nat) (q r : PRef), e.panels[j]? = some q → d.panels[j]? = some r → ∃ x, par e.store q = limitPar l (par d.store r) x := by
    intro j q r hj hr
    subst hE
    obtain ⟨x, hx, -⟩ := limited_get d h pre l δ j _ (get_view hr) q hj
    exact ⟨x, hx⟩
  obtain ⟨x, hx⟩ := lim i _ p hq hpi
  obtain ⟨l1, l2, l3⟩ := limit_near hl (par d.store p) x
  rw [← hx] at l2 l3
  refine conform_within (box_good hg h p hm).2.2 (he i) (hp p hm) (fun m hm' => ?_) l2 l3
  have all : ∀ v ∈ e.xys e.panels[i].layer, |v.1 - (look d.store p.xy).1| ≤ m.1 ∧ |v.2 - (look d.store p.xy).2| ≤ m.2 := by
    intro v hv
    obtain ⟨q, hq', rfl⟩ := List.mem_map.mp hv
    obtain ⟨hq1, hq2⟩ := List.mem_filter.mp hq'
    obtain ⟨j, hj, rfl⟩ := List.mem_iff_getElem.mp hq1
    obtain ⟨r, hr, hrl⟩ := lay j _ (List.getElem?_eq_getElem hj)
    obtain ⟨y, hy⟩ := lim j _ r (List.getElem?_eq_getElem hj) hr
    obtain ⟨r', hr', hrl'⟩ := lay i _ hq
    rw [hpi, Option.some.injEq] at hr'
    subst hr'
    have same : look d.store r.xy = look d.store p.xy := hc r (List.mem_of_getElem? hr) p hm (by rw [hrl, hrl']; simpa using hq2)
    have := (limit_near hl (par d.store r) y).1 m hm'
    rw [← hy] at this
    simp only [par] at this
    rw [same] at this
    exact this
  have hne : e.xys e.panels[i].layer ≠ [] := by
    intro h0
    have : look e.store e.panels[i].xy ∈ e.xys e.panels[i].layer := List.mem_map.mpr ⟨_, List.mem_filter.mpr ⟨List.getElem_mem hi, by simp⟩, rfl⟩
    rw [h0] at this; simp at this
  constructor
  · have := mean_near ((e.xys e.panels[i].layer).map (·.1)) (look d.store p.xy).1 m.1 (by simpa using hne) (by
      intro v hv; obtain ⟨w, hw, rfl⟩ := List.mem_map.mp hv; exact (all w hw).1)
    simpa only [meanXY, List.length_map, par] using this
  · have := mean_near ((e.xys e.panels[i].layer).map (·.2)) (look d.store p.xy).2 m.2 (by simpa using hne) (by
      intro v hv; obtain ⟨w, hw, rfl⟩ := List.mem_map.mp hv; exact (all w hw).2)
    simpa only [meanXY, List.length_map, par] using this

/-- **C127.** After an update whose last callback is centring, the panels of every layer are at one place, also after conforming. -/
theorem centred (d : Det) (h : Wired d) (pre : List Cb) (δ : Option (Nat → Par)) (eps : Nat → ℝ) : Centred (d.update (pre ++ [.centring]) δ eps) := by
  have hb := before_conform pre δ h
  rw [update_eq, runCbs_append]
  simp only [runCbs]
  generalize runCbs d.view pre (stepped δ d) = e at hb
  intro p hp q hq hl
  obtain ⟨p', hp', e1, e2⟩ := conform_mem p hp
  obtain ⟨q', hq', e1', e2'⟩ := conform_mem q hq
  obtain ⟨p'', _, rfl⟩ := List.mem_map.mp hp'
  obtain ⟨q'', _, rfl⟩ := List.mem_map.mp hq'
  simp only at e1 e2 e1' e2'
  rw [e1, e1', ← e2, ← e2', hl]

/-- a training run in which every update is seen: the detector before and after update `u` -/
theorem train_snoc (cbs : List Cb) (us : List (Option (Nat → Par) × (Nat → ℝ))) (u : Option (Nat → Par) × (Nat → ℝ)) (d : Det) :
    d.train cbs (us ++ [u]) = (d.train cbs us).update cbs u.1 u.2 := by
  rw [train_append]; rfl

/-- **C127.** In a training run with centring after the limiter, every update from the second on is within the limits, wherever the panels were at the start; the first is if
the panels of every layer start at one place. -/
theorem trained_limited (d : Det) (h : Wired d) (hg : GoodBoxes d) (pre : List Cb) (l : Limits) (hl : GoodLimits l) (us : List (Option (Nat → Par) × (Nat → ℝ)))
    (u : Option (Nat → Par) × (Nat → ℝ)) (hu : ∀ v ∈ us ++ [u], Margins v.2) (hs : us ≠ [] ∨ (AllPhysical d ∧ Centred d)) (i : Nat) (o n : Par)
    (ho : (d.train (pre ++ [.limiter l, .centring]) us).view[i]? = some o) (hn : (d.train (pre ++ [.limiter l, .centring]) (us ++ [u])).view[i]? = some n) :
    Within l (u.2 i) o n := by
  have ha := train_alike (pre ++ [.limiter l, .centring]) us h
  rw [train_snoc] at hn
  refine limited_centred _ ha.2 (good_alike ha.1 hg) (trained d h hg _ us (fun v hv => hu v (by simp [hv])) (hs.imp_right And.left)) ?_ pre l hl u.1 u.2 (hu u (by simp)) i o n ho hn
  rcases List.eq_nil_or_concat us with rfl | ⟨us, v, rfl⟩
  · exact (hs.resolve_left (by simp)).2
  · rw [List.concat_eq_append, train_snoc, show pre ++ [Cb.limiter l, .centring] = (pre ++ [.limiter l]) ++ [.centring] by simp]
    exact centred _ (train_alike _ us h).2 _ _ _

/-- **C127.** With the limiter last, `n` updates move no panel by more than `n` maximal steps. -/
theorem drift (d : Det) (h : Wired d) (hg : GoodBoxes d) (hp : AllPhysical d) (pre : List Cb) (l : Limits) (hl : GoodLimits l) (us : List (Option (Nat → Par) × (Nat → ℝ)))
    (hu : ∀ v ∈ us, Margins v.2) (m : ℝ × ℝ) (hm : l.xy = some m) (i : Nat) (o n : Par) (ho : d.view[i]? = some o)
    (hn : (d.train (pre ++ [.limiter l]) us).view[i]? = some n) : |n.xy.1 - o.xy.1| ≤ us.length * m.1 ∧ |n.xy.2 - o.xy.2| ≤ us.length * m.2 := by
  induction us generalizing d o with
  | nil =>
    simp only [Det.train] at hn
    rw [ho, Option.some.injEq] at hn
    subst hn; simp
  | cons u us ih =>
    have hw := wired h (pre ++ [.limiter l]) u.1 u.2
    have hph := (physical d h hg (pre ++ [.limiter l]) u.1 u.2 (hu u List.mem_cons_self)).1
    have hi : i < (d.update (pre ++ [.limiter l]) u.1 u.2).panels.length := by
      obtain ⟨p, hpi, _⟩ := panel_get ho
      rw [hw.1.length]; exact (List.getElem?_eq_some_iff.mp hpi).1
    have hx := get_view (List.getElem?_eq_getElem hi)
    have w := limited d h hg hp pre l hl u.1 u.2 (hu u List.mem_cons_self) i o _ ho hx
    obtain ⟨i1, i2⟩ := ih _ hw.2 (good_alike hw.1 hg) hph (fun v hv => hu v (List.mem_cons_of_mem _ hv)) _ hx hn
    have w1 := w.x m hm
    have w2 := w.y m hm
    rw [List.length_cons]
    push_cast
    rw [abs_le] at i1 i2 w1 w2
    rw [abs_le, abs_le]
    exact ⟨⟨by linarith [i1.1, w1.1], by linarith [i1.2, w1.2]⟩, ⟨by linarith [i2.1, w2.1], by linarith [i2.2, w2.2]⟩⟩

/- Updates without a step. -/

theorem limit_self {l : Limits} (hl : GoodLimits l) (o : Par) : limitPar l o o = o := by
  have one : ∀ (m a : ℝ), 0 ≤ m → limit m a a = a := fun m a hm => by simp [limit, not_lt.mpr hm]
  obtain ⟨xy, z, span⟩ := o
  unfold limitPar
  congr 1
  · rcases h : l.xy with _ | m
    · rfl
    · simp [limit2, one _ _ (hl.xy m h).1, one _ _ (hl.xy m h).2]
  · rcases h : l.z with _ | m
    · rfl
    · exact one _ _ (hl.z m h)
  · rcases h : l.span with _ | m
    · rfl
    · simp [limit2, one _ _ (hl.span m h).1, one _ _ (hl.span m h).2]

/-- **C127.** An update without a step (in warm-up, or if nothing could be inferred) leaves physical panels where they are if the only callbacks are limiters and no panel is
closer than the largest margin to the top or bottom of its layer. -/
theorem still (d : Det) (h : Wired d) (hp : AllPhysical d) (hz : ∀ p ∈ d.panels, (d.box p).z - (d.box p).size + 1e-3 ≤ p.z ∧ p.z ≤ (d.box p).z - 1e-3)
    (cbs : List Cb) (hc : ∀ c ∈ cbs, ∃ l, c = .limiter l ∧ GoodLimits l) (eps : Nat → ℝ) (he : Margins eps) : (d.update cbs none eps).view = d.view := by
  have key : ∀ (cbs : List Cb) (e : Det), (∀ c ∈ cbs, ∃ l, c = .limiter l ∧ GoodLimits l) → Wired e → Alike d e → e.view = d.view → (runCbs d.view cbs e).view = d.view := by
    intro cbs
    induction cbs with
    | nil => intro e _ _ _ hv; exact hv
    | cons c cs ih =>
      intro e hc hw ha hv
      obtain ⟨l, rfl, hl⟩ := hc c List.mem_cons_self
      have hlen : d.view.length = e.panels.length := by rw [ha.length]; simp [Det.view]
      refine ih _ (fun c' hc' => hc c' (List.mem_cons_of_mem _ hc')) (limit_wired hlen hw) (ha.trans (limit_alike hlen hw)) ?_
      rw [limit_view hlen hw, hv, List.zipWith_self]
      exact (List.map_congr_left fun o _ => limit_self hl o).trans (List.map_id _)
  have hb := before_conform cbs none h
  have hv := key cbs d hc h ⟨rfl, rfl⟩ rfl
  rw [update_eq]
  simp only [stepped] at hb ⊢
  generalize runCbs d.view cbs d = e at hb hv
  apply List.ext_getElem?
  intro i
  rcases hi : e.panels[i]? with _ | p
  · have h1 : e.panels.length ≤ i := List.getElem?_eq_none_iff.mp hi
    have h2 := (conform_alike eps e).length
    have h3 := hb.1.length
    rw [List.getElem?_eq_none (by simp [Det.view]; omega), List.getElem?_eq_none (by simp [Det.view]; omega)]
  · rw [conform_get hb.2 i p hi, ← hv, get_view hi, Option.some.injEq]
    have hv' := get_view hi
    rw [hv] at hv'
    obtain ⟨q, hq, hq'⟩ := panel_get hv'
    rw [box_alike hb.1 i q p hq hi, hq']
    have hm := List.mem_of_getElem? hq
    have ph := hp q hm
    have he1 := (he i).1
    have he2 := (he i).2
    have z1 := (hz q hm).1
    have z2 := (hz q hm).2
    have c1 := clamp_id _ _ _ ph.x.1 ph.x.2
    have c2 := clamp_id _ _ _ ph.y.1 ph.y.2
    have c3 := clamp_id (par d.store q).z ((d.box q).z - (d.box q).size + eps i) ((d.box q).z - eps i) (by simp only [par]; linarith) (by simp only [par]; linarith)
    have c4 := clamp_id _ _ _ ph.spanX.1 ph.spanX.2
    have c5 := clamp_id _ _ _ ph.spanY.1 ph.spanY.2
    simp only [conformPar, clampXY, c1, c2, c3, c4, c5]

/- Each panel its own step. -/

/-- the parameters after a step of its own -/
def moved (δ p : Par) : Par := ⟨(p.xy.1 + δ.xy.1, p.xy.2 + δ.xy.2), p.z + δ.z, (p.span.1 + δ.span.1, p.span.2 + δ.span.2)⟩

theorem step_own (d : Det) (h : Wired d) (hn : (d.panels.map (·.xy)).Nodup) (δ : Nat → Par) (i : Nat) : (d.step δ).view[i]? = d.view[i]?.map (moved (δ i)) := by
  rcases hi : d.panels[i]? with _ | p
  · have h1 : d.panels.length ≤ i := List.getElem?_eq_none_iff.mp hi
    have h2 := (step_alike δ d).length
    rw [List.getElem?_eq_none (by simp [Det.view]; omega), List.getElem?_eq_none (by simp [Det.view]; omega)]
    rfl
  · have hs : (d.step δ).panels[i]? = some { p with z := p.z + (δ i).z, span := (p.span.1 + (δ i).span.1, p.span.2 + (δ i).span.2) } := by
      simp [Det.step, List.getElem?_zipIdx, hi]
    rw [get_view hs, get_view hi]
    simp only [par, Option.map_some, moved, Option.some.injEq, Par.mk.injEq, and_true]
    have hm : (p, i) ∈ d.panels.zipIdx := List.mk_mem_zipIdx_iff_getElem?.mpr hi
    refine fold_own d.panels.zipIdx (fun pi : PRef × Nat => pi.1.xy) (fun pi v => (v.1 + (δ pi.2).xy.1, v.2 + (δ pi.2).xy.2)) ?_ d.store ?_ (p, i) hm
    · rw [show (fun pi : PRef × Nat => pi.1.xy) = (fun p : PRef => p.xy) ∘ Prod.fst from rfl, ← List.map_map, List.zipIdx_map_fst]
      exact hn
    · intro q hq
      have := List.mem_map_of_mem (f := Prod.fst) hq
      rw [List.zipIdx_map_fst] at this
      exact h.stored _ this

/-- **C127.** With a limit on positions and the limiter last, the next step moves every panel by its own amount, also if centring was among the callbacks. -/
theorem own (d : Det) (h : Wired d) (pre : List Cb) (l : Limits) (hx : l.xy ≠ none) (δ : Option (Nat → Par)) (eps : Nat → ℝ) (δ' : Nat → Par) (i : Nat) :
    ((d.update (pre ++ [.limiter l]) δ eps).step δ').view[i]? = (d.update (pre ++ [.limiter l]) δ eps).view[i]?.map (moved (δ' i)) := by
  have hb := before_conform pre δ h
  refine step_own _ (wired h _ δ eps).2 ?_ δ' i
  rw [update_eq, runCbs_append]
  simp only [runCbs]
  generalize runCbs d.view pre (stepped δ d) = e at hb
  have hn := ((limLoop_spec l e.store d.view e.panels (by rw [hb.1.length]; simp [Det.view]) hb.2.stored).2.2.2.2.2 hx).2
  have : ((e.limit l d.view).conform eps).panels.map (·.xy) = (e.limit l d.view).panels.map (·.xy) := by
    apply List.ext_getElem
    · simp [Det.conform]
    · intro j h1 h2
      simp [Det.conform]
  rw [this]
  exact hn

/- Examples and what the code refutes. -/

/-- a layer of one metre with two panels at opposite sides, the first of them at the top -/
def two : Det := ⟨[⟨(1, 1), 1, 1⟩], [(0, 1 / 2), (1, 1 / 2)], [⟨0, 0, 1, (1, 1)⟩, ⟨0, 1, 1 / 2, (1, 1)⟩]⟩

theorem two_ok : Wired two ∧ GoodBoxes two ∧ AllPhysical two := by
  refine ⟨⟨?_, ?_, ?_⟩, ?_, ?_⟩
  · simp [two]
  · simp [two]
  · simp [two]
  · simp [two, GoodBoxes]; norm_num
  · intro p hp
    simp only [two, List.mem_cons, List.not_mem_nil, or_false] at hp
    rcases hp with rfl | rfl
    · constructor <;> simp only [two, Det.box, par, look, List.getD_cons_zero] <;> norm_num
    · constructor <;> simp only [two, Det.box, par, look, List.getD_cons_zero, List.getD_cons_succ] <;> norm_num

example : ∃ d : Det, Wired d ∧ GoodBoxes d ∧ AllPhysical d ∧ Centred d ∧ d.panels.length = 2 := by
  have hm : Margins fun _ => 0 := fun _ => ⟨le_refl _, by norm_num⟩
  have h := physical two two_ok.1 two_ok.2.1 ([] ++ [.centring]) none (fun _ => 0) hm
  have hc := centred two two_ok.1 [] none fun _ => 0
  generalize two.update ([] ++ [.centring]) none (fun _ => 0) = e at h hc
  refine ⟨e, h.2.2.2, ?_, h.1, hc, ?_⟩
  · unfold GoodBoxes; rw [h.2.1]; exact two_ok.2.1
  · have := congrArg List.length h.2.2.1
    simpa [two] using this

example : ∃ (d : Det) (eps : Nat → ℝ), Wired d ∧ AllPhysical d ∧ Margins eps ∧ d.panels ≠ [] ∧ ∀ p ∈ d.panels, (d.box p).z - (d.box p).size + 1e-3 ≤ p.z ∧ p.z ≤ (d.box p).z - 1e-3 := by
  refine ⟨⟨[⟨(1, 1), 1, 1⟩], [(0, 1 / 2)], [⟨0, 0, 1 / 2, (1, 1)⟩]⟩, fun _ => 5e-4, ⟨?_, ?_, ?_⟩, ?_, fun _ => by norm_num, by simp, ?_⟩
  · simp
  · simp
  · simp
  · intro p hp
    simp only [List.mem_cons, List.not_mem_nil, or_false] at hp
    subst hp
    constructor <;> simp [Det.box, par, look] <;> norm_num
  · intro p hp
    simp only [List.mem_cons, List.not_mem_nil, or_false] at hp
    subst hp
    simp [Det.box]; norm_num

example : GoodLimits ⟨some (1 / 10, 1 / 10), some (1 / 10), none⟩ := ⟨by simp, by simp, by simp⟩

/-- the limits of the examples below -/
def tight : Limits := ⟨some (1 / 10, 1 / 10), some 0, none⟩

theorem tight_ok : GoodLimits tight := ⟨by simp [tight], by simp [tight], by simp [tight]⟩

/-- **C127, not so.** Heights keep to their maximal step only up to the random margin: a panel at the top of its layer is moved although no step was taken and the maximal
step is zero. -/
theorem margin_violated : ∃ (d : Det) (eps : Nat → ℝ), Wired d ∧ GoodBoxes d ∧ AllPhysical d ∧ Margins eps ∧
    ∃ o n, d.view[0]? = some o ∧ (d.update [.limiter tight] none eps).view[0]? = some n ∧ tight.z = some 0 ∧ n.z ≠ o.z := by
  have hm : Margins fun _ => 5e-4 := fun _ => by norm_num
  refine ⟨two, fun _ => 5e-4, two_ok.1, two_ok.2.1, two_ok.2.2, hm, par two.store ⟨0, 0, 1, (1, 1)⟩, conformPar ⟨(1, 1), 1, 1⟩ 5e-4 ⟨(0, 1 / 2), 1, (1, 1)⟩, rfl, ?_, rfl, ?_⟩
  · rw [update_eq]
    simp [stepped, runCbs, Det.limit, limLoop, limOne, two, Det.view, tight, par, look, limitPar, limit2, limit, Det.conform, Det.box, conformPar, clampXY]
  · simp only [conformPar, par, clampR]
    norm_num

/-- **C127, not so.** If centring comes after the limiter and the panels of a layer are at different places, the update moves them by more than the maximal step, even
without a step of the optimisers, as in warm-up. -/
theorem centring_violated : ∃ d : Det, Wired d ∧ GoodBoxes d ∧ AllPhysical d ∧
    ∃ o n, d.view[0]? = some o ∧ (d.update [.limiter tight, .centring] none fun _ => 0).view[0]? = some n ∧ tight.xy = some (1 / 10, 1 / 10) ∧ |n.xy.1 - o.xy.1| = 1 / 2 := by
  refine ⟨two, two_ok.1, two_ok.2.1, two_ok.2.2, par two.store ⟨0, 0, 1, (1, 1)⟩, conformPar ⟨(1, 1), 1, 1⟩ 0 ⟨(1 / 2, 1 / 2), 1, (1, 1)⟩, rfl, ?_, rfl, ?_⟩
  · rw [update_eq]
    simp [stepped, runCbs, Det.limit, Det.centre, Det.xys, meanXY, limLoop, limOne, two, Det.view, tight, par, look, limitPar, limit2, limit, Det.conform, Det.box, conformPar, clampXY]
    norm_num [clampR]
  · simp only [conformPar, par, clampR, clampXY, two, look]
    norm_num

/-- **C127, not so.** If centring comes last, the next step moves every panel of a layer by the sum of the steps of all of them. -/
theorem own_violated : ∃ d : Det, Wired d ∧ GoodBoxes d ∧ AllPhysical d ∧ ∃ δ : Nat → Par, ∃ o n,
    (d.update [.centring] none fun _ => 0).view[0]? = some o ∧ ((d.update [.centring] none fun _ => 0).step δ).view[0]? = some n ∧
      (δ 0).xy.1 = 1 / 10 ∧ (δ 1).xy.1 = 2 / 10 ∧ n.xy.1 = o.xy.1 + 3 / 10 := by
  refine ⟨two, two_ok.1, two_ok.2.1, two_ok.2.2, fun i => ⟨((i + 1) / 10, 0), 0, (0, 0)⟩, ⟨(1 / 2, 1 / 2), 1, (1, 1)⟩, ⟨(1 / 2 + 3 / 10, 1 / 2), 1, (1, 1)⟩, ?_, ?_, by norm_num, by norm_num, rfl⟩
  · rw [update_eq]
    simp [stepped, runCbs, Det.centre, Det.xys, meanXY, two, Det.view, par, look, Det.conform, Det.box, clampXY]
    norm_num [clampR]
  · rw [update_eq]
    simp [stepped, runCbs, Det.centre, Det.xys, meanXY, two, Det.view, par, look, Det.conform, Det.box, clampXY, Det.step]
    norm_num [clampR]

end C127

end

end Tomopt
