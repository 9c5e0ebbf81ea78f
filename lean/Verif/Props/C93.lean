import Verif.Model.Optims
import Verif.Lemmas.SaveLoad
import Verif.Props.C47

/- C93: reading and setting learning rates and momenta; schedules reach exactly the optimiser they name. -/
namespace Tomopt

noncomputable section

open Optims

namespace C93

/-- The optimisers `o'` differ from `o` at most in the given settings of the first group of the optimiser `k`. -/
def Only (keys : List String) (k : String) (o o' : Opts) : Prop :=
  (∀ j, j ≠ k → o'.get? j = o.get? j) ∧ ∀ gs, o.get? k = some gs → ∃ g g' rest, gs = g :: rest ∧ o'.get? k = some (g' :: rest) ∧ g'.params = g.params ∧
    ∀ key, key ∉ keys → g'.hyper.get? key = g.hyper.get? key

theorem assign_ok {o o' : Opts} {k key : String} {x : Hyper} (h : assign o k key x = .ok o') :
    ∃ g gs, o.get? k = some (g :: gs) ∧ o' = o.set k ({ g with hyper := g.hyper.set key x } :: gs) := by
  unfold assign at h
  split at h
  · simp at h
  · simp at h
  · rename_i g gs hg
    exact ⟨g, gs, hg, (Except.ok.inj h).symm⟩

theorem assign_first {o o' : Opts} {k key : String} {x : Hyper} (h : assign o k key x = .ok o') :
    ∃ g, first o k = .ok g ∧ first o' k = .ok { g with hyper := g.hyper.set key x } := by
  obtain ⟨g, gs, hg, rfl⟩ := assign_ok h
  exact ⟨g, by simp [first, hg], by simp [first, SaveLoad.get?_set]⟩

theorem assign_only {o o' : Opts} {k key : String} {x : Hyper} (h : assign o k key x = .ok o') : Only [key] k o o' := by
  obtain ⟨g, gs, hg, rfl⟩ := assign_ok h
  refine ⟨fun j hj => by rw [SaveLoad.get?_set, if_neg (Ne.symm hj)], fun l hl => ?_⟩
  rw [hg] at hl
  refine ⟨g, { g with hyper := g.hyper.set key x }, gs, (Option.some.inj hl).symm, by rw [SaveLoad.get?_set, if_pos rfl], rfl, fun key' h' => ?_⟩
  show (g.hyper.set key x).get? key' = _
  rw [SaveLoad.get?_set, if_neg]
  rintro rfl
  simp at h'

theorem Only.mono {ks ks' : List String} {k : String} {o o' : Opts} (h : Only ks k o o') (hs : ∀ x, x ∈ ks → x ∈ ks') : Only ks' k o o' :=
  ⟨h.1, fun gs hg => by
    obtain ⟨g, g', r, h1, h2, h3, h4⟩ := h.2 gs hg
    exact ⟨g, g', r, h1, h2, h3, fun key hk => h4 key fun hm => hk (hs _ hm)⟩⟩

theorem Only.trans {ks : List String} {k : String} {o o' o'' : Opts} (h : Only ks k o o') (h' : Only ks k o' o'') : Only ks k o o'' := by
  refine ⟨fun j hj => (h'.1 j hj).trans (h.1 j hj), fun gs hg => ?_⟩
  obtain ⟨g, g', r, rfl, h2, h3, h4⟩ := h.2 gs hg
  obtain ⟨g1, g2, r', e, h6, h7, h8⟩ := h'.2 _ h2
  obtain ⟨rfl, rfl⟩ := List.cons.inj e
  exact ⟨g, g2, r, rfl, h6, h7.trans h3, fun key hk => (h8 key hk).trans (h4 key hk)⟩

/-- **C93: learning rate.** Setting the learning rate of an optimiser that exists works; then it reads back, and nothing else changed: no other optimiser, no other group and
no other setting. For an unknown name it raises. -/
theorem set_lr (o : Opts) (lr : ℝ) (k : String) :
    (∀ g gs, o.get? k = some (g :: gs) → ∃ o', setLr o lr k = .ok o' ∧ getLr o' k = .ok (.num lr) ∧ Only ["lr"] k o o') ∧
    (o.get? k = none → setLr o lr k = .error .keyError ∧ getLr o k = .error .keyError) := by
  constructor
  · intro g gs hg
    have h : setLr o lr k = .ok (o.set k ({ g with hyper := g.hyper.set "lr" (.num lr) } :: gs)) := by simp [setLr, assign, hg]
    refine ⟨_, h, ?_, assign_only h⟩
    obtain ⟨g1, h1, h2⟩ := assign_first h
    simp [getLr, h2, SaveLoad.get?_set]
  · intro hg
    simp [setLr, assign, getLr, first, hg]

/-- **C93: momentum.** The same for the momentum, which is `betas[0]` for optimisers with `betas` (the second stays) and `momentum` for others. -/
theorem set_mom (o : Opts) (m : ℝ) (k : String) :
    (∀ g gs a b, o.get? k = some (g :: gs) → g.hyper.get? "betas" = some (.pair a b) →
      ∃ o' g', setMom o m k = .ok o' ∧ getMom o' k = .ok (.num m) ∧ Only ["betas"] k o o' ∧ first o' k = .ok g' ∧ g'.hyper.get? "betas" = some (.pair m b)) ∧
    (∀ g gs, o.get? k = some (g :: gs) → g.hyper.get? "betas" = none →
      ∃ o', setMom o m k = .ok o' ∧ getMom o' k = .ok (.num m) ∧ Only ["momentum"] k o o') ∧
    (o.get? k = none → setMom o m k = .error .keyError ∧ getMom o k = .error .keyError) := by
  refine ⟨?_, ?_, ?_⟩
  · intro g gs a b hg hb
    have h : assign o k "betas" (.pair m b) = .ok (o.set k ({ g with hyper := g.hyper.set "betas" (.pair m b) } :: gs)) := by simp [assign, hg]
    have hf : first o k = .ok g := by simp [first, hg]
    have h' : setMom o m k = .ok (o.set k ({ g with hyper := g.hyper.set "betas" (.pair m b) } :: gs)) := by
      simp only [setMom, hf, hb]; exact h
    obtain ⟨g1, h1, h2⟩ := assign_first h
    rw [hf] at h1
    obtain rfl := Except.ok.inj h1
    exact ⟨_, _, h', by simp [getMom, h2, SaveLoad.get?_set], assign_only h, h2, by simp [SaveLoad.get?_set]⟩
  · intro g gs hg hb
    have h : assign o k "momentum" (.num m) = .ok (o.set k ({ g with hyper := g.hyper.set "momentum" (.num m) } :: gs)) := by simp [assign, hg]
    have hf : first o k = .ok g := by simp [first, hg]
    have h' : setMom o m k = .ok (o.set k ({ g with hyper := g.hyper.set "momentum" (.num m) } :: gs)) := by
      simp only [setMom, hf, hb]; exact h
    obtain ⟨g1, h1, h2⟩ := assign_first h
    rw [hf] at h1
    obtain rfl := Except.ok.inj h1
    exact ⟨_, h', by simp [getMom, h2, SaveLoad.get?_set, hb], assign_only h⟩
  · intro hg
    simp [setMom, getMom, first, hg]

/-- **C93 (violated): all parameters of the optimiser.** With two groups of parameters (possible with `ArbVolumeWrapper`) only the first gets the new learning rate. -/
theorem groups_violated (lr : ℝ) (hlr : lr ≠ 1) : ∃ o', setLr [("my_opt", [⟨[0], [("lr", .num 1)]⟩, ⟨[1], [("lr", .num 1)]⟩])] lr "my_opt" = .ok o' ∧
    ∃ g g', o'.get? "my_opt" = some [g, g'] ∧ g.hyper.get? "lr" = some (.num lr) ∧ g'.hyper.get? "lr" = some (.num 1) ∧ g'.hyper.get? "lr" ≠ some (.num lr) :=
  ⟨_, rfl, _, _, rfl, rfl, rfl, by simp [Dict.get?]; exact hlr.symm⟩

/-- **C93: optimisers without momentum.** Reading the momentum raises; setting it does not, and has no effect on such an optimiser other than a new entry that it does not use. -/
theorem no_momentum (o : Opts) (m : ℝ) (k : String) (g : Group) (gs : List Group) (hg : o.get? k = some (g :: gs)) (hb : g.hyper.get? "betas" = none)
    (hm : g.hyper.get? "momentum" = none) : getMom o k = .error .keyError ∧ ∃ o', setMom o m k = .ok o' ∧ getMom o' k = .ok (.num m) := by
  refine ⟨by simp [getMom, first, hg, hb, hm], ?_⟩
  obtain ⟨o', h1, h2, -⟩ := (set_mom o m k).2.1 g gs hg hb
  exact ⟨o', h1, h2⟩

/- Schedules. -/

/-- the settings a schedule may touch -/
def touched : List String := ["lr", "betas", "momentum"]

/-- The optimiser is usable: it exists, and `betas`, if it has them, are a pair. -/
def Usable (o : Opts) (k : String) : Prop := ∃ g gs, o.get? k = some (g :: gs) ∧ ∀ x, g.hyper.get? "betas" ≠ some (.num x)

theorem setLr_getMom {o o' : Opts} {x : ℝ} {k : String} (h : setLr o x k = .ok o') : getMom o' k = getMom o k := by
  obtain ⟨g, h1, h2⟩ := assign_first h
  simp [getMom, h1, h2, SaveLoad.get?_set]

theorem setMom_cases {o o' : Opts} {x : ℝ} {k : String} (h : setMom o x k = .ok o') :
    ∃ g gs, o.get? k = some (g :: gs) ∧ ((∃ a b, g.hyper.get? "betas" = some (.pair a b)) ∨ g.hyper.get? "betas" = none) := by
  unfold setMom first at h
  cases hk : o.get? k with
  | none => simp [hk] at h
  | some l =>
    cases l with
    | nil => simp [hk] at h
    | cons g gs =>
      refine ⟨g, gs, rfl, ?_⟩
      cases hb : g.hyper.get? "betas" with
      | none => exact .inr rfl
      | some v =>
        cases v with
        | num y => simp [hk, hb] at h
        | pair a b => exact .inl ⟨a, b, rfl⟩

theorem setMom_spec {o o' : Opts} {x : ℝ} {k : String} (h : setMom o x k = .ok o') :
    getMom o' k = .ok (.num x) ∧ getLr o' k = getLr o k ∧ Only touched k o o' := by
  obtain ⟨g, gs, hg, hb⟩ := setMom_cases h
  have hlr : ∀ key y, key ≠ "lr" → assign o k key y = .ok o' → getLr o' k = getLr o k := by
    intro key y hk ha
    obtain ⟨g1, h1, h2⟩ := assign_first ha
    simp [getLr, h1, h2, SaveLoad.get?_set, hk]
  have hf : first o k = .ok g := by simp [first, hg]
  rcases hb with ⟨a, b, hb⟩ | hb
  · obtain ⟨o1, g', e, h1, h2, -⟩ := (set_mom o x k).1 g gs a b hg hb
    rw [h] at e
    obtain rfl := Except.ok.inj e
    refine ⟨h1, hlr "betas" _ (by decide) (by simpa only [setMom, hf, hb] using h), h2.mono (by simp [touched])⟩
  · obtain ⟨o1, e, h1, h2⟩ := (set_mom o x k).2.1 g gs hg hb
    rw [h] at e
    obtain rfl := Except.ok.inj e
    refine ⟨h1, hlr "momentum" _ (by decide) (by simpa only [setMom, hf, hb] using h), h2.mono (by simp [touched])⟩

theorem only_refl {o : Opts} {k : String} {g : Group} {gs : List Group} (hg : o.get? k = some (g :: gs)) (ks : List String) : Only ks k o o :=
  ⟨fun _ _ => rfl, fun l hl => ⟨g, g, gs, by rw [hg] at hl; exact (Option.some.inj hl).symm, hg, rfl, fun _ _ => rfl⟩⟩

theorem usable_setLr {o : Opts} {k : String} (h : Usable o k) (x : ℝ) : ∃ o', setLr o x k = .ok o' ∧ Usable o' k := by
  obtain ⟨g, gs, hg, hb⟩ := h
  have h : setLr o x k = .ok (o.set k ({ g with hyper := g.hyper.set "lr" (.num x) } :: gs)) := by simp [setLr, assign, hg]
  refine ⟨_, h, _, gs, by rw [SaveLoad.get?_set, if_pos rfl], fun y => ?_⟩
  rw [SaveLoad.get?_set, if_neg (by decide)]
  exact hb y

theorem usable_setMom {o : Opts} {k : String} (h : Usable o k) (x : ℝ) : ∃ o', setMom o x k = .ok o' ∧ Usable o' k := by
  obtain ⟨g, gs, hg, hb⟩ := h
  have hf : first o k = .ok g := by simp [first, hg]
  cases hv : g.hyper.get? "betas" with
  | none =>
    refine ⟨o.set k ({ g with hyper := g.hyper.set "momentum" (.num x) } :: gs), by simp [setMom, hf, hv, assign, hg], _, gs, by rw [SaveLoad.get?_set, if_pos rfl], fun y => ?_⟩
    rw [SaveLoad.get?_set, if_neg (by decide)]
    exact hb y
  | some v =>
    cases v with
    | num y => exact absurd hv (hb y)
    | pair a b =>
      refine ⟨o.set k ({ g with hyper := g.hyper.set "betas" (.pair x b) } :: gs), by simp [setMom, hf, hv, assign, hg], _, gs, by rw [SaveLoad.get?_set, if_pos rfl], fun y => ?_⟩
      rw [SaveLoad.get?_set, if_pos rfl]
      simp

/-- what `writeBoth` does to a usable optimiser -/
theorem writeBoth_spec (o : Opts) (k : String) (hu : Usable o k) (lr mom : Option ℝ) :
    ∃ o', writeBoth k lr mom o = .ok o' ∧ Usable o' k ∧ Only touched k o o' ∧
      (getLr o' k = match lr with | some x => .ok (.num x) | none => getLr o k) ∧ (getMom o' k = match mom with | some x => .ok (.num x) | none => getMom o k) := by
  have hu' := hu
  obtain ⟨g, gs, hg, -⟩ := hu'
  have hw : ∃ o1, write setLr k lr o = .ok o1 ∧ Usable o1 k ∧ Only touched k o o1 ∧ (getLr o1 k = match lr with | some x => .ok (.num x) | none => getLr o k) ∧ getMom o1 k = getMom o k := by
    cases lr with
    | none => exact ⟨o, rfl, hu, only_refl hg _, rfl, rfl⟩
    | some x =>
      obtain ⟨o1, h1, h2⟩ := usable_setLr hu x
      obtain ⟨o2, h3, h4, h5⟩ := (set_lr o x k).1 g gs hg
      rw [h1] at h3
      obtain rfl := Except.ok.inj h3
      exact ⟨o1, h1, h2, h5.mono (by simp [touched]), h4, setLr_getMom h1⟩
  obtain ⟨o1, h1, h2, h3, h4, h5⟩ := hw
  cases mom with
  | none => exact ⟨o1, by rw [writeBoth, h1]; rfl, h2, h3, h4, h5⟩
  | some x =>
    obtain ⟨o2, h6, h7⟩ := usable_setMom h2 x
    obtain ⟨h8, h9, h10⟩ := setMom_spec h6
    exact ⟨o2, by rw [writeBoth, h1]; exact h6, h7, h3.trans h10, h9.trans h4, h8⟩

/-- the state of the schedule of one quantity (C47) that goes with a state of the callback -/
def one (s : St) (x : ℝ) : OneCycle.St := ⟨s.active, s.iter, s.warming, s.plan, x⟩

/-- one quantity of a cycle, its mid value given -/
def cfg (c : Cycle) (q : Quant) (mid : ℝ) : OneCycle.Cfg := OneCycle.mk c.warm q.init mid q.final

/-- all values that are needed are given -/
def Given (c : Cycle) : Prop := (∀ q, c.lr = some q → q.mid ≠ none) ∧ ∀ q, c.mom = some q → q.mid ≠ none

/-- the value `x` is that of the setting, if the quantity is annealed -/
def Holds (get : Opts → String → Except Err Hyper) (k : String) (q : Option Quant) (o : Opts) (x : ℝ) : Prop := q ≠ none → get o k = .ok (.num x)

/-- one event: the callback does to each annealed quantity what the schedule of C47 does, and leaves the other alone -/
theorem apply_one (c : Cycle) (f : OneCycle.Fit) (op : OneCycle.Op) (s s' : St) (hu : Usable s.opts c.name) (h : apply c f s op = .ok s') :
    Usable s'.opts c.name ∧ Only touched c.name s.opts s'.opts ∧
    (∀ q m x, c.lr = some q → q.mid = some m → getLr s.opts c.name = .ok (.num x) →
      ∃ y, OneCycle.apply (cfg c q m) f (one s x) op = .ok (one s' y) ∧ getLr s'.opts c.name = .ok (.num y)) ∧
    (c.lr = none → getLr s'.opts c.name = getLr s.opts c.name) ∧
    (∀ q m x, c.mom = some q → q.mid = some m → getMom s.opts c.name = .ok (.num x) →
      ∃ y, OneCycle.apply (cfg c q m) f (one s x) op = .ok (one s' y) ∧ getMom s'.opts c.name = .ok (.num y)) ∧
    (c.mom = none → getMom s'.opts c.name = getMom s.opts c.name) := by
  have hrefl : Only touched c.name s.opts s.opts := by
    obtain ⟨g, gs, hg, -⟩ := hu
    exact only_refl hg _
  cases op with
  | activate e =>
    obtain rfl := Except.ok.inj h
    exact ⟨hu, hrefl, fun q m x _ _ hx => ⟨x, rfl, hx⟩, fun _ => rfl, fun q m x _ _ hx => ⟨x, rfl, hx⟩, fun _ => rfl⟩
  | epochEnd e =>
    simp only [apply, epochEnd] at h
    by_cases hw : (e : ℤ) - 1 = c.warm
    · rw [if_pos hw] at h
      cases hp : s.plan with
      | none => rw [hp] at h; simp at h
      | some p =>
        rw [hp] at h
        obtain rfl := Except.ok.inj h
        have hone : ∀ q m x, OneCycle.apply (cfg c q m) f (one s x) (.epochEnd e) = .ok (one { s with iter := 0, warming := false, plan := some (p.1, (p.1 - e + 1) * f.k) } x) := by
          intro q m x
          have : (e : ℤ) - 1 = (cfg c q m).warm := hw
          simp only [OneCycle.apply, OneCycle.epochEnd, if_pos this, one, hp]
        exact ⟨hu, hrefl, fun q m x _ _ hx => ⟨x, hone q m x, hx⟩, fun _ => rfl, fun q m x _ _ hx => ⟨x, hone q m x, hx⟩, fun _ => rfl⟩
    · rw [if_neg hw] at h
      obtain rfl := Except.ok.inj h
      have hone : ∀ q m x, OneCycle.apply (cfg c q m) f (one s x) (.epochEnd e) = .ok (one s x) := by
        intro q m x
        have : ¬ (e : ℤ) - 1 = (cfg c q m).warm := hw
        simp only [OneCycle.apply, OneCycle.epochEnd, if_neg this]
      exact ⟨hu, hrefl, fun q m x _ _ hx => ⟨x, hone q m x, hx⟩, fun _ => rfl, fun q m x _ _ hx => ⟨x, hone q m x, hx⟩, fun _ => rfl⟩
  | step =>
    simp only [apply, stepEnd] at h
    by_cases ha : s.active = true
    · rw [if_pos ha] at h
      cases hp : s.plan with
      | none => simp [schedule, hp] at h
      | some p =>
        obtain ⟨n, scale⟩ := p
        by_cases h0 : scale = 0
        · simp [schedule, hp, h0] at h
        · simp only [schedule, hp, if_neg h0] at h
          generalize hx : Real.cos (Real.pi * ((s.iter + 1 : ℕ) : ℝ) / (scale : ℝ)) + 1 = X at h
          cases hl : getParam? s.warming X c.lr with
          | error e => simp [hl] at h
          | ok lr =>
            cases hm : getParam? s.warming X c.mom with
            | error e => simp [hl, hm] at h
            | ok mom =>
              simp only [hl, hm] at h
              obtain ⟨o', h1, h2, h3, h4, h5⟩ := writeBoth_spec s.opts c.name hu lr mom
              rw [h1] at h
              obtain rfl := Except.ok.inj h
              have hone : ∀ (qq : Option Quant) (v : Option ℝ) q m x, getParam? s.warming X qq = .ok v → qq = some q → q.mid = some m →
                  ∃ y, v = some y ∧ OneCycle.apply (cfg c q m) f (one s x) .step = .ok (one { s with iter := s.iter + 1, opts := o' } y) := by
                rintro qq v q m x hv rfl hmid
                simp only [getParam?, getParam, hmid, Except.ok.injEq] at hv
                refine ⟨_, hv.symm, ?_⟩
                simp only [OneCycle.apply, OneCycle.stepEnd, one, ha, if_true, OneCycle.schedule, hp, if_neg h0, hx]
                rfl
              refine ⟨h2, h3, ?_, ?_, ?_, ?_⟩
              · intro q m x hq hmid hget
                obtain ⟨y, rfl, hy⟩ := hone c.lr lr q m x hl hq hmid
                exact ⟨y, by rw [hy, hp], h4⟩
              · intro hn
                rw [hn] at hl
                obtain rfl := Except.ok.inj hl
                exact h4
              · intro q m x hq hmid hget
                obtain ⟨y, rfl, hy⟩ := hone c.mom mom q m x hm hq hmid
                exact ⟨y, by rw [hy, hp], h5⟩
              · intro hn
                rw [hn] at hm
                obtain rfl := Except.ok.inj hm
                exact h5
    · rw [if_neg ha] at h
      obtain rfl := Except.ok.inj h
      have hone : ∀ q m x, OneCycle.apply (cfg c q m) f (one s x) .step = .ok (one s x) := by
        intro q m x
        simp only [OneCycle.apply, OneCycle.stepEnd, one, ha, Bool.false_eq_true, if_false]
      exact ⟨hu, hrefl, fun q m x _ _ hx => ⟨x, hone q m x, hx⟩, fun _ => rfl, fun q m x _ _ hx => ⟨x, hone q m x, hx⟩, fun _ => rfl⟩

theorem run_one (c : Cycle) (f : OneCycle.Fit) (os : List OneCycle.Op) (s s' : St) (hu : Usable s.opts c.name) (h : run c f os s = .ok s') :
    Usable s'.opts c.name ∧ Only touched c.name s.opts s'.opts ∧
    (∀ q m x, c.lr = some q → q.mid = some m → getLr s.opts c.name = .ok (.num x) →
      ∃ y, OneCycle.run (cfg c q m) f os (one s x) = .ok (one s' y) ∧ getLr s'.opts c.name = .ok (.num y)) ∧
    (c.lr = none → getLr s'.opts c.name = getLr s.opts c.name) ∧
    (∀ q m x, c.mom = some q → q.mid = some m → getMom s.opts c.name = .ok (.num x) →
      ∃ y, OneCycle.run (cfg c q m) f os (one s x) = .ok (one s' y) ∧ getMom s'.opts c.name = .ok (.num y)) ∧
    (c.mom = none → getMom s'.opts c.name = getMom s.opts c.name) := by
  induction os generalizing s with
  | nil =>
    obtain rfl := Except.ok.inj h
    refine ⟨hu, ?_, fun q m x _ _ hx => ⟨x, rfl, hx⟩, fun _ => rfl, fun q m x _ _ hx => ⟨x, rfl, hx⟩, fun _ => rfl⟩
    obtain ⟨g, gs, hg, -⟩ := hu
    exact only_refl hg _
  | cons op os ih =>
    unfold run at h
    cases ha : apply c f s op with
    | error e => rw [ha] at h; simp at h
    | ok t =>
      rw [ha] at h
      obtain ⟨a1, a2, a3, a4, a5, a6⟩ := apply_one c f op s t hu ha
      obtain ⟨b1, b2, b3, b4, b5, b6⟩ := ih t a1 h
      refine ⟨b1, a2.trans b2, ?_, fun hn => (b4 hn).trans (a4 hn), ?_, fun hn => (b6 hn).trans (a6 hn)⟩
      · intro q m x hq hm hx
        obtain ⟨y, h1, h2⟩ := a3 q m x hq hm hx
        obtain ⟨z, h3, h4⟩ := b3 q m y hq hm h2
        exact ⟨z, by rw [OneCycle.run, h1]; exact h3, h4⟩
      · intro q m x hq hm hx
        obtain ⟨y, h1, h2⟩ := a5 q m x hq hm hx
        obtain ⟨z, h3, h4⟩ := b5 q m y hq hm h2
        exact ⟨z, by rw [OneCycle.run, h1]; exact h3, h4⟩

/-- **C93: schedules.** Through a whole fit, the learning rate and the momentum of the named optimiser go through the one-cycle schedule of C47, each with its own values
and independently of the other; a quantity whose initial value is not given is never touched. Nothing else of any optimiser changes. The callback may have been used before. -/
theorem schedule_both (c : Cycle) (f : OneCycle.Fit) (os : List OneCycle.Op) (s0 s1 s : St) (hu : Usable s0.opts c.name) (hb : trainBegin c s0 = .ok s1)
    (h : run c f os s1 = .ok s) :
    (∀ q m, c.lr = some q → q.mid = some m → ∃ t, OneCycle.run (cfg c q m) f os ⟨false, 0, s0.warming, s0.plan, q.init⟩ = .ok t ∧ getLr s.opts c.name = .ok (.num t.lr)) ∧
    (c.lr = none → getLr s.opts c.name = getLr s0.opts c.name) ∧
    (∀ q m, c.mom = some q → q.mid = some m → ∃ t, OneCycle.run (cfg c q m) f os ⟨false, 0, s0.warming, s0.plan, q.init⟩ = .ok t ∧ getMom s.opts c.name = .ok (.num t.lr)) ∧
    (c.mom = none → getMom s.opts c.name = getMom s0.opts c.name) ∧ Only touched c.name s0.opts s.opts := by
  obtain ⟨o', h1, h2, h3, h4, h5⟩ := writeBoth_spec s0.opts c.name hu (c.lr.map (·.init)) (c.mom.map (·.init))
  simp only [trainBegin, h1] at hb
  obtain rfl := Except.ok.inj hb
  obtain ⟨-, b2, b3, b4, b5, b6⟩ := run_one c f os _ s h2 h
  refine ⟨?_, ?_, ?_, ?_, h3.trans b2⟩
  · intro q m hq hm
    rw [hq] at h4
    obtain ⟨y, h6, h7⟩ := b3 q m q.init hq hm h4
    exact ⟨_, h6, h7⟩
  · intro hn
    rw [b4 hn]
    rw [hn] at h4
    exact h4
  · intro q m hq hm
    rw [hq] at h5
    obtain ⟨y, h6, h7⟩ := b5 q m q.init hq hm h5
    exact ⟨_, h6, h7⟩
  · intro hn
    rw [b6 hn]
    rw [hn] at h5
    exact h5

/-- **C93: range in any fit, also with a callback that was used before.** -/
theorem schedule_range (c : Cycle) (f : OneCycle.Fit) (os : List OneCycle.Op) (s0 s1 s : St) (hu : Usable s0.opts c.name) (hb : trainBegin c s0 = .ok s1)
    (h : run c f os s1 = .ok s) (q : Quant) (m : ℝ) (hq : c.lr = some q) (hm : q.mid = some m) :
    ∃ x, getLr s.opts c.name = .ok (.num x) ∧ min q.init (min m (q.final.getD q.init)) ≤ x ∧ x ≤ max q.init (max m (q.final.getD q.init)) := by
  obtain ⟨t, h1, h2⟩ := (schedule_both c f os s0 s1 s hu hb h).1 q m hq hm
  exact ⟨t.lr, h2, C47.range_from (cfg c q m) f os _ t ⟨min_le_left _ _, le_max_left _ _⟩ h1⟩

/-- **C93: wrong names fail before training.** `set_wrapper` raises for an optimiser that the wrapper does not have; otherwise starting the fit cannot fail. -/
theorem begin_ok (c : Cycle) (s : St) :
    (setWrapper c s.opts = .error .valueError ↔ s.opts.get? c.name = none) ∧ (Usable s.opts c.name → setWrapper c s.opts = .ok () ∧ ∃ s', trainBegin c s = .ok s') := by
  constructor
  · unfold setWrapper
    cases s.opts.get? c.name <;> simp
  · intro hu
    obtain ⟨o', h1, -⟩ := writeBoth_spec s.opts c.name hu (c.lr.map (·.init)) (c.mom.map (·.init))
    obtain ⟨g, gs, hg, -⟩ := hu
    exact ⟨by simp [setWrapper, hg], { s with active := false, iter := 0, opts := o' }, by simp only [trainBegin, h1]⟩

/-- **C93: a mid value must be given.** An initial learning rate without a mid value makes the first active update raise. -/
theorem no_mid_error (c : Cycle) (s : St) (q : Quant) (hq : c.lr = some q) (hm : q.mid = none) (ha : s.active = true) (n scale : ℤ) (hp : s.plan = some (n, scale)) (h0 : scale ≠ 0) :
    stepEnd c s = .error .typeError := by
  simp [stepEnd, ha, schedule, hp, h0, hq, getParam?, getParam, hm]

/-- Adam, with a schedule of both quantities -/
def adam : Opts := [("z_pos_opt", [⟨[1, 2], [("lr", .num 0.5), ("betas", .pair 0.9 0.999)]⟩]), ("xy_pos_opt", [⟨[3], [("lr", .num 2), ("betas", .pair 0.9 0.999)]⟩])]

example : Usable adam "z_pos_opt" := ⟨_, _, rfl, fun x => by simp [Dict.get?]⟩

example : ∃ s1 s, trainBegin ⟨"z_pos_opt", 1, some ⟨0.1, some 1, none⟩, some ⟨0.95, some 0.85, none⟩⟩ ⟨false, 7, true, some (3, 4), adam⟩ = .ok s1 ∧
    run ⟨"z_pos_opt", 1, some ⟨0.1, some 1, none⟩, some ⟨0.95, some 0.85, none⟩⟩ ⟨5, 1⟩ [.activate 1, .step] s1 = .ok s := ⟨_, _, rfl, rfl⟩

end C93

end

end Tomopt
