import Verif.Lemmas.SaveLoad

/- C44: saving and loading. -/
namespace Tomopt

namespace C44

open SaveLoad

variable {Pm Sc Os : Type}

/-- the test for names of optimisers -/
theorem isOpt_iff (k : String) : isOpt k = true ↔ "_opt".toList <:+: k.toList := by
  have e : "_opt".toList = ['_', 'o', 'p', 't'] := rfl
  rw [e]
  unfold isOpt
  generalize k.toList = l
  induction l with
  | nil => simp [occurs]
  | cons c l ih =>
    rw [occurs, Bool.or_eq_true, List.infix_cons_iff]
    exact or_congr List.isPrefixOf_iff_prefix ih

open Classical in
/-- **C44, what holds.** Saved with optimisers of any different names, except `volume`, and loaded into a wrapper that has optimisers of all those names that contain `_opt`: the parameters are restored, and so are
the states of exactly these optimisers (all those of `PanelVolumeWrapper` and `HeatMapVolumeWrapper` have such names). Missing: other names, and the scales of the panels. -/
theorem roundtrip_partial (assign : Pm → Sc) (w v : Wrap Pm Sc Os) (hnd : (w.opts.map (·.1)).Nodup) (hvol : w.opts.get? "volume" = none)
    (hsame : ∀ k, "_opt".toList <:+: k.toList → (w.opts.get? k).isSome → (v.opts.get? k).isSome) :
    ∃ v', load assign (save w) v = (.ok (), v') ∧ v'.params = w.params ∧
      ∀ k, v'.opts.get? k = if "_opt".toList <:+: k.toList ∧ (w.opts.get? k).isSome then w.opts.get? k else v.opts.get? k := by
  have hgv : (save w).get? "volume" = some (.vol w.params) := by
    unfold save
    rw [saved_get _ hnd, hvol]
    rfl
  have main : ∀ v0 : Wrap Pm Sc Os, v0.opts = v.opts → v0.params = w.params → ∃ v', loadOpts (save w) v0 = (.ok (), v') ∧ v'.params = w.params ∧
      ∀ k, v'.opts.get? k = if "_opt".toList <:+: k.toList ∧ (w.opts.get? k).isSome then w.opts.get? k else v.opts.get? k := by
    intro v0 e0 p0
    obtain ⟨v', h1, h2, -, h4⟩ := loadOpts_spec (save w) (saved_nodup _ _ (by simp)) v0 (by
      intro k b hb hk
      rcases saved_mem _ _ _ _ hb with h | ⟨s, h, rfl⟩
      · simp only [List.mem_singleton, Prod.mk.injEq] at h
        rw [h.1] at hk
        exact absurd hk (by decide)
      · refine ⟨⟨s, rfl⟩, ?_⟩
        rw [e0]
        refine hsame k ((isOpt_iff k).mp hk) ?_
        rw [get?_of_mem _ hnd _ _ h]
        rfl)
    refine ⟨v', h1, by rw [h2, p0], fun k => ?_⟩
    rw [h4 k, e0]
    have hs : (save w).get? k = match w.opts.get? k with
      | some s => some (.opt s)
      | none => Dict.get? [("volume", .vol w.params)] k := saved_get _ hnd _ k
    rw [hs]
    by_cases ho : isOpt k = true
    · rw [if_pos ho]
      cases hk : w.opts.get? k with
      | some s => rw [if_pos ⟨(isOpt_iff k).mp ho, rfl⟩]
      | none =>
        rw [if_neg (by simp)]
        by_cases hv' : "volume" = k <;> simp [Dict.get?, hv']
    · rw [if_neg ho, if_neg (fun h => ho ((isOpt_iff k).mpr h.1))]
  unfold load
  rw [hgv]
  simp only
  split
  · exact main _ rfl rfl
  · exact main _ rfl rfl

/-- After the next pass of muons the panels are scaled by the restored weights. -/
theorem scale_after_forward (assign : Pm → Sc) (w : Wrap Pm Sc Os) : (forward assign w).scale = assign w.params := rfl

/-- **C44 (violated): budget.** Loading does not apply the restored budget weights to the panels: the test for them looks in the wrong place. Here the
parameter is the weight and the scale its double. -/
theorem scale_violated : ∃ v', load (fun p : Nat => 2 * p) (save (⟨5, 10, [("xy_pos_opt", ())]⟩ : Wrap Nat Nat Unit)) ⟨1, 2, [("xy_pos_opt", ())]⟩ = (.ok (), v') ∧
    v'.params = 5 ∧ v'.scale = 2 := ⟨⟨5, 2, [("xy_pos_opt", ())]⟩, rfl, rfl, rfl⟩

/-- **C44 (violated): names.** An optimiser with a name that does not contain `_opt` is saved but not restored. -/
theorem name_violated : ∃ v', load (fun p : Nat => 2 * p) (save (⟨5, 10, [("adam", 7)]⟩ : Wrap Nat Nat Nat)) ⟨1, 2, [("adam", 0)]⟩ = (.ok (), v') ∧
    v'.opts = [("adam", 0)] := ⟨⟨5, 2, [("adam", 0)]⟩, rfl, rfl⟩

/-- **C44 (violated): clash.** An optimiser called `volume` overwrites the saved volume: the file cannot be loaded. -/
theorem clash_violated (w v : Wrap Pm Sc Os) (assign : Pm → Sc) (s : Os) (h : w.opts = [("volume", s)]) :
    (load assign (save w) v).1 = .error .runtimeError := by
  unfold load save
  rw [h]
  rfl

/-- A file with an optimiser the wrapper does not have raises, after the volume has been overwritten. -/
theorem missing_error : load (fun p : Nat => 2 * p) (save (⟨5, 10, [("budget_opt", 7)]⟩ : Wrap Nat Nat Nat)) ⟨1, 2, []⟩ = (.error .keyError, ⟨5, 2, []⟩) := rfl

example : ∃ v', load (fun p : Nat => 2 * p) (save (⟨5, 10, [("xy_pos_opt", 1), ("z_pos_opt", 2), ("xy_span_opt", 3), ("budget_opt", 4)]⟩ : Wrap Nat Nat Nat))
    ⟨0, 0, [("xy_pos_opt", 0), ("z_pos_opt", 0), ("xy_span_opt", 0), ("budget_opt", 0)]⟩ = (.ok (), v') ∧ v'.params = 5 ∧ v'.opts.get? "z_pos_opt" = some 2 :=
  ⟨_, rfl, rfl, rfl⟩

/-- An optimiser called `adopt` is left alone, beside one that is restored. -/
example : ∃ v', load (fun p : Nat => 2 * p) (save (⟨5, 10, [("xy_pos_opt", 1), ("adopt", 2)]⟩ : Wrap Nat Nat Nat)) ⟨0, 0, [("xy_pos_opt", 0), ("adopt", 0)]⟩ = (.ok (), v') ∧
    v'.opts.get? "xy_pos_opt" = some 1 ∧ v'.opts.get? "adopt" = some 0 :=
  ⟨_, rfl, rfl, rfl⟩

end C44

end Tomopt
