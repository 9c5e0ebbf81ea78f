import Verif.Lemmas.Observe
import Verif.Lemmas.WrapperScan

/- Replaying the specified traces. -/
namespace Tomopt

noncomputable section

namespace Fit

variable {V σ : Type} {k : Nat} {f : Ev → View → σ → σ}

/-- events of a muon batch and a volume that the callback does not react to -/
structure Calm (f : Ev → View → σ → σ) : Prop where
  volBegin : ∀ v x, f .volBegin v x = x
  muBegin : ∀ v x, f .muBegin v x = x
  scatterEnd : ∀ v x, f .scatterEnd v x = x
  muEnd : ∀ v x, f .muEnd v x = x
  x0PredBegin : ∀ v x, f .x0PredBegin v x = x
  x0PredEnd : ∀ v x, f .x0PredEnd v x = x
  volEnd : ∀ v x, f .volEnd v x = x

theorem replay_mu (bs n : Nat) (hk : k < n) (hf : Calm f) (r : View × σ) : (Spec.mu n : List (Act V)).foldl (feed bs k f) r = r := by
  unfold Spec.mu
  simp only [List.foldl_append, List.foldl_cons, List.foldl_nil, feed, feed_evs bs f n hk, pre, hf.muBegin, hf.scatterEnd, hf.muEnd]

theorem replay_mus (bs n : Nat) (hk : k < n) (hf : Calm f) (m : Nat) (r : View × σ) :
    (List.replicate m (Spec.mu n : List (Act V))).flatten.foldl (feed bs k f) r = r := by
  induction m generalizing r with
  | zero => rfl
  | succ m ih => rw [List.replicate_succ, List.flatten_cons, List.foldl_append, replay_mu bs n hk hf, ih]

theorem replay_vol (bs : Nat) (p : Spec.Scan) (hk : k < p.n) (hf : Calm f) (x : V × Spec.Out) (r : View × σ) :
    (Spec.vol p x).foldl (feed bs k f) r = ({ r.1 with lossVal := plus r.1.lossVal (Spec.lossOf p.counted x.2) }, r.2) := by
  unfold Spec.vol
  simp only [List.foldl_append, List.foldl_cons, List.foldl_nil, feed, feed_evs bs f p.n hk, pre, hf.volBegin, hf.x0PredBegin, hf.x0PredEnd, hf.volEnd,
    replay_mus bs p.n hk hf]
  cases h : Spec.lossOf p.counted x.2 with
  | none => simp [plus]
  | some y =>
    simp only [Option.toList_some, List.map_cons, List.map_nil, List.foldl_cons, List.foldl_nil, feed]
    cases r.1.lossVal <;> rfl

theorem replay_vols (bs : Nat) (p : Spec.Scan) (hk : k < p.n) (hf : Calm f) (xs : List (V × Spec.Out)) (r : View × σ) :
    (xs.flatMap (Spec.vol p)).foldl (feed bs k f) r = ({ r.1 with lossVal := (xs.map fun x => Spec.lossOf p.counted x.2).foldl plus r.1.lossVal }, r.2) := by
  induction xs generalizing r with
  | nil => rfl
  | cons x xs ih => rw [List.flatMap_cons, List.foldl_append, replay_vol bs p hk hf, ih]; rfl

/-- the view after a complete batch -/
def after (p : Spec.Scan) (xs : List (V × Spec.Out)) (v : View) : View :=
  { v with lossVal := total (xs.map fun x => Spec.lossOf p.counted x.2), meanLoss := Spec.batchLoss p.b (xs.map fun x => Spec.lossOf p.counted x.2) }

theorem replay_update (bs n : Nat) (hk : k < n) (m : Option ℝ) (skip : Bool) (r : View × σ) :
    (Spec.update n m skip : List (Act V)).foldl (feed bs k f) r = (r.1, f .stepEnd r.1 (f .backEnd r.1 (f .backBegin r.1 r.2))) := by
  have h1 : ∀ r : View × σ, (m.toList.map Act.backward : List (Act V)).foldl (feed bs k f) r = r := by
    intro r
    cases m <;> rfl
  have h2 : ∀ r : View × σ, (if m.isSome = true ∧ skip = false then [.step] else [] : List (Act V)).foldl (feed bs k f) r = r := by
    intro r
    split <;> rfl
  unfold Spec.update
  simp only [List.foldl_append, List.foldl_cons, List.foldl_nil, feed, feed_evs bs f n hk, pre, h1, h2]

theorem replay_batch (p : Spec.Scan) (hk : k < p.n) (hf : Calm f) (xs : List (V × Spec.Out)) (skip : Bool) (r : View × σ) :
    (Spec.batch p xs skip).foldl (feed p.b k f) r =
      (after p xs r.1, let y := f .volBatchEnd (after p xs r.1) (f .volBatchBegin { r.1 with lossVal := none } r.2)
        if p.train then f .stepEnd (after p xs r.1) (f .backEnd (after p xs r.1) (f .backBegin (after p xs r.1) y)) else y) := by
  unfold Spec.batch
  simp only [List.foldl_append, feed_evs p.b f p.n hk, pre, replay_vols p.b p hk hf]
  have ha : View.mk r.1.mode r.1.epoch ((xs.map fun x => Spec.lossOf p.counted x.2).foldl plus none)
      (((xs.map fun x => Spec.lossOf p.counted x.2).foldl plus none).map (· / (p.b : ℝ))) = after p xs r.1 := by
    unfold after
    rw [← total_eq]
    rfl
  simp only [ha]
  cases hp : p.train with
  | true =>
    simp only [if_true]
    rw [replay_update p.b p.n hk]
  | false => simp

end Fit

end

end Tomopt
