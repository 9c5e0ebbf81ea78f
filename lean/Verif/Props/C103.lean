import Verif.Model.Furnace
import Mathlib.Algebra.BigOperators.Group.List.Lemmas
import Mathlib.Algebra.Order.BigOperators.Group.List
import Mathlib.Tactic.Linarith
import Mathlib.Tactic.NormNum
import Mathlib.Tactic.FieldSimp
import Mathlib.Tactic.Ring

/- C103: the linear correction of predictions. -/
namespace Tomopt

noncomputable section
open LinCorr

namespace C103

variable {O : Type} (opt : O → Line → ℝ × ℝ → O × Line)

/-- What a user does with the callback: volumes with raw prediction and target, in training batches, in the incomplete last batch of a training epoch that has too few volumes,
in validation batches and in `predict`. `g` is what the backward pass of the detector loss leaves in the gradient of the line. -/
inductive Part
  | train (vols : List (ℝ × ℝ)) (g : ℝ × ℝ)
  | unfinished (vols : List (ℝ × ℝ))
  | valid (vols : List (ℝ × ℝ))
  | predict (vols : List (ℝ × ℝ))

def preds (m : Fit.Mode) (vols : List (ℝ × ℝ)) : List E := vols.map fun v => .predEnd m (some v.1) (some v.2)

/-- volume_wrapper.py 549-586: what the wrapper calls -/
def Part.events : Part → List E
  | .train vols g => [.batchBegin .train] ++ preds .train vols ++ [.back g, .backEnd]
  | .unfinished vols => [.batchBegin .train] ++ preds .train vols
  | .valid vols => [.batchBegin .valid] ++ preds .valid vols
  | .predict vols => preds .test vols

def Part.vols : Part → List (ℝ × ℝ)
  | .train vols _ | .unfinished vols | .valid vols | .predict vols => vols

/-- training batches have volumes -/
def Part.Ok : Part → Prop
  | .train vols _ => vols ≠ []
  | _ => True

/-- one step of the optimiser on the mean squared error of the line on these volumes -/
def descend (vols : List (ℝ × ℝ)) (p : O × Line) : O × Line := opt p.1 p.2 (mseGrad p.2 vols)

/-- 10000 steps of the optimiser on the mean squared error of the volumes of each training batch, batch after batch; nothing else changes the line -/
def fitted : List Part → O × Line → O × Line
  | [], p => p
  | .train vols _ :: ps, p => fitted ps ((descend opt vols)^[10000] p)
  | _ :: ps, p => fitted ps p

/-- the predictions handed on for each part: the raw ones on the line fitted to the training batches finished before -/
def handed : List Part → O × Line → List ℝ
  | [], _ => []
  | q :: ps, p => (q.vols.map fun v => p.2.w * v.1 + p.2.b) ++ handed ps (fitted opt [q] p)

theorem run_append (es fs : List E) (s : St O) : run opt (es ++ fs) s =
    match run opt es s with
    | .error x => .error x
    | .ok (o, s') => match run opt fs s' with
      | .error x => .error x
      | .ok (o', s'') => .ok (o ++ o', s'') := by
  induction es generalizing s with
  | nil => simp only [List.nil_append, run]; cases run opt fs s <;> rfl
  | cons e es ih =>
    simp only [List.cons_append, run]
    cases step opt e s with
    | error x => rfl
    | ok r =>
      simp only [ih]
      cases run opt es r.2 with
      | error x => rfl
      | ok r' =>
        simp only
        cases run opt fs r'.2 with
        | error x => rfl
        | ok r'' => simp

theorem run_train (vols : List (ℝ × ℝ)) (s : St O) (a b : List ℝ) (hs : s.seen = some (a, b)) :
    run opt (preds .train vols) s = .ok (vols.map fun v => s.line.w * v.1 + s.line.b, { s with seen := some (a ++ vols.map (·.1), b ++ vols.map (·.2)) }) := by
  induction vols generalizing s a b with
  | nil => simp [preds, run, ← hs]
  | cons v vols ih =>
    simp only [preds, List.map_cons, run, step, if_true, hs]
    have := ih { s with seen := some (a ++ [v.1], b ++ [v.2]) } _ _ rfl
    simp only [preds] at this
    rw [this]
    simp [Line.at]

theorem run_other (m : Fit.Mode) (hm : m ≠ .train) (vols : List (ℝ × ℝ)) (s : St O) :
    run opt (preds m vols) s = .ok (vols.map fun v => s.line.w * v.1 + s.line.b, s) := by
  induction vols with
  | nil => simp [preds, run]
  | cons v vols ih =>
    simp only [preds, List.map_cons, run, step, if_neg hm]
    simp only [preds] at ih
    rw [ih]
    simp [Line.at]

theorem zip_pairs (vols : List (ℝ × ℝ)) : (vols.map (·.1)).zip (vols.map (·.2)) = vols := by
  induction vols with
  | nil => rfl
  | cons v vols ih => simp [ih]

theorem pass_iter (vols : List (ℝ × ℝ)) (n : Nat) : ∀ s : St O,
    (((pass opt vols)^[n] s).opt, ((pass opt vols)^[n] s).line) = (descend opt vols)^[n] (s.opt, s.line) := by
  induction n with
  | zero => intro s; rfl
  | succ n ih =>
    intro s
    rw [Function.iterate_succ_apply, Function.iterate_succ_apply, ih]
    congr 1
    simp only [pass, descend, zero_add]

/-- one part -/
theorem run_part (q : Part) (hq : q.Ok) (s : St O) : ∃ s', run opt q.events s = .ok (q.vols.map fun v => s.line.w * v.1 + s.line.b, s') ∧
    (s'.opt, s'.line) = fitted opt [q] (s.opt, s.line) := by
  cases q with
  | train vols g =>
    simp only [Part.Ok] at hq
    simp only [Part.events, run_append, run, step, if_true, Option.toList, List.nil_append]
    rw [run_train opt vols _ [] [] rfl]
    simp only [List.nil_append, List.map_eq_nil_iff, hq, if_false, zip_pairs]
    refine ⟨_, by rw [List.append_nil]; rfl, ?_⟩
    rw [pass_iter]
    rfl
  | unfinished vols =>
    simp only [Part.events, run_append, run, step, if_true, Option.toList, List.nil_append]
    rw [run_train opt vols _ [] [] rfl]
    exact ⟨_, rfl, rfl⟩
  | valid vols =>
    simp only [Part.events, run_append, run, step, reduceCtorEq, if_false, Option.toList, List.nil_append]
    rw [run_other opt .valid (by decide)]
    exact ⟨_, rfl, rfl⟩
  | predict vols =>
    simp only [Part.events]
    rw [run_other opt .test (by decide)]
    exact ⟨_, rfl, rfl⟩

/-- **C103.** Through any history of training, validation and prediction, every prediction is handed on as the line's value at the raw prediction, where the line was
fitted to the raw predictions and true values of the training batches finished before, batch after batch, starting from the initial line: validation and prediction do not
change it, the batch a prediction belongs to has no influence on it, and neither has the gradient that the detector loss leaves in the line. -/
theorem history (ps : List Part) (hok : ∀ q ∈ ps, q.Ok) (s : St O) :
    ∃ s', run opt (ps.flatMap Part.events) s = .ok (handed opt ps (s.opt, s.line), s') ∧ (s'.opt, s'.line) = fitted opt ps (s.opt, s.line) := by
  induction ps generalizing s with
  | nil => exact ⟨s, rfl, rfl⟩
  | cons q ps ih =>
    obtain ⟨s1, h1, e1⟩ := run_part opt q (hok q (by simp)) s
    obtain ⟨s2, h2, e2⟩ := ih (fun r hr => hok r (by simp [hr])) s1
    refine ⟨s2, ?_, ?_⟩
    · rw [List.flatMap_cons, run_append, h1]
      simp only [h2]
      rw [handed, ← e1]
    · rw [e2, e1]
      cases q <;> rfl

/-- **C103: validation and prediction leave no trace**: after them the callback is exactly as before, including the record of a batch that is not finished. -/
theorem no_trace (vols : List (ℝ × ℝ)) (s : St O) :
    run opt (Part.valid vols).events s = .ok (vols.map fun v => s.line.w * v.1 + s.line.b, s) ∧
    run opt (Part.predict vols).events s = .ok (vols.map fun v => s.line.w * v.1 + s.line.b, s) := by
  constructor
  · simp only [Part.events, run_append, run, step, reduceCtorEq, if_false, Option.toList, List.nil_append]
    rw [run_other opt .valid (by decide)]
  · exact run_other opt .test (by decide) vols s

/-! ### Plain gradient descent -/

theorem sum_map_add (l : List (ℝ × ℝ)) (f g : ℝ × ℝ → ℝ) : (l.map fun p => f p + g p).sum = (l.map f).sum + (l.map g).sum := by
  induction l with
  | nil => simp
  | cons x l ih => simp only [List.map_cons, List.sum_cons, ih]; ring

theorem sum_map_mul (l : List (ℝ × ℝ)) (c : ℝ) (f : ℝ × ℝ → ℝ) : (l.map fun p => c * f p).sum = c * (l.map f).sum := by
  induction l with
  | nil => simp
  | cons x l ih => simp only [List.map_cons, List.sum_cons, ih]; ring

/-- the mean squared error along a direction -/
theorem mse_move (l : Line) (ps : List (ℝ × ℝ)) (u v : ℝ) :
    mse ⟨l.w + u, l.b + v⟩ ps = mse l ps + (u * (mseGrad l ps).1 + v * (mseGrad l ps).2) + (ps.map fun p => (u * p.1 + v) ^ 2).sum / ps.length := by
  unfold mse mseGrad
  have : (ps.map fun p => ((⟨l.w + u, l.b + v⟩ : Line).at p.1 - p.2) ^ 2).sum =
      (ps.map fun p => (l.at p.1 - p.2) ^ 2).sum + (u * (ps.map fun p => 2 * (l.at p.1 - p.2) * p.1).sum + v * (ps.map fun p => 2 * (l.at p.1 - p.2)).sum) +
        (ps.map fun p => (u * p.1 + v) ^ 2).sum := by
    rw [← sum_map_mul, ← sum_map_mul, ← sum_map_add, ← sum_map_add, ← sum_map_add]
    congr 1
    apply List.map_congr_left
    intro p _
    simp only [Line.at]
    ring
  rw [this]
  ring

/-- the curvature is bounded by one plus the mean square of the raw predictions -/
theorem curvature (ps : List (ℝ × ℝ)) (u v : ℝ) :
    (ps.map fun p => (u * p.1 + v) ^ 2).sum / ps.length ≤ (1 + (ps.map fun p => p.1 ^ 2).sum / ps.length) * (u ^ 2 + v ^ 2) := by
  cases ps with
  | nil => simp; positivity
  | cons p0 ps =>
    generalize hl : p0 :: ps = l
    have hpos : (0:ℝ) < l.length := by rw [← hl]; simp; positivity
    rw [div_le_iff₀ hpos]
    have hs : (l.map fun p => (u * p.1 + v) ^ 2).sum ≤ (l.map fun p => (1 + p.1 ^ 2) * (u ^ 2 + v ^ 2)).sum := by
      apply List.sum_le_sum
      intro p _
      nlinarith [sq_nonneg (u - v * p.1)]
    have he : (l.map fun p => (1 + p.1 ^ 2) * (u ^ 2 + v ^ 2)).sum = ((l.length : ℝ) + (l.map fun p => p.1 ^ 2).sum) * (u ^ 2 + v ^ 2) := by
      clear hl hpos hs
      induction l with
      | nil => simp
      | cons x l ih => simp only [List.map_cons, List.sum_cons, ih, List.length_cons]; push_cast; ring
    rw [he] at hs
    refine hs.trans (le_of_eq ?_)
    field_simp

/-- With plain gradient descent whose rate is at most the inverse of one plus the mean square of the raw predictions of the batch, the line never fits the batch worse after
the callback than before. -/
theorem no_worse (lr : ℝ) (h0 : 0 ≤ lr) (vols : List (ℝ × ℝ)) (h1 : lr * (1 + (vols.map fun v => v.1 ^ 2).sum / vols.length) ≤ 1) (l : Line) (g : ℝ × ℝ) :
    mse (fitted (sgd lr) [.train vols g] ((), l)).2 vols ≤ mse l vols := by
  simp only [fitted]
  generalize 10000 = n
  induction n generalizing l with
  | zero => exact le_refl _
  | succ n ih =>
    rw [Function.iterate_succ_apply]
    have hstep : mse (descend (sgd lr) vols ((), l)).2 vols ≤ mse l vols := by
      simp only [descend, sgd]
      have := mse_move l vols (-(lr * (mseGrad l vols).1)) (-(lr * (mseGrad l vols).2))
      simp only [← sub_eq_add_neg] at this
      rw [this]
      have hc := curvature vols (-(lr * (mseGrad l vols).1)) (-(lr * (mseGrad l vols).2))
      generalize (mseGrad l vols).1 = a at *
      generalize (mseGrad l vols).2 = b at *
      simp only [← sub_eq_add_neg] at hc
      generalize (vols.map fun v => v.1 ^ 2).sum / (vols.length : ℝ) = m at *
      have hk : (1 + m) * ((-(lr * a)) ^ 2 + (-(lr * b)) ^ 2) = (lr * (1 + m)) * (lr * (a ^ 2 + b ^ 2)) := by ring
      rw [hk] at hc
      have hn : 0 ≤ lr * (a ^ 2 + b ^ 2) := by positivity
      have : (lr * (1 + m)) * (lr * (a ^ 2 + b ^ 2)) ≤ 1 * (lr * (a ^ 2 + b ^ 2)) := mul_le_mul_of_nonneg_right h1 hn
      have hcomb : -(lr * a) * a + -(lr * b) * b = -(lr * (a ^ 2 + b ^ 2)) := by ring
      linarith
    exact (ih _).trans hstep

/-- A volume that could not be scanned makes the callback raise, in training as well as in validation and prediction, instead of being left out. -/
theorem unscanned_violated (m : Fit.Mode) (targ : Option ℝ) (s : St O) (es : List E) : ∃ e, run opt (.predEnd m none targ :: es) s = .error e := by
  simp only [run, step]
  by_cases h : m = .train
  · rw [if_pos h]
    refine ⟨.attributeError, ?_⟩
    cases s.seen <;> rfl
  · rw [if_neg h]; exact ⟨_, rfl⟩

/-! ### Two epochs -/

/-- a batch on the line through the origin is corrected by the initial line, and leaves it as it is; a validation volume is corrected in the same way -/
example : ∃ s', run (sgd 0.1) ([Part.train [(1, 1), (2, 2)] (5, 7), .valid [(3, 9)], .unfinished [(4, 0)], .predict [(5, 0)]].flatMap Part.events) ⟨⟨1, 0⟩, (0, 0), (), none⟩ =
    .ok ([1, 2, 3, 4, 5], s') := by
  obtain ⟨s', h, _⟩ := history (sgd 0.1) [Part.train [(1, 1), (2, 2)] (5, 7), .valid [(3, 9)], .unfinished [(4, 0)], .predict [(5, 0)]]
    (by simp [Part.Ok]) ⟨⟨1, 0⟩, (0, 0), (), none⟩
  refine ⟨s', ?_⟩
  rw [h]
  have hfix : ∀ n, (descend (sgd 0.1) [(1, 1), (2, 2)])^[n] ((), ⟨1, 0⟩) = ((), ⟨1, 0⟩) := by
    intro n
    apply Function.iterate_fixed
    simp [descend, sgd, mseGrad, Line.at]
  simp only [handed, fitted, hfix, Part.vols]
  norm_num

/-- the bound on the rate -/
example : (0.1 : ℝ) * (1 + (([(1, 2), (2, 5)] : List (ℝ × ℝ)).map fun v => v.1 ^ 2).sum / ([(1, 2), (2, 5)] : List (ℝ × ℝ)).length) ≤ 1 := by
  simp; norm_num

end C103

end

end Tomopt
