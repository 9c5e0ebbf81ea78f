import Verif.Model.Basic
import Mathlib.Data.Real.Basic

/-
Model of tomopt/optimisation/wrapper/volume_wrapper.py: the fitting and prediction loops of `AbsVolumeWrapper`.

The loops are written as programs over a state that survives exceptions, exactly as Python's mutations do. Everything the loops call (callbacks, volume,
inferrers, loss, optimisers) is an arbitrary environment: each call may change the rest of the world in any way and may raise. Every call is recorded in a
log when it starts, so that a log up to an exception is also available.

Simplifications: callbacks may set `stop`, `skip_opt_step` and `pred` of `fit_params` and anything outside of it, but not the other fields of `fit_params`
nor the lists being iterated over (of the library only the research benchmark `SpreadRangeLoss` does,
which replaces `mean_loss` at the end of a batch); progress bars and CUDA cache calls are left out; losses are exact real numbers.
-/
namespace Tomopt

noncomputable section

namespace Fit

/-- The interjection points of callbacks (callback.py 100-231), in order of definition. -/
inductive Ev
  | setWrapper | trainBegin | epochBegin | volBatchBegin | volBegin | muBegin | scatterEnd | muEnd | x0PredBegin | x0PredEnd | volEnd | volBatchEnd
  | backBegin | backEnd | stepEnd | epochEnd | trainEnd | predBegin | predEnd
deriving DecidableEq, Repr

/-- `fit_params.state` -/
inductive Mode
  | train | valid | test
deriving DecidableEq, Repr

/-- The calls made by the loops. `havePred` is not a call: it records whether a prediction was available when the loss was due. -/
inductive Act (V : Type)
  | cb (i : Nat) (e : Ev)
  | volMode (train : Bool)
  | load (v : V)
  | newInferrer | makeMuons | irradiate | inferScatter | addScatters | predict
  | havePred (b : Bool)
  | loss (x : ℝ)
  | zeroGrad
  | backward (x : ℝ)
  | step
  | conform

/-- volume_wrapper.py 56-98 `FitParams`, the fields used by the loops. `P` is the type of predictions. -/
structure FP (P : Type) where
  mode : Mode
  epoch : Nat
  volumeId : Option Nat
  pred : Option P
  lossVal : Option ℝ
  meanLoss : Option ℝ
  stop : Bool
  skip : Bool

/-- The fields of `fit_params` that callbacks read and that only the loops write. -/
structure View where
  mode : Mode
  epoch : Nat
  lossVal : Option ℝ
  meanLoss : Option ℝ

def viewOf {P : Type} (f : FP P) : View := ⟨f.mode, f.epoch, f.lossVal, f.meanLoss⟩

/-- What a callback may write in `fit_params`. -/
structure CbOut (P : Type) where
  pred : Option P
  stop : Bool
  skip : Bool

/-- The rest of the world: `W` is its state, `V` the type of passive volumes with targets. -/
structure Env (W V P : Type) where
  cb : Nat → Ev → FP P → W → Except Err Unit × CbOut P × W
  prim : Act V → FP P → W → Except Err Unit × W
  pred : FP P → W → Except Err (Option P) × W
  loss : P → W → Except Err ℝ × W
  /-- is `loss_func` given -/
  hasLoss : Bool

/-- Arguments of `fit`/`predict` that stay fixed: number of callbacks, `passive_bs`, `n_mu_per_volume`, `mu_bs`. -/
structure Conf where
  nCb : Nat
  bs : Nat
  nMu : Nat
  muBs : Nat

structure S (W V P : Type) where
  fp : FP P
  w : W
  log : List (Act V)

variable {W V P : Type}

/-- A piece of Python code: ends normally or raises, in either case with a state. -/
abbrev Prog (W V P : Type) := S W V P → Except Err Unit × S W V P

/-- do nothing -/
def nop : Prog W V P := fun s => (.ok (), s)

/-- `raise` -/
def raise (e : Err) : Prog W V P := fun s => (.error e, s)

/-- one statement after another -/
def seq (m k : Prog W V P) : Prog W V P := fun s =>
  match m s with
  | (.ok (), s') => k s'
  | (.error e, s') => (.error e, s')

@[inherit_doc] infixr:60 " ;; " => seq

/-- a `for` loop -/
def each {α : Type} : List α → (α → Prog W V P) → Prog W V P
  | [], _ => nop
  | a :: l, f => f a ;; each l f

/-- assignment to fields of `fit_params` -/
def setFp (f : FP P → FP P) : Prog W V P := fun s => (.ok (), { s with fp := f s.fp })

/-- note a call in the log -/
def note (a : Act V) : Prog W V P := fun s => (.ok (), { s with log := s.log ++ [a] })

variable (E : Env W V P) (c : Conf)

/-- call an interjection of callback `i` -/
def callCb (i : Nat) (e : Ev) : Prog W V P := note (.cb i e) ;; fun s =>
  let r := E.cb i e s.fp s.w
  (r.1, { s with fp := { s.fp with pred := r.2.1.pred, stop := r.2.1.stop, skip := r.2.1.skip }, w := r.2.2 })

/-- `for c in self.fit_params.cbs: c.on_…()` -/
def cbs (e : Ev) : Prog W V P := each (List.range c.nCb) fun i => callCb E i e

/-- any other call whose result is not used by the loops -/
def call (a : Act V) : Prog W V P := note a ;; fun s =>
  let r := E.prim a s.fp s.w
  (r.1, { s with w := r.2 })

/-- 618-622: `self.fit_params.pred = self.fit_params.volume_inferrer.get_prediction()` -/
def getPred : Prog W V P := note .predict ;; fun s =>
  match E.pred s.fp s.w with
  | (.ok p, w) => (.ok (), { s with fp := { s.fp with pred := p }, w := w })
  | (.error e, w) => (.error e, { s with w := w })

/-- 624-630: compute the loss of the volume and add it to the loss of the batch. The log notes the value. -/
def addLoss : Prog W V P := fun s =>
  (note (.havePred s.fp.pred.isSome) ;;
    (if s.fp.mode ≠ .test ∧ E.hasLoss = true then
      match s.fp.pred with
      | none => nop
      | some p => fun s =>
        match E.loss p s.w with
        | (.error e, w) => (.error e, { s with w := w })
        | (.ok x, w) =>
          let total := match s.fp.lossVal with
            | none => x
            | some y => y + x
          (.ok (), { s with fp := { s.fp with lossVal := some total }, w := w, log := s.log ++ [.loss x] })
    else nop)) s

/-- 605-616: one batch of muons -/
def muBatch : Prog W V P :=
  call E .makeMuons ;; cbs E c .muBegin ;; call E .irradiate ;; call E .inferScatter ;; cbs E c .scatterEnd ;; call E .addScatters ;; cbs E c .muEnd

/-- 592-630 `_scan_volume` -/
def scanVolume : Prog W V P :=
  setFp (fun f => { f with pred := none }) ;;
  (if c.muBs = 0 then raise .zeroDivision else nop) ;;
  call E .newInferrer ;;
  each (List.range (c.nMu / c.muBs)) (fun _ => muBatch E c) ;;
  cbs E c .x0PredBegin ;; getPred E ;; cbs E c .x0PredEnd ;; addLoss E

/-- 568-574: `mean_loss` of the batch -/
def setMean : Prog W V P := setFp fun f => { f with meanLoss := f.lossVal.map (· / c.bs) }

/-- 576-588: the update of the detector -/
def update : Prog W V P :=
  call E .zeroGrad ;; cbs E c .backBegin ;;
  (fun s => (match s.fp.meanLoss with
    | some x => call E (.backward x)
    | none => nop) s) ;;
  cbs E c .backEnd ;;
  (fun s => (if s.fp.meanLoss.isSome ∧ s.fp.skip = false then call E .step else nop) s) ;;
  cbs E c .stepEnd ;; call E .conform

/-- 566-590: end of a batch of volumes -/
def batchEnd : Prog W V P :=
  setMean c ;; cbs E c .volBatchEnd ;; fun s => (if s.fp.mode = .train then update E c else nop) s

/-- 551-555: start of a batch of volumes (`i % 0` raises) -/
def batchBegin (i : Nat) : Prog W V P := fun s =>
  (if s.fp.mode = .test then nop
  else if c.bs = 0 then raise .zeroDivision
  else if i % c.bs = 0 then setFp (fun f => { f with lossVal := none }) ;; cbs E c .volBatchBegin
  else nop) s

/-- 557-563 -/
def oneVolume (v : V) : Prog W V P := call E (.load v) ;; cbs E c .volBegin ;; scanVolume E c ;; cbs E c .volEnd

/-- 539-590 `_scan_volumes`, from the `i`-th volume on; `len` is `len(passives)`, the list is what iterating over `passives` yields. -/
def scanFrom (len : Nat) : Nat → List V → Prog W V P
  | _, [] => nop
  | i, v :: vs =>
    setFp (fun f => { f with volumeId := some i }) ;;
    batchBegin E c i ;;
    oneVolume E c v ;;
    fun s =>
      (if s.fp.mode ≠ .test ∧ (i + 1) % c.bs = 0 then
        batchEnd E c ;; if len < c.bs + (i + 1) then nop else scanFrom len (i + 1) vs
      else scanFrom len (i + 1) vs) s

/-- passive volumes as offered by a yielder: the volumes it yields and the length it reports -/
structure Passives (V : Type) where
  vols : List V
  len : Nat

def scanVolumes (ps : Passives V) : Prog W V P := scanFrom E c ps.len 0 ps.vols

/-- 520-525 `run_epoch` -/
def runEpoch (ps : Passives V) : Prog W V P := cbs E c .epochBegin ;; scanVolumes E c ps ;; cbs E c .epochEnd

/-- 513-537 `_fit_epoch` -/
def fitEpoch (trn : Passives V) (val : Option (Passives V)) : Prog W V P :=
  setFp (fun f => { f with epoch := f.epoch + 1 }) ;;
  call E (.volMode true) ;; setFp (fun f => { f with mode := .train }) ;; runEpoch E c trn ;;
  match val with
  | none => nop
  | some val => call E (.volMode false) ;; setFp (fun f => { f with mode := .valid }) ;; runEpoch E c val

/-- 363-366: the loop over epochs, with early stopping -/
def epochs (trn : Passives V) (val : Option (Passives V)) : Nat → Prog W V P
  | 0 => nop
  | n + 1 => fitEpoch E c trn val ;; fun s => (if s.fp.stop then nop else epochs trn val n) s

/-- 357-368: the body of `fit` -/
def fitBody (nEpochs : Nat) (trn : Passives V) (val : Option (Passives V)) : Prog W V P :=
  cbs E c .setWrapper ;; cbs E c .trainBegin ;; epochs E c trn val nEpochs ;; cbs E c .trainEnd

/-- 411-420: the body of `predict` -/
def predictBody (ps : Passives V) : Prog W V P :=
  cbs E c .setWrapper ;; call E (.volMode false) ;; cbs E c .predBegin ;; scanVolumes E c ps ;; cbs E c .predEnd

/-- What can be seen from outside: the wrapper's `fit_params`, the caller's list of callbacks and whether the caller's yielder shuffles. -/
structure Outer (W V P C : Type) where
  fp : Option (FP P)
  w : W
  log : List (Act V)
  cbList : List C
  shuffle : Bool

/-- `FitParams(…)` as made by `fit` (339-354) and `predict` (401-409) -/
def initFp (mode : Mode) : FP P := ⟨mode, 0, none, none, none, none, false, false⟩

/-- 307-372 `fit`. `mkdir` creates the directory for callbacks (355), outside of the `try`. The `state` is None until the first epoch; the model starts with
`train`, which is what it becomes before anybody but the callbacks' `on_train_begin` can look at it. -/
def fit {C : Type} (mkdir : W → Except Err Unit × W) (nEpochs : Nat) (trn : Passives V) (val : Option (Passives V)) (o : Outer W V P C) :
    Except Err Unit × Outer W V P C :=
  let fp : FP P := initFp .train
  match mkdir o.w with
  | (.error e, w) => (.error e, { o with fp := some fp, w := w })
  | (.ok (), w) =>
    let r := fitBody E { c with nCb := o.cbList.length } nEpochs trn val ⟨fp, w, o.log⟩
    (r.1, { o with fp := none, w := r.2.w, log := r.2.log })

/-- 374-426 `predict`: the prediction callback is appended to the caller's list and removed again; the yielder's `shuffle` is switched off.
`getPreds` reads the predictions from the callback afterwards. -/
def predict {C R : Type} (predCb : C) (getPreds : W → Except Err R) (ps : Passives V) (o : Outer W V P C) : Except Err R × Outer W V P C :=
  let cbList := o.cbList ++ [predCb]
  let r := predictBody E { c with nCb := cbList.length } ps ⟨initFp .test, o.w, o.log⟩
  let o' : Outer W V P C := { fp := none, w := r.2.w, log := r.2.log, cbList := cbList.dropLast, shuffle := false }
  match r.1 with
  | .error e => (.error e, o')
  | .ok () => (getPreds r.2.w, o')

end Fit

end

end Tomopt
