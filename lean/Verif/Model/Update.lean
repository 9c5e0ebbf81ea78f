import Verif.Model.DetCallbacks
import Verif.Model.Panel

/-
Model of one update of the detector in training, optimisation/wrapper/volume_wrapper.py 566-587: the callbacks see the end of the backward pass, the optimisers step
(unless skipped), the callbacks act on the detector after the step, and every layer is made to conform. Positions of panels are tensors in a store, because
`PanelCentring` gives the panels of a layer one tensor (see C49). Detector layers have panels, not heat maps.
-/
namespace Tomopt

noncomputable section

namespace Update

open DetCb

/-- layer.py 42-48: extent of a detector layer -/
structure Box where
  lw : ℝ × ℝ
  z : ℝ
  size : ℝ

/-- A panel: which layer it is in, where its position is stored, height and span (panel.py 72-95). Simplification: only positions are ever shared, so heights and spans
are values. -/
structure PRef where
  layer : Nat
  xy : Nat
  z : ℝ
  span : ℝ × ℝ

/-- The detector: layers, the store of positions, and the panels of all layers in the order in which `for det in volume.get_detectors(): for panel in det.panels` meets
them. -/
structure Det where
  boxes : List Box
  store : List (ℝ × ℝ)
  panels : List PRef

/-- the layer of a panel -/
def Det.box (d : Det) (p : PRef) : Box := d.boxes.getD p.layer ⟨(0, 0), 0, 0⟩

/-- the position at an address -/
def look (st : List (ℝ × ℝ)) (a : Nat) : ℝ × ℝ := st.getD a (0, 0)

/-- the parameters of a panel -/
def par (st : List (ℝ × ℝ)) (p : PRef) : Par := ⟨look st p.xy, p.z, p.span⟩

/-- the parameters of all panels: what `PanelUpdateLimiter.on_backwards_end` copies (detector_callbacks.py 93-100) -/
def Det.view (d : Det) : List Par := d.panels.map (par d.store)

/-- volume_wrapper.py 580-582 `o.step()`: panel `i` is moved by `δ i`, in place, one panel after another; `δ` is whatever the optimisers make of the gradients. -/
def Det.step (δ : Nat → Par) (d : Det) : Det :=
  { d with
    store := d.panels.zipIdx.foldl (fun st pi => st.modify pi.1.xy fun v => (v.1 + (δ pi.2).xy.1, v.2 + (δ pi.2).xy.2)) d.store
    panels := d.panels.zipIdx.map fun pi =>
      { pi.1 with z := pi.1.z + (δ pi.2).z, span := (pi.1.span.1 + (δ pi.2).span.1, pi.1.span.2 + (δ pi.2).span.2) } }

/-- detector_callbacks.py 112-132 for one panel: a limited position is a new tensor, at the end of the store. -/
def limOne (l : Limits) (st : List (ℝ × ℝ)) (old : Par) (p : PRef) : List (ℝ × ℝ) × PRef :=
  let q := limitPar l old (par st p)
  match l.xy with
  | none => (st, { p with z := q.z, span := q.span })
  | some _ => (st ++ [q.xy], { p with xy := st.length, z := q.z, span := q.span })

/-- 102-133 `on_step_end`; the parameters were recorded in the same update for the same panels, so the index is in range. -/
def limLoop (l : Limits) : List (ℝ × ℝ) → List Par → List PRef → List (ℝ × ℝ) × List PRef
  | st, o :: os, p :: ps =>
    let r := limOne l st o p
    let s := limLoop l r.1 os ps
    (s.1, r.2 :: s.2)
  | st, _, ps => (st, ps)

def Det.limit (l : Limits) (old : List Par) (d : Det) : Det :=
  let r := limLoop l d.store old d.panels
  { d with store := r.1, panels := r.2 }

/-- the positions of the panels of layer `k` -/
def Det.xys (d : Det) (k : Nat) : List (ℝ × ℝ) := (d.panels.filter fun p => p.layer == k).map fun p => look d.store p.xy

/-- detector_callbacks.py 145-159 `PanelCentring.on_step_end`: for every layer one new tensor with the mean position, which becomes the position of all its panels. -/
def Det.centre (d : Det) : Det :=
  { d with
    store := d.store ++ (List.range d.boxes.length).map fun k => meanXY (d.xys k)
    panels := d.panels.map fun p => { p with xy := d.store.length + p.layer } }

/-- the callbacks that act on panels after a step -/
inductive Cb where
  | limiter (l : Limits)
  | centring

/-- volume_wrapper.py 584-585: `on_step_end` of all callbacks, in the order in which they were given to `fit` -/
def runCbs (old : List Par) : List Cb → Det → Det
  | [], d => d
  | .limiter l :: cs, d => runCbs old cs (d.limit l old)
  | .centring :: cs, d => runCbs old cs d.centre

/-- panel.py 269-270 -/
def clampXY (b : Box) (v : ℝ × ℝ) : ℝ × ℝ := (clampR v.1 0 b.lw.1, clampR v.2 0 b.lw.2)

/-- layer.py 548-571 with panel.py 256-273, for all layers (586-587 of the wrapper); `eps i` is the random number drawn for panel `i`. Clamping is in place. -/
def Det.conform (eps : Nat → ℝ) (d : Det) : Det :=
  { d with
    store := d.panels.foldl (fun st p => st.modify p.xy (clampXY (d.box p))) d.store
    panels := d.panels.zipIdx.map fun pi =>
      { pi.1 with
        z := clampR pi.1.z ((d.box pi.1).z - (d.box pi.1).size + eps pi.2) ((d.box pi.1).z - eps pi.2)
        span := (clampR pi.1.span.1 ((d.box pi.1).lw.1 / 20) (10 * (d.box pi.1).lw.1), clampR pi.1.span.2 ((d.box pi.1).lw.2 / 20) (10 * (d.box pi.1).lw.2)) } }

/-- volume_wrapper.py 566-587: one update. `δ` is `none` if there is no loss or steps are skipped, as in warm-up: the callbacks and conforming happen all the same. -/
def Det.update (cbs : List Cb) (δ : Option (Nat → Par)) (eps : Nat → ℝ) (d : Det) : Det :=
  let stepped := match δ with
    | none => d
    | some δ => d.step δ
  (runCbs d.view cbs stepped).conform eps

/-- a training run: one entry per update -/
def Det.train (cbs : List Cb) : List (Option (Nat → Par) × (Nat → ℝ)) → Det → Det
  | [], d => d
  | u :: us, d => Det.train cbs us (d.update cbs u.1 u.2)

end Update

end

end Tomopt
