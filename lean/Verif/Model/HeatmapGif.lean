import Verif.Model.EpochSave

/-
Model of callbacks/heatmap_gif.py: the callback that records pictures of the first heat map of the first detector layer and joins them at the end of a fit.
-/
namespace Tomopt

noncomputable section

namespace Gif

open Fit EpochSave

variable {W V P D Img : Type}

/-- heatmap_gif.py 62: the name of the `i`-th temporary picture -/
def temp (folder : String) (i : Nat) : String := folder ++ "/temp_heatmap_" ++ toString i ++ ".png"

/-- A detector layer as the callback sees it: is it a panel layer with heat maps, and pictures of its panels. -/
structure Lay (Img : Type) where
  heat : Bool
  panels : List Img

/-- heatmap_gif.py 64-71: the picture that is saved, if any: no detector layer, or one without panels, gives none; a layer of another kind raises. -/
def picture : List (Lay Img) → Except Err (Option Img)
  | [] => .ok none
  | l :: _ => if l.heat then .ok l.panels.head? else .error .notImplemented

/-- What the callback works on: `_buffer_files`, the temporary pictures in the folder, and the file with the animation. -/
structure St (Img : Type) where
  buffer : List String
  files : Files Img
  gif : Option (List Img)

/-- heatmap_gif.py 57-71 `_plot_current`: the name is noted before the picture is made -/
def plotCurrent (folder : String) (d : List (Lay Img)) (s : St Img) : Except Err Unit × St Img :=
  let name := temp folder s.buffer.length
  let s := { s with buffer := s.buffer ++ [name] }
  match picture d with
  | .error e => (.error e, s)
  | .ok none => (.ok (), s)
  | .ok (some i) => (.ok (), { s with files := write s.files name i })

/-- heatmap_gif.py 85-88: read the pictures one by one; a missing file raises FileNotFoundError (here `runtimeError`) -/
def readAll (fs : Files Img) : List String → Except Err (List Img)
  | [] => .ok []
  | p :: ps =>
    match fs p with
    | none => .error .runtimeError
    | some i =>
      match readAll fs ps with
      | .error e => .error e
      | .ok is => .ok (i :: is)

/-- `os.remove` -/
def remove (fs : Files Img) (p : String) : Files Img := fun q => if q = p then none else fs q

/-- heatmap_gif.py 80-91 `_create_gif`. (If a picture is missing, an animation of those before it is left; here the animation is left as it was. All names in the
buffer have been read when they are removed.) -/
def createGif (s : St Img) : Except Err Unit × St Img :=
  match readAll s.files s.buffer with
  | .error e => (.error e, s)
  | .ok is => (.ok (), { s with gif := some is, files := s.buffer.foldl remove s.files })

/-- heatmap_gif.py 32-55: the interjections -/
def act (folder : String) (e : Ev) (m : Mode) (d : List (Lay Img)) (s : St Img) : Except Err Unit × St Img :=
  match e with
  | .trainBegin => (.ok (), { s with buffer := [] })
  | .epochBegin => if m = .train then plotCurrent folder d s else (.ok (), s)
  | .trainEnd =>
    match plotCurrent folder d s with
    | (.error e, s) => (.error e, s)
    | (.ok (), s) => createGif s
  | _ => (.ok (), s)

/-- Callback number `k` of environment `E` records animations in `folder`; `st` is the part of the world it works on, which nobody else changes, and `det` are the
detector layers, which it does not change. -/
structure Records (E : Env W V P) (k : Nat) (folder : String) (st : W → St Img) (det : W → List (Lay Img)) : Prop where
  self : ∀ e fp w, (E.cb k e fp w).1 = (act folder e fp.mode (det w) (st w)).1 ∧ st (E.cb k e fp w).2.2 = (act folder e fp.mode (det w) (st w)).2
  keeps : ∀ e fp w, det (E.cb k e fp w).2.2 = det w
  other : ∀ i e fp w, i ≠ k → st (E.cb i e fp w).2.2 = st w
  prim : ∀ a fp w, st (E.prim a fp w).2 = st w
  pred : ∀ fp w, st (E.pred fp w).2 = st w
  loss : ∀ p w, st (E.loss p w).2 = st w

/-- At the beginning of epochs and at the end of the fit the detector layers are not changed by callbacks, and not by switching the volume to training. -/
structure Still (E : Env W V P) (det : W → List (Lay Img)) : Prop where
  prim : ∀ b fp w, det (E.prim (.volMode b) fp w).2 = det w
  cb : ∀ i e fp w, e = .epochBegin ∨ e = .trainEnd → det (E.cb i e fp w).2.2 = det w

end Gif

end

end Tomopt
