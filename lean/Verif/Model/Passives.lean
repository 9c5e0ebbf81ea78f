import Verif.Model.Geometry
import Mathlib.Logic.Equiv.Defs
import Mathlib.Data.List.Perm.Basic

/-
Model of tomopt/optimisation/data/passives.py, and of loading passive layouts into a volume.
Random draws are arguments: a draw of `np.random.uniform(a, b)` is `a + (b - a) * u` with `u` in [0, 1).
-/
namespace Tomopt

noncomputable section

namespace Passives

/-- What a layout function gets: the `z` (top), footprint and voxel size of a layer, and what it returns: X0 of every voxel, x first. -/
abbrev Layout := ℝ → ℝ × ℝ → ℝ → Except Err (List (List ℝ))

/-- `np.random.uniform(low, high)`; python accepts `high < low`. -/
def uniform (low high u : ℝ) : ℝ := low + (high - low) * u

/-- passives.py 42-57: what generators keep of the volume -/
structure Geo where
  lw : ℝ × ℝ
  zr : ℝ × ℝ
  size : ℝ

/-- passives.py 42-57 `AbsPassiveGenerator.__init__`, the part that reads the volume. -/
def geoOf (V : Volume) : Except Err Geo :=
  match V.lw with
  | .error e => .error e
  | .ok lw => match V.zRange with
    | .error e => .error e
    | .ok zr => match V.passiveSize with
      | .error e => .error e
      | .ok s => .ok ⟨lw, zr, s⟩

/-- passives.py 124-128: the largest block, per axis -/
def sizeMax (g : Geo) (half : Bool) : Fin 3 → ℝ := fun i =>
  let m := ![g.lw.1, g.lw.2, g.zr.2 - g.zr.1] i
  if half then m / 2 else m

/-- How large blocks are: a fixed triple of lengths, or random up to the volume's size or half of it. -/
inductive BlockSize where
  | fixed (s : Fin 3 → ℝ)
  | random (half : Bool)

/-- passives.py 111-128 `AbsBlockPassiveGenerator.__init__`: the arguments `block_size` and `block_size_max_half`. -/
def blockSizeArgs (blockSize : Option (Fin 3 → ℝ)) (maxHalf : Option Bool) : Except Err BlockSize :=
  match blockSize, maxHalf with
  | none, none => .error .valueError
  | none, some h => .ok (.random h)
  | some s, _ => .ok (.fixed s)

/-- the draws for one block: sizes, orientation (`np.random.choice` of all three without replacement), position -/
structure BlockDraw where
  size : Fin 3 → ℝ
  perm : Equiv.Perm (Fin 3)
  low : Fin 3 → ℝ

/-- passives.py 131-141: the size of the block -/
def blockDims (g : Geo) (b : BlockSize) (d : BlockDraw) : Fin 3 → ℝ :=
  match b with
  | .random half => fun i => uniform g.size (sizeMax g half i) (d.size i)
  | .fixed s => fun i => s (d.perm i)

/-- passives.py 143-149: the lower corner (`np.random.uniform(high=…)` starts at 0) -/
def blockLow (g : Geo) (dims : Fin 3 → ℝ) (d : BlockDraw) : Fin 3 → ℝ :=
  ![uniform 0 (g.lw.1 - dims 0) (d.low 0), uniform 0 (g.lw.2 - dims 1) (d.low 1), uniform g.zr.1 (g.zr.2 - dims 2) (d.low 2)]

/-- passives.py 130-152 `_get_block_coords` -/
def blockCoords (g : Geo) (b : BlockSize) (d : BlockDraw) : (Fin 3 → ℝ) × (Fin 3 → ℝ) :=
  let dims := blockDims g b d
  let low := blockLow g dims d
  (low, fun i => low i + dims i)

/-- one end of a slice: negative positions count from the end, and are cut to the range -/
def sliceIdx (n : Nat) (i : ℤ) : ℤ := if i < 0 then max (i + n) 0 else min i n

/-- is position `k` of an axis of length `n` in the slice `lo:hi` -/
def inSlice (n : Nat) (lo hi : ℤ) (k : Nat) : Bool := decide (sliceIdx n lo ≤ k) && decide ((k : ℤ) < sliceIdx n hi)

/-- passives.py 210-217 and 258-265 `generator`: for positive sizes, `(lw / size).long()` is the floor. -/
def blockLayout (low high : Fin 3 → ℝ) (base block : ℝ) : Layout := fun z lw size =>
  let nx := ⌊lw.1 / size⌋.toNat
  let ny := ⌊lw.2 / size⌋.toNat
  .ok ((List.range nx).map fun i => (List.range ny).map fun j =>
    if z ≥ low 2 ∧ z ≤ high 2 ∧ inSlice nx (pyRound (low 0 / size)) (pyRound (high 0 / size)) i ∧
        inSlice ny (pyRound (low 1 / size)) (pyRound (high 1 / size)) j then block else base)

/-- passives.py 199-202: the loop that draws the positions of the two materials; the list holds the draws, `none` when they run out before the loop ends. -/
def pickMats (diff : Bool) : List (Nat × Nat) → Option (Nat × Nat)
  | [] => none
  | (bkg, blk) :: ds => if bkg = blk ∧ diff then pickMats diff ds else some (bkg, blk)

/-- `X0[materials[i]]`: KeyError for unknown materials. -/
def x0Of (table : Dict String ℝ) (materials : List String) (i : Nat) : Except Err ℝ :=
  match materials[i]? with
  | none => .error .indexError
  | some m => match table.get? m with
    | none => .error .keyError
    | some x => .ok x

/-- passives.py 190-219 `RandomBlockPassiveGenerator._generate`: layout and target. `none`: the draws ran out. `np.random.randint(0, 0)` raises a ValueError. -/
def randomBlock (table : Dict String ℝ) (materials : List String) (g : Geo) (b : BlockSize) (sort diff : Bool) (mats : List (Nat × Nat)) (d : BlockDraw) :
    Except Err (Option (Layout × ℝ)) :=
  if materials.length = 0 then .error .valueError
  else match pickMats diff mats with
    | none => .ok none
    | some (bkg, blk) =>
      match x0Of table materials bkg with
      | .error e => .error e
      | .ok base => match x0Of table materials blk with
        | .error e => .error e
        | .ok block =>
          let (block, base) := if sort ∧ block > base then (base, block) else (block, base)
          let (low, high) := blockCoords g b d
          .ok (some (blockLayout low high base block, block))

/-- passives.py 241-267 `BlockPresentPassiveGenerator._generate` -/
def blockPresent (table : Dict String ℝ) (materials : List String) (g : Geo) (b : BlockSize) (blk : Nat) (d : BlockDraw) : Except Err (Layout × ℝ) :=
  if materials.length = 0 then .error .valueError
  else match x0Of table materials 0 with
    | .error e => .error e
    | .ok base => match x0Of table materials blk with
      | .error e => .error e
      | .ok block =>
        let (low, high) := blockCoords g b d
        .ok (blockLayout low high base block, block)

/-- the X0s of all the materials, KeyError if one is unknown -/
def x0List (table : Dict String ℝ) : List String → Except Err (List ℝ)
  | [] => .ok []
  | m :: ms => match table.get? m with
    | none => .error .keyError
    | some x => match x0List table ms with
      | .error e => .error e
      | .ok xs => .ok (x :: xs)

/-- passives.py 282-296 `VoxelPassiveGenerator._generate`: `draw z i j` is the position drawn for voxel `i, j` of the layer at `z`; torch raises a RuntimeError for
an empty range of positions. There is no target. -/
def voxelPassive (table : Dict String ℝ) (materials : List String) (draw : ℝ → Nat → Nat → Nat) : Layout := fun z lw size =>
  match x0List table materials with
  | .error e => .error e
  | .ok xs =>
    if xs.length = 0 then .error .runtimeError
    else .ok ((List.range ⌊lw.1 / size⌋.toNat).map fun i => (List.range ⌊lw.2 / size⌋.toNat).map fun j => xs.getD (draw z i j % xs.length) 0)

/- Yielding passives. -/

/-- An entry of a list of passives: a bare layout, or a pair with an optional target (`T` stands for targets). -/
inductive Entry (L T : Type) where
  | bare (l : L)
  | pair (l : L) (t : Option T)

/-- passives.py 334-337: what is yielded for an entry -/
def Entry.out {L T : Type} : Entry L T → L × Option T
  | .bare l => (l, none)
  | .pair l t => (l, t)

/-- passives.py 299-337: a `PassiveYielder`. The list is the caller's own. A generator is the sequence of what its `get_data` returns. -/
inductive Source (L T : Type) where
  | list (ps : List (Entry L T))
  | gen (data : Nat → L × Option T)

structure Yielder (L T : Type) where
  src : Source L T
  n : Int
  shuffle : Bool
  /-- how many times the generator was called -/
  calls : Nat

variable {L T : Type}

/-- passives.py 311-322 `__init__` -/
def Yielder.make (src : Source L T) (n : Option Int) (shuffle : Bool) : Except Err (Yielder L T) :=
  match src with
  | .gen _ => match n with
    | none => .error .valueError
    | some n => .ok ⟨src, n, shuffle, 0⟩
  | .list ps => .ok ⟨src, ps.length, shuffle, 0⟩

/-- passives.py 324-325 `__len__`: python rejects negative lengths with a ValueError. -/
def Yielder.len (y : Yielder L T) : Except Err Nat := if y.n < 0 then .error .valueError else .ok y.n.toNat

/-- passives.py 327-337 `__iter__`, run to the end. `σ` is the permutation applied by `random.shuffle`, which works in place. -/
def Yielder.pass (σ : List (Entry L T) → List (Entry L T)) (y : Yielder L T) : Yielder L T × List (L × Option T) :=
  match y.src with
  | .gen data => ({ y with calls := y.calls + y.n.toNat }, (List.range y.n.toNat).map fun i => data (y.calls + i))
  | .list ps =>
    let ps := if y.shuffle then σ ps else ps
    ({ y with src := .list ps }, ps.map Entry.out)

/-- several passes, one after the other -/
def Yielder.passes : List (List (Entry L T) → List (Entry L T)) → Yielder L T → Yielder L T × List (List (L × Option T))
  | [], y => (y, [])
  | σ :: σs, y =>
    let r := y.pass σ
    let q := Yielder.passes σs r.1
    (q.1, r.2 :: q.2)

end Passives

/-- layer.py 126-134 `load_rad_length` -/
def PassiveLayer.load (f : Passives.Layout) (L : PassiveLayer) : Except Err PassiveLayer :=
  match f L.z L.lw L.size with
  | .error e => .error e
  | .ok x => .ok { L with radLength := some x }

/-- volume.py 165-167: the loop over the passive layers -/
def Volume.loadLayers (f : Passives.Layout) : List AnyLayer → Except Err (List AnyLayer)
  | [] => .ok []
  | .detector D :: ls => match Volume.loadLayers f ls with
    | .error e => .error e
    | .ok ls' => .ok (.detector D :: ls')
  | .passive L :: ls => match L.load f with
    | .error e => .error e
    | .ok L' => match Volume.loadLayers f ls with
      | .error e => .error e
      | .ok ls' => .ok (.passive L' :: ls')

/-- volume.py 153-167 `load_rad_length` (the target is kept beside the volume in this model) -/
def Volume.load (V : Volume) (f : Passives.Layout) : Except Err Volume :=
  match Volume.loadLayers f V.layers with
  | .error e => .error e
  | .ok ls => .ok { V with layers := ls }

end

end Tomopt
