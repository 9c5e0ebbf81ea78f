import Verif.Model.Passives

/-
Model of tomopt/benchmarks/u_lorry/data.py 14-79 `ULorryPassiveGenerator`. Random draws are arguments. Background voxels are drawn anew whenever a layer is loaded, so the
draws are an argument of the layout.
-/
namespace Tomopt

noncomputable section

open Passives

namespace Lorry

/-- data.py 19-34: the arguments, and the X0 of uranium and air -/
structure Cfg where
  geo : Geo
  uVolume : ℝ
  uProb : ℝ
  fillFrac : ℝ
  x0Lorry : ℝ
  bkg : List ℝ
  x0U : ℝ
  x0Air : ℝ

/-- data.py 32: voxels in x and y -/
def nx (c : Cfg) : Nat := ⌊c.geo.lw.1 / c.geo.size⌋.toNat

def ny (c : Cfg) : Nat := ⌊c.geo.lw.2 / c.geo.size⌋.toNat

/-- data.py 33: where the cargo starts and ends -/
def bkgZ (c : Cfg) : ℝ × ℝ := (c.geo.zr.1 + c.geo.size, c.fillFrac * c.geo.zr.2)

/-- data.py 37: the longest side of a block, in voxels -/
def maxN (c : Cfg) : ℤ := max (max (nx c) (ny c)) (pyRound (((bkgZ c).2 - (bkgZ c).1) / c.geo.size))

open Classical in
/-- data.py 38-39: the sides, in ascending order, of the blocks of the right volume -/
def sizes (c : Cfg) : List (Nat × Nat × Nat) :=
  let ns := (List.range (maxN c).toNat).map (· + 1)
  (ns.flatMap fun a => ns.flatMap fun b => ns.map fun d => (a, b, d)).filter fun s =>
    s.1 ≤ s.2.1 ∧ s.2.1 ≤ s.2.2 ∧ ((s.1 * s.2.1 * s.2.2 : Nat) : ℝ) * c.geo.size ^ 3 = c.uVolume

/-- data.py 40-41: constructing the generator -/
def init (c : Cfg) : Except Err Unit := if (sizes c).length = 0 then .error .valueError else .ok ()

/-- the draws for the block: which size, orientation, position -/
structure BlockDraw where
  idx : Nat
  perm : Equiv.Perm (Fin 3)
  low : Fin 3 → ℝ

/-- `int` of a float -/
def trunc (x : ℝ) : ℤ := if 0 ≤ x then ⌊x⌋ else ⌈x⌉

/-- data.py 44-46: the sides of the block in voxels; a constructed generator has at least one size -/
def dims (c : Cfg) (d : BlockDraw) : Fin 3 → Nat := fun i =>
  let s := (sizes c).getD (d.idx % (sizes c).length) (0, 0, 0)
  ![s.1, s.2.1, s.2.2] (d.perm i)

/-- the corners of a block: voxels in x and y, metres in z -/
structure Block where
  lowX : ℤ
  highX : ℤ
  lowY : ℤ
  highY : ℤ
  lowZ : ℝ
  highZ : ℝ

/-- data.py 43-58 `_get_block_coords` -/
def coords (c : Cfg) (b : Fin 3 → Nat) (low : Fin 3 → ℝ) : Block :=
  let h := (b 2 : ℝ) * c.geo.size
  let lx := trunc (uniform 0 ((nx c : ℝ) - b 0) (low 0))
  let ly := trunc (uniform 0 ((ny c : ℝ) - b 1) (low 1))
  let lz := uniform (bkgZ c).1 ((bkgZ c).2 - h) (low 2)
  ⟨lx, lx + b 0, ly, ly + b 1, lz, lz + h⟩

/-- data.py 66-73: what a voxel holds before the block is put in -/
def base (c : Cfg) (draw : Nat → Nat → Nat) (z : ℝ) (i j : Nat) : ℝ :=
  if z ≤ (bkgZ c).1 then c.x0Lorry
  else if z ≤ (bkgZ c).2 then c.bkg.getD (draw i j % c.bkg.length) 0
  else c.x0Air

/-- data.py 75-77: the voxels of the block -/
def inBlock (c : Cfg) (b : Block) (z : ℝ) (i j : Nat) : Prop :=
  (z > b.lowZ ∧ z ≤ b.highZ) ∧ inSlice (nx c) b.lowX b.highX i = true ∧ inSlice (ny c) b.lowY b.highY j = true

open Classical in
/-- data.py 65-78 `generator`: the draws of the background are those of this call; there is at least one background material -/
def layout (c : Cfg) (block : Option Block) (draw : ℝ → Nat → Nat → Nat) : Layout := fun z _ _ =>
  .ok ((List.range (nx c)).map fun i => (List.range (ny c)).map fun j =>
    match block with
    | none => base c (draw z) z i j
    | some b => if inBlock c b z i j then c.x0U else base c (draw z) z i j)

open Classical in
/-- data.py 60-79 `_generate`: the block and the target; `present` is the draw of `torch.rand` -/
def generate (c : Cfg) (present : ℝ) (d : BlockDraw) : Option Block × Nat :=
  if present < c.uProb then (some (coords c (dims c d) d.low), 1) else (none, 0)

end Lorry

end

end Tomopt
