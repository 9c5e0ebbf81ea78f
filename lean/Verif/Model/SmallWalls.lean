import Verif.Model.Passives
import Mathlib.Analysis.SpecialFunctions.Exp

/-
Model of tomopt/benchmarks/small_walls/data.py 15-97 `SmallWallsPassiveGenerator`. Random draws are arguments: `randint lo hi` takes a natural number that is
reduced to the range, so that every draw is covered; the draws along a wall are an unlimited sequence.
-/
namespace Tomopt

noncomputable section

open Real

namespace SmallWalls

/-- which voxels are wall: by z, x, y -/
abbrev Map := Nat → Nat → Nat → Bool

/-- data.py 33-43: shape of the grid of voxels and the parameters of the generator -/
structure Cfg where
  nz : Nat
  nx : Nat
  ny : Nat
  stopK : ℝ
  turnK : ℝ
  minLength : ℤ
  minHeight : ℤ

/-- `np.random.randint(lo, hi)`: ValueError for an empty range -/
def randint (lo hi : ℤ) (u : Nat) : Except Err ℤ := if hi ≤ lo then .error .valueError else .ok (lo + u % (hi - lo))

/-- data.py 57: directions of the wall -/
inductive Move where
  | up | right | down | left
  deriving DecidableEq

/-- data.py 57-65: the directions a wall may start in -/
def startMoves (c : Cfg) (x y : ℤ) : List Move :=
  let ms := [.up, .right, .down, .left]
  let ms := if x = 0 then ms.erase .left else if x = c.nx - 1 then ms.erase .right else ms
  if y = 0 then ms.erase .down else if y = c.ny - 1 then ms.erase .up else ms

/-- `np.random.choice` of a list that is not empty -/
def choose (ms : List Move) (u : Nat) : Move := ms.getD (u % ms.length) .up

/-- data.py 80: the two directions across -/
def turned : Move → Bool → Move
  | .right, b | .left, b => if b then .up else .down
  | .up, b | .down, b => if b then .right else .left

/-- data.py 82-89: one voxel on -/
def moved : Move → ℤ × ℤ → ℤ × ℤ
  | .up, (x, y) => (x, y + 1)
  | .right, (x, y) => (x + 1, y)
  | .down, (x, y) => (x, y - 1)
  | .left, (x, y) => (x - 1, y)

/-- the draws of one step along a wall: does it stop, does it turn, and where -/
structure Step where
  stop : ℝ
  turn : ℝ
  dir : Bool

/-- data.py 70: `(zxy_map[:, x, y] != 1).all()` -/
def free (c : Cfg) (m : Map) (p : ℤ × ℤ) : Bool := (List.range c.nz).all fun z => !m z p.1.toNat p.2.toNat

/-- data.py 71: `zxy_map[ground_z:height, x, y] = 1` -/
def fill (c : Cfg) (ground height : ℤ) (m : Map) (p : ℤ × ℤ) : Map := fun z x y =>
  if x = p.1.toNat ∧ y = p.2.toNat ∧ z < c.nz ∧ Passives.inSlice c.nz ground height z then true else m z x y

/-- data.py 90: outside the volume -/
def outside (c : Cfg) (p : ℤ × ℤ) : Prop := p.1 ≥ c.nx ∨ p.1 < 0 ∨ p.2 ≥ c.ny ∨ p.2 < 0

instance (c : Cfg) (p : ℤ × ℤ) : Decidable (outside c p) := by unfold outside; infer_instance

/-- where a wall is, its direction, its length and the voxels since the last turn -/
structure Walk where
  pos : ℤ × ℤ
  move : Move
  length : ℤ
  since : ℤ

open Classical in
/-- data.py 68-91: the loop that builds one wall; the first argument bounds the number of passes, `none` if it is used up. -/
def walk (c : Cfg) (ground height : ℤ) : Nat → Map → Walk → (Nat → Step) → Option Map
  | 0, _, _, _ => none
  | n + 1, m, w, steps =>
    if free c m w.pos then
      let m := fill c ground height m w.pos
      let length := w.length + 1
      let since := w.since + 1
      let s := steps 0
      if length ≥ c.minLength ∧ s.stop < exp (-c.stopK / length) then some m
      else
        let (since, move) := if s.turn < exp (-c.turnK / since) then (0, turned w.move s.dir) else (since, w.move)
        let pos := moved move w.pos
        if outside c pos then some m
        else walk c ground height n m ⟨pos, move, length, since⟩ fun i => steps (i + 1)
    else some m

/-- the draws for one wall -/
structure WallDraw where
  height : Nat
  x : Nat
  y : Nat
  move : Nat
  steps : Nat → Step

/-- data.py 53-91: one wall -/
def wall (c : Cfg) (ground : ℤ) (fuel : Nat) (m : Map) (d : WallDraw) : Except Err (Option Map) := do
  let height ← randint (ground + c.minHeight) c.nz d.height
  let x ← randint 0 c.nx d.x
  let y ← randint 0 c.ny d.y
  let move := choose (startMoves c x y) d.move
  .ok (walk c ground height fuel m ⟨(x, y), move, 0, 0⟩ d.steps)

/-- data.py 53: all walls, one after the other -/
def walls (c : Cfg) (ground : ℤ) (fuel : Nat) : Map → List WallDraw → Except Err (Option Map)
  | m, [] => .ok (some m)
  | m, d :: ds => match wall c ground fuel m d with
    | .error e => .error e
    | .ok none => .ok none
    | .ok (some m') => walls c ground fuel m' ds

/-- data.py 47-91: the map of walls, the target of the layout; the number of walls is the number of draws (`np.random.randint(1, 5)`: one to four) -/
def target (c : Cfg) (fuel : Nat) (groundDraw : Nat) (ds : List WallDraw) : Except Err (Option Map) := do
  let ground ← randint 0 (c.nz / 2) groundDraw
  walls c ground fuel (fun _ _ _ => false) ds

/-- data.py 93-97 `generator`: `np.round` of a Python float is a numpy number, which has no method `long`. -/
def layout (_ : Map) : Passives.Layout := fun _ _ _ => .error .attributeError

end SmallWalls

end

end Tomopt
