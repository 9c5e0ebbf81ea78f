import Verif.Model.Geometry

/-
Model of the functions that build the volumes of the benchmarks: tomopt/benchmarks/small_walls/volume.py and tomopt/benchmarks/ladle_furnace/volume.py.
-/
namespace Tomopt

noncomputable section

namespace Benchmarks

/-- `np.arange(a, b, -s)` for positive `s` -/
def arangeDown (a b s : ℝ) : List ℝ := (List.range ⌈(a - b) / s⌉.toNat).map fun (k : Nat) => a - k * s

/-- `np.round(x, decimals=2)` -/
def round2 (x : ℝ) : ℝ := (pyRound (100 * x) : ℝ) / 100

/-- layer.py 107-121: a passive layer with the default arguments -/
def passive (lw : ℝ × ℝ) (size z : ℝ) : AnyLayer := .passive ⟨lw, z, size, 0.01, "pdg", none⟩

/-- small_walls/volume.py 33-40, 56-62: one of the four panels of a detector whose top is at `z` -/
def wallPanel (lw : ℝ × ℝ) (span res eff det z : ℝ) (i : Nat) : Except Err AnyPanel :=
  match Panel.make .gauss res eff (lw.1 / 2, lw.2 / 2, z - i * det / 4) (span * lw.1, span * lw.2) 1 none true with
  | .error e => .error e
  | .ok p => .ok (.panel p)

/-- small_walls/volume.py 28-44, 48-65: one of the two detectors -/
def wallDetector (pos : String) (lw : ℝ × ℝ) (span res eff det z : ℝ) : Except Err AnyLayer :=
  match mapE (wallPanel lw span res eff det z) (List.range 4) with
  | .error e => .error e
  | .ok ps => .ok (.detector ⟨pos, lw, z, det, ps⟩)

/-- small_walls/volume.py 17-67 `get_small_walls_volume`: the layers -/
def smallWalls (size : ℝ) (lw : ℝ × ℝ) (h span res eff det : ℝ) : Except Err (List AnyLayer) := do
  let above ← wallDetector "above" lw span res eff det (h + 2 * det)
  let ps := (arangeDown h 0 size).map fun z => passive lw size (round2 z + det)
  let below ← wallDetector "below" lw span res eff det det
  .ok (above :: ps ++ [below])

/-- a panel of the furnace benchmarks: smoothness, efficiency, height -/
structure FurnacePanel where
  smooth : ℝ
  eff : ℝ
  z : ℝ

/-- ladle_furnace/volume.py 24-31 and the like: a panel centred on `xy` -/
def furnacePanel (xy : ℝ × ℝ) (res span : ℝ) (p : FurnacePanel) : Except Err AnyPanel :=
  match Panel.make (.sigmoid p.smooth) res p.eff (xy.1, xy.2, p.z) (span, span) 1 none true with
  | .error e => .error e
  | .ok p => .ok (.panel p)

/-- ladle_furnace/volume.py 12-100, 103-191, 194-294: the layers of the three detectors, which differ only in where the panels are; the second panel above has a smoothness of 0.1,
the second panel below an efficiency of 1. -/
def furnace (xy : ℝ × ℝ) (za zb : Fin 4 → ℝ) (res eff span : ℝ) : Except Err (List AnyLayer) := do
  let above ← mapE (furnacePanel xy res span) [⟨1, eff, za 0⟩, ⟨0.1, eff, za 1⟩, ⟨1, eff, za 2⟩, ⟨1, eff, za 3⟩]
  let ps := (arangeDown (1.8 - 0.4) 0.4 0.1).map fun z => passive (1, 1) 0.1 (round2 z)
  let below ← mapE (furnacePanel xy res span) [⟨1, eff, zb 0⟩, ⟨1, 1, zb 1⟩, ⟨1, eff, zb 2⟩, ⟨1, eff, zb 3⟩]
  .ok (.detector ⟨"above", (1, 1), 1.8, 0.4, above⟩ :: ps ++ [.detector ⟨"below", (1, 1), 0.4, 0.4, below⟩])

/-- ladle_furnace/volume.py 12-104 `get_initial_detector` -/
def initialDetector (res eff span : ℝ) : Except Err (List AnyLayer) := furnace (0, 0) ![1.48, 1.47, 1.46, 1.45] ![0.35, 0.34, 0.33, 0.32] res eff span

/-- ladle_furnace/volume.py 107-199 `get_baseline_detector_1` -/
def baselineDetector1 (res eff span : ℝ) : Except Err (List AnyLayer) := furnace (0.5, 0.5) ![1.8, 1.75, 1.5, 1.45] ![0.35, 0.30, 0.05, 0] res eff span

/-- ladle_furnace/volume.py 202-294 `get_baseline_detector_2` -/
def baselineDetector2 (res eff span : ℝ) : Except Err (List AnyLayer) := furnace (0.5, 0.5) ![1.75, 1.65, 1.55, 1.45] ![0.35, 0.25, 0.15, 0.05] res eff span

end Benchmarks

end

end Tomopt
