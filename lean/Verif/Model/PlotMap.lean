import Verif.Model.Heatmap

/-
Model of the picture of a heat map (heatmap.py 144-184 `plot_map`): which number is drawn where. Tensors are functions of their indices together with their
shapes, which are fixed here: 200 points along each axis.
-/
namespace Tomopt

noncomputable section

namespace PlotMap

/-- 166-167: points along each axis -/
def steps : Nat := 200

/-- `torch.linspace(a, b, steps)` -/
def linspace (a b : ℝ) (n i : Nat) : ℝ := a + (b - a) * i / (n - 1 : Nat)

/-- 166 `xs` -/
def xs (h : Heatmap) : Nat → ℝ := linspace (h.xyFix.1 - 2 * h.deltaXy) (h.xyFix.1 + 2 * h.deltaXy) steps

/-- 167 `ys` -/
def ys (h : Heatmap) : Nat → ℝ := linspace (h.xyFix.2 - 2 * h.deltaXy) (h.xyFix.2 + 2 * h.deltaXy) steps

/-- 168 `torch.meshgrid(xs, ys)` with its default indexing: the first index is that of `xs` -/
def mesh (xs ys : Nat → ℝ) : (Nat → Nat → ℝ) × (Nat → Nat → ℝ) := (fun i _ => xs i, fun _ j => ys j)

/-- 153 `torch.stack([x, y])` -/
def stack (x y : Nat → Nat → ℝ) : Nat → Nat → Nat → ℝ := fun c i j => if c = 0 then x i j else y i j

/-- 153 `.T` of a tensor with three dimensions: their order is reversed -/
def rev (t : Nat → Nat → Nat → ℝ) : Nat → Nat → Nat → ℝ := fun a b c => t c b a

/-- 154 `reshape` to a list of points, for a second dimension of size `n` -/
def rows (n : Nat) (t : Nat → Nat → Nat → ℝ) : Nat → Nat → ℝ := fun k c => t (k / n) (k % n) c

/-- 156 `gmm(reshaped).prod(1)` of one point: both factors are the same number (245-250). 155 adds a dimension of size one, which 247 takes away. -/
def value (h : Heatmap) (p : Nat → ℝ) : ℝ := h.gmm (p 0, p 1) * h.gmm (p 0, p 1)

/-- 158 `reshape` back to a grid with `n` columns -/
def grid (n : Nat) (z : Nat → ℝ) : Nat → Nat → ℝ := fun a b => z (a * n + b)

/-- 152-160 `get_z_from_mesh`. The minimum with 1 in 157 is computed and thrown away. -/
def zOf (h : Heatmap) (x y : Nat → Nat → ℝ) : Nat → Nat → ℝ := grid steps fun k => value h (rows steps (rev (stack x y)) k)

/-- 162-175: where the `(a, b)` element of the picture is drawn -/
def place (h : Heatmap) (a b : Nat) : ℝ × ℝ := let m := mesh (xs h) (ys h); (m.1 a b, m.2 a b)

/-- 162-175: the number drawn there -/
def shown (h : Heatmap) (a b : Nat) : ℝ := let m := mesh (xs h) (ys h); zOf h m.1 m.2 a b

end PlotMap

end

end Tomopt
