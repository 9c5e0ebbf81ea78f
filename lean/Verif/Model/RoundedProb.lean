import Verif.Model.Infer

/-
Model of inference/volume.py 361-398 with floating-point arithmetic: every result is rounded by `fl`, the error function is taken by `erfFl`.
`Normal.cdf` is that of torch: `0.5 * (1 + erf((value - loc) * scale.reciprocal() / math.sqrt(2)))`.
-/
namespace Tomopt

noncomputable section
open Real

namespace Infer

/-- `Normal(loc, scale).cdf(value)` of torch, used in volume.py 383 -/
def cdfFl (fl erfFl : ℝ → ℝ) (loc scale value : ℝ) : ℝ :=
  fl (1 / 2 * fl (1 + erfFl (fl (fl (fl (value - loc) * fl (1 / scale)) / fl (√2)))))

/-- volume.py 374-376: the width of the distribution of one coordinate of a PoCA -/
def scaleFl (fl : ℝ → ℝ) (unc : ℝ) : ℝ := fl (unc + fl 1e-7)

/-- volume.py 383: the probability that one coordinate of a PoCA is between `low` and `high` -/
def axisFl (fl erfFl : ℝ → ℝ) (loc unc low high : ℝ) : ℝ :=
  fl (cdfFl fl erfFl loc (scaleFl fl unc) high - cdfFl fl erfFl loc (scaleFl fl unc) low)

/-- volume.py 378-389 `comp_int` and 392: probability of one voxel for one muon. -/
def voxelProbFl (fl erfFl : ℝ → ℝ) (size : ℝ) (r : MuRow) (low : ℝ × ℝ × ℝ) : ℝ :=
  fl (fl (axisFl fl erfFl r.poca.1 r.pocaUnc.1 low.1 (fl (low.1 + size)) * axisFl fl erfFl r.poca.2.1 r.pocaUnc.2.1 low.2.1 (fl (low.2.1 + size))) *
    axisFl fl erfFl r.poca.2.2 r.pocaUnc.2.2 low.2.2 (fl (low.2.2 + size)))

/-- volume.py 397: the entry of `muon_probs_per_voxel_zxy` -/
def voxelWeightFl (fl erfFl : ℝ → ℝ) (size : ℝ) (r : MuRow) (low : ℝ × ℝ × ℝ) : ℝ := fl (voxelProbFl fl erfFl size r low + fl 1e-15)

end Infer

end

end Tomopt
