import Verif.Spec.Rescale
import Verif.Model.Infer

/- Specification: measured points, tracks and scatterings, in another unit of length (`k` times as many units). -/
namespace Tomopt

noncomputable section
open Scatter

namespace Rescale

/-- a measured point, or its uncertainties -/
def point (k : ℝ) (q : X3) : X3 := (len k q.1, len k q.2.1, len k q.2.2)

/-- a place, or the way from one to another -/
def place (k : ℝ) (q : V3) : V3 := (k * q.1, k * q.2.1, k * q.2.2)

/-- a track: the way between two points of it and the first of them -/
def track (k : ℝ) (t : Track) : Track := (place k t.1, place k t.2)

/-- the hits of a scatter batch -/
def hits (k : ℝ) (H : Hits) : Hits :=
  { H with reco := H.reco.map fun r => r.map (point k), gen := H.gen.map fun r => r.map (point k), unc := H.unc.map fun r => r.map (point k) }

/-- a scatter batch -/
def scatter (k : ℝ) (s : SB) : SB := ⟨batch k s.mu, hits k s.hits, s.tracks.map fun t => (t.1.map (track k), t.2.map (track k))⟩

/-- the tracks of a muon with the coefficients of their closest approach: how far along the tracks has no unit; the third one multiplies a product of two lengths to give a length -/
def coefs (k : ℝ) (c : Track × Track × (ℝ × ℝ × ℝ)) : Track × Track × (ℝ × ℝ × ℝ) := (track k c.1, track k c.2.1, c.2.2.1, c.2.2.2.1, c.2.2.2.2 / k)

/-- no recorded uncertainty is below 1e10 in one unit and not in the other -/
def Clear (k : ℝ) (b : Batch Row) : Prop :=
  ∀ kv ∈ b.hits, ∀ kw ∈ kv.2, kw.1 = "unc_xyz" → ∀ t ∈ kw.2, ∀ r ∈ t, ∀ x ∈ r, (len k x).lt 1e10 = x.lt 1e10

/-- what an inferrer reads of a muon: where it scattered and how uncertain this is are lengths -/
def muRow (k : ℝ) (r : Infer.MuRow) : Infer.MuRow := { r with poca := place k r.poca, pocaUnc := place k r.pocaUnc }

/-- a family of cumulative distributions (mean, scale, value) without a unit, increasing -/
def Scales (cdf : ℝ → ℝ → ℝ → ℝ) : Prop :=
  (∀ k m s x : ℝ, 0 < k → 0 < s → cdf (k * m) (k * s) (k * x) = cdf m s x) ∧ ∀ m s x y : ℝ, 0 < s → x < y → cdf m s x < cdf m s y

end Rescale

end

end Tomopt
