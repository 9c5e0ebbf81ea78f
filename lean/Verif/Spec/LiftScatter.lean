import Verif.Spec.Lift
import Verif.Model.Scatter

/- Specification: measured points, tracks and scatterings, all of them higher by the same amount. -/
namespace Tomopt

noncomputable section
open Scatter

namespace Lift

/-- a measured point, `h` higher -/
def point (h : ℝ) (q : X3) : X3 :=
  match q with
  | (x, y, .num z) => (x, y, .num (z + h))
  | q => q

/-- a place, `h` higher -/
def place (h : ℝ) (q : V3) : V3 := (q.1, q.2.1, q.2.2 + h)

/-- a track, `h` higher: the direction is the same -/
def track (h : ℝ) (t : Track) : Track := (t.1, place h t.2)

/-- the hits of a scatter batch, `h` higher -/
def hits (h : ℝ) (H : Hits) : Hits := { H with reco := H.reco.map fun r => r.map (point h), gen := H.gen.map fun r => r.map (point h) }

/-- a scatter batch, `h` higher -/
def scatter (h : ℝ) (s : SB) : SB := ⟨batch h s.mu, hits h s.hits, s.tracks.map fun t => (t.1.map (track h), t.2.map (track h))⟩

/-- the tracks of a muon with the coefficients of their closest approach, `h` higher: the coefficients are the same -/
def coefs (h : ℝ) (k : Track × Track × (ℝ × ℝ × ℝ)) : Track × Track × (ℝ × ℝ × ℝ) := (track h k.1, track h k.2.1, k.2.2)

/-- every recorded position has a height that is a number -/
def Heights (b : Batch Row) : Prop :=
  ∀ kv ∈ b.hits, ∀ kw ∈ kv.2, kw.1 = "reco_xyz" ∨ kw.1 = "gen_xyz" → ∀ t ∈ kw.2, ∀ r ∈ t, ∃ x y z, r = [x, y, .num z]

end Lift

end

end Tomopt
