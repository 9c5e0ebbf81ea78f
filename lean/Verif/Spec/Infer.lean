import Verif.Model.Infer

/- Specifications for X0 inference. -/
namespace Tomopt

noncomputable section

open Infer

/-- all patterns of which of `n` panels fire -/
def outcomes : Nat → List (List Bool)
  | 0 => [[]]
  | n + 1 => (outcomes n).map (true :: ·) ++ (outcomes n).map (false :: ·)

/-- probability of a pattern when panel `i` fires with probability `effs[i]`, independently -/
def patternProb : List ℝ → List Bool → ℝ
  | e :: es, b :: bs => (if b then e else 1 - e) * patternProb es bs
  | _, _ => 1

/-- probability that at least two panels fire -/
def probTwoOrMore (effs : List ℝ) : ℝ :=
  (((outcomes effs.length).filter fun o => decide (2 ≤ countTrue o)).map (patternProb effs)).sum

/-- one muon of a batch as the inference should see it: values, uncertainties, efficiency -/
structure MuonRec where
  vals : List XF
  uncs : List XF
  eff : ℝ

/-- the muon has finite values and uncertainties -/
def MuonRec.finite (r : MuonRec) : Bool := r.vals.all XF.isFinite && r.uncs.all XF.isFinite

/-- row `i` of a tensor -/
def rowAt (t : List (List XF)) (i : Nat) : List XF := t.getD i []

/-- muon `i` of a batch with efficiencies `es`; momenta are taken to be exact -/
def muonRec (b : ScVars) (es : List ℝ) (i : Nat) : MuonRec :=
  ⟨rowAt (b.vals .poca) i ++ rowAt (b.vals .totScatter) i ++ rowAt (b.vals .thetaIn) i ++ rowAt (b.vals .thetaOut) i ++ rowAt (b.vals .mom) i,
    rowAt (b.uncs .poca) i ++ rowAt (b.uncs .totScatter) i ++ rowAt (b.uncs .thetaIn) i ++ rowAt (b.uncs .thetaOut) i ++
      (rowAt (b.vals .mom) i).map fun _ => .num 0, es.getD i 0⟩

/-- a batch of `n` muons: every tensor has `n` rows -/
structure BatchOf (n : Nat) (b : ScVars) : Prop where
  vals : ∀ v, (b.vals v).length = n
  uncs : ∀ v, (b.uncs v).length = n

/-- all muons of the batches, in order; `sizes` and `effs` per batch -/
def allMuons : List (ScVars × Nat × List ℝ) → List MuonRec
  | [] => []
  | (b, n, es) :: l => (List.range n).map (muonRec b es) ++ allMuons l

end

end Tomopt
