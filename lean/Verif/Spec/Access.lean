import Verif.Model.Access

/- Vocabulary for the attributes of a muon batch. -/
namespace Tomopt

variable {α : Type}

/-- All angles of the rows are numbers. -/
def Numbers (rows : List RawMuon) : Prop := ∀ r ∈ rows, ∃ m, RawMuon.toMuon? r = some m

/-- The object has a tensor, and its angles are numbers. -/
structure Owned (s : Tensors) (o : Owner α) : Prop where
  there : o.addr < s.length
  numbers : Numbers (s.getD o.addr [])

/-- What an attribute shows now. -/
noncomputable def shown (s : Tensors) (o : Owner α) (f : Field) : List (List (Option ℝ)) := (o.get s f).read s

/-- The element-by-element sum of what a tensor shows and of values. -/
def plus (t : List (List (Option ℝ))) (v : List (List ℝ)) : List (List (Option ℝ)) := List.zipWith (List.zipWith fun a w => a.map (· + w)) t v

/-- How many muons the batch has. -/
noncomputable def count (s : Tensors) (o : Owner α) : Nat := (o.batch s).muons.length

end Tomopt
