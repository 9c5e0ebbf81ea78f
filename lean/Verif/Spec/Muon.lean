import Verif.Model.Muon

/-
Specifications about histories of a muon batch, written without reference to how hits are filtered.
-/
namespace Tomopt

variable {α : Type}

/-- Identities of the muons currently in the batch. -/
def Batch.ids (b : Batch α) : List Nat := b.muons.map (·.id)

/-- The list of tensors currently stored for `pos`/`var` (empty when nothing was recorded there). -/
def Batch.tensors (b : Batch α) (pos var : String) : List (List α) :=
  match b.hits.get? pos with
  | none => []
  | some vars => match vars.get? var with
    | none => []
    | some ts => ts

/-- What one `append_hits` call records for `pos`/`var`: each supplied row paired with the identity of the muon it
was recorded for. -/
def recordedBy (b : Batch α) (pos var : String) : MuOp α → List (List (Nat × α))
  | .append hits p =>
    if p = pos then (hits.filter (fun kv => kv.1 = var)).map (fun kv => b.ids.zip kv.2) else []
  | _ => []

/-- Log of everything recorded for `pos`/`var` during a history, in order of recording. -/
noncomputable def recorded (pos var : String) : Batch α → List (MuOp α) → List (List (Nat × α))
  | _, [] => []
  | b, op :: ops => recordedBy b pos var op ++
      match b.step op with
      | .ok b' => recorded pos var b' ops
      | .error _ => []

/-- A recording supplies exactly one row per muon present; other operations need nothing. -/
def AlignedOp (b : Batch α) : MuOp α → Prop
  | .append hits _ => ∀ kv ∈ hits, kv.2.length = b.muons.length
  | _ => True

/-- Every recording of the history supplies exactly one row per muon present at that moment. -/
def AlignedHistory : Batch α → List (MuOp α) → Prop
  | _, [] => True
  | b, op :: ops =>
    AlignedOp b op ∧
    match b.step op with
    | .ok b' => AlignedHistory b' ops
    | .error _ => True

end Tomopt
