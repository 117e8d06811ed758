import Verif.Model.FileHash
/-!
# What a hash store holds
-/
namespace Verif.FileHash.Spec

/-- The leaves written since the last reset. One of the wrong size is refused. -/
def leaves (size : Nat) (ops : List Op) : List Bytes :=
  ops.foldl (fun acc op => match op with
    | .writeLeaf d => if d.length = size then acc ++ [d] else acc
    | .reset => []
    | _ => acc) []

/-- The nodes written since the last reset. -/
def nodes (size : Nat) (ops : List Op) : List Bytes :=
  ops.foldl (fun acc op => match op with
    | .writeNode _ _ d => if d.length = size then acc ++ [d] else acc
    | .reset => []
    | _ => acc) []

/-- The store did not crash while an entry was written. -/
def noCrash (ops : List Op) : Prop :=
  ∀ op ∈ ops, match op with
    | .crashAtLeaf .. => False
    | .crashAtNode .. => False
    | _ => True

/-- The entry at a position, from one. -/
def entry (xs : List Bytes) (pos : Nat) : Option Bytes :=
  if pos = 0 then none else xs[pos - 1]?

end Verif.FileHash.Spec
