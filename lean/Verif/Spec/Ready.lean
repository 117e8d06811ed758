import Verif.Model.Ready
/-! # Readiness and warnings, read off the history of a node -/
namespace Verif.Ready.Spec
open Verif Verif.Ready

/-- Whether the node goes, and the connections it has, after one more event. -/
def see (p : Bool × List Name) : Ev → Bool × List Name
  | .start => (true, p.2)
  | .stop => (false, [])
  | .pool _ => p
  | .check c => if p.1 then (true, c) else p

/-- Whether the node goes, and the connections it has, after a history. -/
def seen (h : List Ev) : Bool × List Name := h.foldl see (false, [])

/-- How many of the old connections there still are. -/
def kept (old new : List Name) : Nat := (old.filter (fun x => decide (x ∈ new))).length

/-- The looks at the connections so far contain one at which the node, with itself, had n - f nodes, after which it never had
lost all but f of them: at each later look, f + 1 nodes, with itself, were left of those before. -/
def Armed (n : Nat) (cs : List (List Name)) : Prop :=
  ∃ a b, cs = a ++ b ∧ n - getMaxFailures n ≤ (a.getLastD []).length + 1 ∧
    ∀ x c y, b = x ++ c :: y → getMaxFailures n + 1 ≤ kept ((a ++ x).getLastD []) c + 1

end Verif.Ready.Spec
