import Verif.Model.Ordered
/-!
# Sets of integers and of batch identifiers, as lists
-/
namespace Verif.Spec.Ordered
open Verif.Ordered (Call)

/-- How many different elements a list has. -/
def distinct {α : Type} [DecidableEq α] : List α → Nat
  | [] => 0
  | x :: xs => if x ∈ xs then distinct xs else distinct xs + 1

/-- What a tracker is to hold: what was added, less what was cleared since. -/
def holds (cs : List Call) : List (Int × Int) :=
  cs.foldl (fun s c => match c with
    | .add v p => (v, p) :: s
    | .lookup _ _ => s
    | .clearBelow v => s.filter (fun b => ¬ b.1 < v)) []

end Verif.Spec.Ordered
