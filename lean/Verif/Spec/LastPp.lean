import Verif.Model.LastPp
/-!
# The numbers an instance should use
-/
namespace Verif.Spec.LastPp
open Verif Verif.LastPp

/-- The numbers of the instance in the view, in the order of their use. -/
def numbers (used : List (Nat × Nat × Nat)) (i v : Nat) : List Nat :=
  (used.filter fun e => e.1 = i ∧ e.2.1 = v).map (·.2.2)

/-- In each view a backup instance numbers its batches 1, 2, 3 and so on. -/
def Consecutive (used : List (Nat × Nat × Nat)) : Prop :=
  ∀ i v, i ≠ 0 → numbers used i v = List.range' 1 (numbers used i v).length

/-- Events at a node in the given view. `lost`: a running node caught up in this view, which
is not view 0; `gone`: an instance is removed. The node is not started again after the first,
and does not catch up in a view other than 0 after the second, before the view changes. The
audit ledger knows the view of the node whenever it catches up or starts. -/
def Regular : Nat → Bool → Bool → List Ev → Prop
  | _, _, _, [] => True
  | view, lost, gone, .preprepare _ :: es => Regular view lost gone es
  | view, lost, _, .remove _ :: es => Regular view lost true es
  | view, lost, gone, .viewChange v :: es =>
    if v ≤ view then Regular view lost gone es else Regular v false false es
  | view, lost, gone, .catchup a :: es =>
    a = some view ∧ (view = 0 ∧ Regular view lost false es ∨ view ≠ 0 ∧ gone = false ∧ Regular view true false es)
  | view, lost, _, .restart a :: es => a = some view ∧ lost = false ∧ Regular view false false es

end Verif.Spec.LastPp
