import Verif.Model.Insts
/-!
# The protocol instances of a node: what is asked for

A pool of `n` nodes tolerates `f = (n - 1) / 3` faulty ones and runs `f + 1` instances, numbered
from 0.
-/
namespace Verif.Insts
open Verif Verif.Primary

/-- The instances that a pool of `n` nodes runs. -/
def wanted (n : Nat) : Nat := (n - 1) / 3 + 1

/-- The node runs exactly the instances `0, …, k - 1`. -/
def Runs (s : State) (k : Nat) : Prop := ∀ i, s.replicas.has i = true ↔ i < k

/-- A registry of a pool: names once each, and a registry for the first view. -/
def PoolOk (reg : Dict Nat (List Node)) (active : List Node) : Prop :=
  active.Nodup ∧ active ≠ [] ∧ reg.has 0 = true ∧ ∀ v r, reg.get? v = some r → r ≠ []

/-- Events as they come: an instance is given apart from a message only if the message does not name
its own (plenum/server/node.py:3229-3242). -/
def Proper : Ev → Prop
  | .msg m given => m.kind ≠ .other → given = none
  | .viewChange _ _ => True
  | .firstBatch reg active _ => PoolOk reg active
  | .caughtUp reg active _ => PoolOk reg active
  | .removed _ => True
  | .check _ => True
  | .connection _ _ => True
  | .tick _ => True

/-- Whether instances may be missing after an event, given whether they may have been before it. -/
def holes (b : Bool) : Ev → Bool
  | .viewChange _ _ => false
  | .caughtUp _ _ _ => false
  | .removed _ => true
  | .check _ => true
  | _ => b

/-- No first batch of a view comes after a removal that no view change or catchup made good. -/
def Careful : Bool → List Ev → Prop
  | _, [] => True
  | b, .firstBatch reg active v :: evs => b = false ∧ Careful (holes b (.firstBatch reg active v)) evs
  | b, e :: evs => Careful (holes b e) evs

/-- Whether instances may be missing after a history. -/
def mayMiss (evs : List Ev) : Bool := evs.foldl holes false

/-- The size of the pool after a history. -/
def poolAfter (n : Nat) (evs : List Ev) : Nat :=
  evs.foldl (fun n e => match e with
    | .firstBatch _ active _ => active.length
    | .caughtUp _ active _ => active.length
    | _ => n) n

end Verif.Insts
