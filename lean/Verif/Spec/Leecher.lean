import Verif.Model.NodeLeecher
/-!
# What a user expects of a catchup

Stated on what can be seen of it from outside: the log of its starts, of the ledgers it
finished and of its ends.
-/
namespace Verif.Spec

open Verif.Leecher (Out)

/-- The ledgers finished since the last start. -/
def visited : List Out → List Nat :=
  List.foldl (fun acc o => match o with
    | .started _ => []
    | .finished l => l :: acc
    | _ => acc) []

/-- How the last start was made. -/
def lastStart : List Out → Option Bool :=
  List.foldl (fun acc o => match o with
    | .started i => some i
    | _ => acc) none

/-- The ledgers in the order a catchup has to go through them: the pool ledger first if the
node was just started, then audit, pool, config and the others. -/
def plan (initial : Bool) (others : List Nat) : List Nat :=
  (if initial then [Leecher.POOL] else []) ++ [Leecher.AUDIT, Leecher.POOL, Leecher.CONFIG] ++ others

/-- The last audit transaction has a root for a ledger, itself or by pointing to an earlier one
which has. -/
def HasRoot (audit : List Audit.Txn) (last : Audit.Txn) (lid : Nat) : Prop :=
  ∃ r, last.roots.get? lid = some (.here r) ∨ ∃ k t, last.roots.get? lid = some (.back k) ∧
    Audit.behind audit (audit.length - 1) k = some t ∧ t.roots.get? lid = some (.here r)

end Verif.Spec
