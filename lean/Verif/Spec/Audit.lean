import Verif.Model.Audit
/-!
# What the audit ledger is to say

The specification knows nothing of deltas: it keeps the batches themselves, and says
which of them are committed, which are pending and which are gone.
-/
namespace Verif.Spec.Audit
open Verif.Audit (Batch Field Op LedgerNow)

/-- Reading a field as the documentation of the audit ledger says: a distance `n` in the
transaction at position `i` refers to the value in the transaction at position `i - n`. -/
def follow {T α : Type} (log : List T) (field : T → Option (Field α)) (i : Nat) : Option α :=
  match (log[i]?).bind field with
  | some (.here v) => some v
  | some (.back n) =>
    if 1 ≤ n ∧ n ≤ i then
      match (log[i - n]?).bind field with
      | some (.here v) => some v
      | _ => none
    else none
  | none => none

/-- The batches of a node. -/
structure Live where
  done : List Batch
  pending : List Batch

/-- Commit takes the oldest pending batch, reject the newest; after a restart nothing is pending. -/
def Live.step (s : Live) : Op → Live
  | .apply b => { s with pending := s.pending ++ [b] }
  | .reject => { s with pending := s.pending.dropLast }
  | .commit => ⟨s.done ++ s.pending.take 1, s.pending.drop 1⟩
  | .restart => { s with pending := [] }

/-- The batches after a history. -/
def live (ops : List Op) : Live := ops.foldl Live.step ⟨[], []⟩

/-- The batches with an audit transaction. -/
def audited (bs : List Batch) : List Batch := bs.filter (·.hasAudit)

/-- Batch `b` is applied on top of batch `a`: ledgers only grow, a ledger which did not grow has
the same root, and a frozen ledger stays frozen. -/
def Follows (a b : Batch) : Prop :=
  (∀ lid x y, a.ledgers.get? lid = some x → b.ledgers.get? lid = some y →
    x.size ≤ y.size ∧ (x.size = y.size → x.root = y.root)) ∧
  ∀ lid, a.frozen.has lid = true → b.frozen.has lid = true

/-- A history of a node: every batch is applied on top of the last one with an audit transaction.
The ledgers of a batch are a dictionary, so no ledger is listed twice. -/
def History : Live → List Op → Prop
  | _, [] => True
  | s, o :: rest =>
    (match o with
      | .apply b => b.ledgers.keys.Nodup ∧ b.frozen.keys.Nodup ∧
          ∀ a, (audited (s.done ++ s.pending)).getLast? = some a → Follows a b
      | _ => True) ∧
    History (s.step o) rest

/-! ## The tracker: a queue of batches -/

/-- A batch as the tracker is to know it: the roots after it, and how many transactions it has. -/
structure Item where
  state : String
  root : String
  count : Nat
deriving DecidableEq, Repr

/-- The committed roots and the number of committed transactions, and the batches on top. -/
structure Queue where
  state : String
  root : String
  size : Nat
  items : List Item
deriving DecidableEq, Repr

/-- What is asked of the tracker; `caughtUp` sets roots and size from the ledger. -/
inductive Ask
  | apply (i : Item)
  | commit
  | reject
  | caughtUp (state root : String) (size : Nat)
deriving DecidableEq, Repr

/-- The answer: roots and a count, an exception, or nothing. -/
inductive Answer
  | roots (state root : String) (count : Int)
  | raised
  | done
deriving DecidableEq, Repr

/-- Size of the ledger with all batches applied. -/
def Queue.total (q : Queue) : Nat := q.size + (q.items.map (·.count)).sum

/-- Commit answers with the oldest batch, its roots and its number of transactions. Reject
answers with the roots before the newest batch, and the number of its transactions. -/
def Queue.step (q : Queue) : Ask → Queue × Answer
  | .apply i => ({ q with items := q.items ++ [i] }, .done)
  | .commit =>
    match q.items with
    | [] => (q, .raised)
    | i :: rest => (⟨i.state, i.root, q.size + i.count, rest⟩, .roots i.state i.root i.count)
  | .reject =>
    match q.items.getLast? with
    | none => (q, .raised)
    | some i =>
      let rest := q.items.dropLast
      ({ q with items := rest },
        match rest.getLast? with
        | some p => .roots p.state p.root i.count
        | none => .roots q.state q.root i.count)
  | .caughtUp s r n => ({ q with state := s, root := r, size := n }, .done)

/-- All answers. -/
def Queue.answers : Queue → List Ask → List Answer
  | _, [] => []
  | q, a :: rest => (q.step a).2 :: (q.step a).1.answers rest

/-- Catchup ends with no batch applied: a node reverts its batches before it catches up. -/
def Queue.Fair : Queue → List Ask → Prop
  | _, [] => True
  | q, a :: rest => (match a with | .caughtUp .. => q.items = [] | _ => True) ∧ (q.step a).1.Fair rest

end Verif.Spec.Audit
