/-!
# Specification of the ledger

What a user of a ledger believes it to be: a list of committed transactions
followed by a list of staged (uncommitted) ones.
-/
namespace Verif.Spec

/-- Operations on a ledger. `add` writes directly to the committed part,
`restart` is a process restart. -/
inductive LedgerOp (τ : Type)
  | append (ts : List τ)
  | commit (n : Nat)
  | discard (n : Nat)
  | reset
  | add (t : τ)
  | restart

/-- The abstract ledger. -/
structure LedgerState (τ : Type) where
  committed : List τ
  staged : List τ

variable {τ : Type}

/-- Abstract effect of an operation. Committing takes staged transactions from
the front, discarding from the back; discarding more than is staged is an error
and changes nothing. -/
def LedgerState.step (s : LedgerState τ) : LedgerOp τ → LedgerState τ
  | .append ts => ⟨s.committed, s.staged ++ ts⟩
  | .commit n => ⟨s.committed ++ s.staged.take n, s.staged.drop n⟩
  | .discard n =>
    if n ≤ s.staged.length then ⟨s.committed, s.staged.take (s.staged.length - n)⟩ else s
  | .reset => ⟨s.committed, []⟩
  | .add t => ⟨s.committed ++ [t], s.staged⟩
  | .restart => ⟨s.committed, []⟩

/-- How the operations may be called: an append stages at least one
transaction, and transactions are added directly only while nothing is staged. -/
def LedgerState.Allowed (s : LedgerState τ) : LedgerOp τ → Prop
  | .append ts => ts ≠ []
  | .add _ => s.staged = []
  | _ => True

def LedgerState.run (s : LedgerState τ) : List (LedgerOp τ) → LedgerState τ
  | [] => s
  | o :: os => (s.step o).run os

def LedgerState.AllAllowed (s : LedgerState τ) : List (LedgerOp τ) → Prop
  | [] => True
  | o :: os => s.Allowed o ∧ (s.step o).AllAllowed os

end Verif.Spec
