import Verif.Model.Waiting
/-!
# Specification: PRE-PREPAREs that wait
-/
namespace Verif.Waiting

/-- The replica keeps a PRE-PREPARE of a sender, in one of its two queues. -/
def Waits (s : State) (p : PP) (frm : Nat) : Prop :=
  (∃ m, ({ pp := p, frm := frm, missing := m } : Item) ∈ s.pendFin) ∨ s.pendPrev.get? p.key = some (p, frm)

/-- No other PRE-PREPARE with the same key is kept. -/
def Alone (s : State) (p : PP) (frm : Nat) : Prop :=
  ∀ p' frm', Waits s p' frm' → p'.key = p.key → p' = p ∧ frm' = frm

/-- Events after which the replica is still in the same view, and no other PRE-PREPARE with the key of `p` comes. -/
def Quiet (v : Nat) (p : PP) (frm : Nat) : Ev → Prop
  | .recv p' frm' _ => p'.key = p.key → p' = p ∧ frm' = frm
  | .viewChange _ => False
  | .caughtUp v' _ => v' ≤ v
  | _ => True

/-- A PRE-PREPARE came from a sender. -/
def Came (es : List Ev) (p : PP) (frm : Nat) : Prop := ∃ env, Ev.recv p frm env ∈ es

/-- All the other checks are passed. -/
def good : Env where
  valid := fun _ _ => true
  genuine := fun _ _ => true
  timely := fun _ _ => true
  recorded := fun _ _ => false
  applies := fun _ _ => true

/-- The requests of a PRE-PREPARE are known and finalised. -/
def Complete (s : State) (p : PP) : Prop := ∀ r ∈ p.reqs, s.reqs.get? r = some true

end Verif.Waiting
