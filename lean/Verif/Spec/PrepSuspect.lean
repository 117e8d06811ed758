import Verif.Model.PrepSuspect
/-!
# Who should be reported for a PREPARE

Read off the messages that came in.
-/
namespace Verif.Spec.PrepSuspect
open Verif.PrepSuspect

/-- The PRE-PREPARE of the batch: the first one. -/
def ppOf : List Ev → Option Content
  | [] => none
  | .preprepare p :: _ => some p
  | .prepare _ _ :: h => ppOf h

/-- The PREPAREs of a node. -/
def sentBy (h : List Ev) (x : Node) : List Content :=
  h.filterMap (fun e => match e with
    | .prepare c y => if y = x then some c else none
    | .preprepare _ => none)

/-- A replica that keeps PREPAREs without a PRE-PREPARE: all but a primary outside of what is ordered again. -/
def Keeps (cfg : Cfg) : Prop := cfg.me ≠ cfg.primary ∨ cfg.certified = true

/-- An honest backup in the eyes of the replica: it sends one PREPARE, for the PRE-PREPARE that the replica has; and to a
primary only after its PRE-PREPARE. -/
structure Honest (cfg : Cfg) (h : List Ev) (x : Node) : Prop where
  backup : x ≠ cfg.primary ∧ x ≠ cfg.me
  once : (sentBy h x).length ≤ 1
  same : ∀ c ∈ sentBy h x, ∀ p, ppOf h = some p → c = p
  after : Keeps cfg ∨ ∀ h1 h2 c, h = h1 ++ .prepare c x :: h2 → (ppOf h1).isSome

/-- The replica reported the node. -/
def Reported (s : State) (x : Node) : Prop := ∃ r, (x, r) ∈ s.reports

/-- What the code of a report says of the node. -/
def Justified (cfg : Cfg) (h : List Ev) (x : Node) : Susp → Prop
  | .frmPrimary => x = cfg.primary ∧ sentBy h x ≠ []
  | .duplicate => x ≠ cfg.primary ∧ (∃ p, ppOf h = some p ∧ (x = cfg.me ∨ p ∈ sentBy h x))
  | .unknown => x ≠ cfg.primary ∧ cfg.me = cfg.primary ∧ cfg.certified = false ∧ sentBy h x ≠ []
  | .digestWrong => x ≠ cfg.primary ∧ ∃ p, ppOf h = some p ∧ ∃ c ∈ sentBy h x, c.digest ≠ p.digest
  | .stateWrong => x ≠ cfg.primary ∧ ∃ p, ppOf h = some p ∧ ∃ c ∈ sentBy h x, c.stateRoot ≠ p.stateRoot
  | .txnWrong => x ≠ cfg.primary ∧ ∃ p, ppOf h = some p ∧ ∃ c ∈ sentBy h x, c.txnRoot ≠ p.txnRoot
  | .auditWrong => x ≠ cfg.primary ∧ ∃ p, ppOf h = some p ∧ ∃ c ∈ sentBy h x, c.auditRoot ≠ p.auditRoot

end Verif.Spec.PrepSuspect
