import Verif.Model.AskPp
/-!
# C105: what a history says of the PREPAREs for a missing PRE-PREPARE
-/
namespace Verif.AskPp
open Verif Verif.MsgReq

/-- The PREPAREs with the number that came: what they say and who sent them. -/
def preparesOf (k : Key) (h : List Ev) : List (Stash × Nat) :=
  h.filterMap fun
    | .prepare j st x _ => if j = k then some (st, x) else none
    | _ => none

/-- The event is about the number. -/
def about (k : Key) : Ev → Bool
  | .prepare j _ _ _ => decide (j = k)
  | .missing j _ => decide (j = k)
  | _ => false

/-- The event ends the wait for the PRE-PREPARE with the number: it is there or ordered, a checkpoint covers it, or a view
change starts. -/
def ends (k : Key) : Ev → Bool
  | .arrived j => decide (j = k)
  | .ordered j => decide (j = k)
  | .viewChangeStarted => true
  | .stable j => decide (k.2 ≤ j.2)
  | _ => false

/-- The pool stays the same size. -/
def sameSize (n : Nat) : Ev → Prop
  | .data d => d.n = n
  | _ => True

/-- A wait for a PRE-PREPARE. Before it, in `h0`, anything happens that is not about the number; in `h1` anything that does
not end the wait. -/
structure Wait (n : Nat) (k : Key) (h0 h1 : List Ev) : Prop where
  before : ∀ e ∈ h0, about k e = false
  during : ∀ e ∈ h1, ends k e = false
  size : ∀ e ∈ h0 ++ h1, sameSize n e

/-- Nothing keeps the replica from asking. -/
def Ctx.free (c : Ctx) : Prop :=
  c.stashedForTime = false ∧ c.may = true ∧ c.pendingPrev = false ∧ c.pendingReqs = [] ∧ c.enabled = true

/-- The PREPAREs with the number find nothing that keeps the replica from asking. -/
def allFree (k : Key) (h : List Ev) : Prop := ∀ st x c, Ev.prepare k st x c ∈ h → c.free

/-- A reply with a PRE-PREPARE of the number that says `st` would be new: it is neither ordered nor there. -/
def fresh (d : Data) (k : Key) : Prop := d.lastOrdered.2 < k.2 ∧ d.preprepared.contains k = false

end Verif.AskPp
