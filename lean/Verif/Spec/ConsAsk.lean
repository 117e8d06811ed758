import Verif.Model.ConsAsk
/-!
# What other nodes said to a node that looks for a target of catchup

In terms of the messages only.
-/
namespace Verif.ConsAsk.Spec
open Verif.Catchup (Name)
open Verif.ConsProof (Proof Status Msg)

/-- The messages among the events. -/
def msgs (evs : List Ev) : List (Name × Msg) :=
  evs.filterMap (fun e => match e with | .msg x m => some (x, m) | _ => none)

/-- What a message says to a node with `size` transactions: nothing that counts (`none`), that the
sender has no more (`some none`), or that it has more, with a proof. -/
def says (size : Nat) : Msg → Option (Option Proof)
  | .status st => if st.size ≤ size then some none else none
  | .proof p => if p.seqStart ≤ size ∧ p.seqStart < p.seqEnd then some (some p) else none

/-- The last thing a node said that counts. -/
def lastSaid (size : Nat) (ms : List (Name × Msg)) (x : Name) : Option (Option Proof) :=
  (ms.filterMap (fun m => if m.1 = x then says size m.2 else none)).getLast?

/-- The node says last that it has more than `k` transactions. -/
def claimsMore (size : Nat) (ms : List (Name × Msg)) (k : Nat) (x : Name) : Prop :=
  ∃ p, lastSaid size ms x = some (some p) ∧ k < p.seqEnd

end Verif.ConsAsk.Spec
