import Verif.Model.ClientSend
/-!
# What becomes of the messages to a client
-/
namespace Verif.Spec.ClientSend
open Verif.ClientSend

/-- The messages the node has asked to send to a client, in order. -/
def given (evs : List Ev) (i : Id) : List Msg :=
  evs.filterMap (fun e => match e with
    | .transmit _ j m _ => if j = i then some m else none
    | _ => none)

/-- Those the socket has taken, in order. -/
def sentTo (s : St) (i : Id) : List Msg :=
  s.log.filterMap (fun x => if x.1 = .sent ∧ x.2.1 = i then some x.2.2 else none)

/-- Those given up. -/
def lost (s : St) (i : Id) : List Msg :=
  s.log.filterMap (fun x => if x.1 ≠ .sent ∧ x.2.1 = i then some x.2.2 else none)

/-- Those kept for later, in order. -/
def kept (s : St) (i : Id) : List Msg := ((s.pending.get? i).getD []).map Prod.snd

/-- The time of an event. -/
def time : Ev → Nat
  | .transmit now _ _ _ => now
  | .resend now _ => now
  | .removeOld now => now

/-- Within one call, once the socket has put off a message for a client, it takes no more messages for this client. -/
def Steady : Ev → Prop
  | .transmit _ _ _ out => ∀ n k, n ≤ k → out n = .again → out k ≠ .sent
  | .resend _ out => ∀ i n k, n ≤ k → out i n = .again → out i k ≠ .sent
  | .removeOld _ => True

end Verif.Spec.ClientSend
