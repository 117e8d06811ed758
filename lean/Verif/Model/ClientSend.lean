import Verif.Model.Dict
import Verif.Model.PyVal
/-!
# Messages to clients

`stp_zmq/client_message_provider.py`: what a node has to send to a client is kept until the socket
takes it.

Simplified: all readings of the clock within one call give the same time; names of clients and
messages are byte strings; timers are events.
-/
namespace Verif.ClientSend

abbrev Id := Bytes
abbrev Msg := Bytes

/-- What happens when a message is given to the socket: it is taken; it fails for good (too big, an error of the
socket); the socket is busy or the client unreachable (`zmq.Again`, error 113).
Models stp_zmq/client_message_provider.py:57-85, `_transmit_one_msg_throughlistener`. -/
inductive Outcome where
  | sent
  | failed
  | again
deriving DecidableEq, Repr

/-- stp_core/config.py:52-55. -/
structure Config where
  clients : Nat := 100
  messages : Nat := 100
  resend : Nat := 30
  remove : Nat := 300

/-- How a message left the list of pending messages. -/
inductive Fate where
  | sent
  | failed
  | evicted
  | expired
deriving DecidableEq, Repr

abbrev Entry := Nat × Msg

/-- The log is not in the code: it says what became of the messages. -/
structure St where
  pending : Dict Id (List Entry) := []
  log : List (Fate × Id × Msg) := []
deriving DecidableEq, Repr

/-- Whether a message is done with: `need_to_resend` is false. -/
def Outcome.fate : Outcome → Option Fate
  | .sent => some .sent
  | .failed => some .failed
  | .again => none

/-- `none` is a `KeyError` or `ValueError`.
Models stp_zmq/client_message_provider.py:93-96, `_remove_message`. -/
def removeMessage (p : Dict Id (List Entry)) (i : Id) (e : Entry) : Option (Dict Id (List Entry)) :=
  match p.get? i with
  | none => none
  | some l =>
    if e ∈ l then
      if l.erase e = [] then some (p.erase i) else some (p.set i (l.erase e))
    else none

/-- The loop over a copy of the messages of one client; `fate n` is what the `n`-th attempt comes to.
Models stp_zmq/client_message_provider.py:37-41, 48-53 and 89-92. -/
def dropEach (fate : Nat → Option Fate) (i : Id) (due : Entry → Bool) : Nat → List Entry → St → Option St
  | _, [], s => some s
  | n, e :: es, s =>
    if due e then
      match fate n with
      | none => dropEach fate i due (n + 1) es s
      | some f =>
        match removeMessage s.pending i e with
        | none => none
        | some p => dropEach fate i due (n + 1) es ⟨p, s.log ++ [(f, i, e.2)]⟩
    else dropEach fate i due n es s

/-- `popitem(last=False)` if there are too many clients.
Models stp_zmq/client_message_provider.py:31-32. -/
def limitClients (c : Config) (s : St) : St :=
  if c.clients < s.pending.length then
    match s.pending with
    | [] => s
    | (j, l) :: p => ⟨p, s.log ++ l.map (fun e => (.evicted, j, e.2))⟩
  else s

/-- `pop(0)` if there are too many messages of this client.
Models stp_zmq/client_message_provider.py:33-34. -/
def limitMessages (c : Config) (i : Id) (l : List Entry) (s : St) : St × List Entry :=
  if c.messages < l.length then
    (⟨s.pending.set i l.tail, s.log ++ (l.take 1).map (fun e => (.evicted, i, e.2))⟩, l.tail)
  else (s, l)

/-- The new state and the first of the two values returned: the outcome of the last attempt.
Models stp_zmq/client_message_provider.py:28-42, `transmit_through_listener`. -/
def transmit (c : Config) (now : Nat) (i : Id) (m : Msg) (out : Nat → Outcome) (s : St) : Option (St × Bool) :=
  let s := { s with pending := s.pending.set i ((s.pending.get? i).getD [] ++ [(now, m)]) }
  let s := limitClients c s
  match s.pending.get? i with
  | none => none
  | some l =>
    let r := limitMessages c i l s
    match dropEach (fun n => (out n).fate) i (fun _ => true) 0 r.2 r.1 with
    | none => none
    | some s => some (s, r.2 = [] || out (r.2.length - 1) = .sent)

/-- A loop over a copy of the keys. -/
def eachClient (f : Id → List Entry → St → Option St) : List Id → St → Option St
  | [], s => some s
  | i :: is, s =>
    match s.pending.get? i with
    | none => none
    | some l =>
      match f i l s with
      | none => none
      | some s => eachClient f is s

/-- Models stp_zmq/client_message_provider.py:44-54, `_send_pending_messages`. -/
def resend (c : Config) (now : Nat) (out : Id → Nat → Outcome) (s : St) : Option St :=
  eachClient (fun i l s => dropEach (fun n => (out i n).fate) i (fun e => c.resend ≤ now - e.1) 0 l s) s.pending.keys s

/-- Models stp_zmq/client_message_provider.py:87-91, `_remove_old_messages`. -/
def removeOld (c : Config) (now : Nat) (s : St) : Option St :=
  eachClient (fun i l s => dropEach (fun _ => some .expired) i (fun e => c.remove ≤ now - e.1) 0 l s) s.pending.keys s

/-- What happens to the provider. -/
inductive Ev where
  | transmit (now : Nat) (i : Id) (m : Msg) (out : Nat → Outcome)
  | resend (now : Nat) (out : Id → Nat → Outcome)
  | removeOld (now : Nat)

def step (c : Config) (s : St) : Ev → Option St
  | .transmit now i m out => (transmit c now i m out s).map Prod.fst
  | .resend now out => resend c now out s
  | .removeOld now => removeOld c now s

def runFrom (c : Config) (s : St) (evs : List Ev) : Option St := evs.foldl (fun s e => s.bind (step c · e)) (some s)

def run (c : Config) (evs : List Ev) : Option St := runFrom c {} evs

end Verif.ClientSend
