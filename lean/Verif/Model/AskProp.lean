import Verif.Model.Dict
/-!
# Asking other nodes for requests that are missing

`Propagator.request_propagates`, down to the nodes to which a `MessageReq` is sent. Left out: what comes back.
-/
namespace Verif.AskProp

abbrev Digest := Nat
abbrev Name := Nat

/-- To whom a message is sent. -/
inductive To where
  | all
  | names (l : List Name)
deriving DecidableEq, Repr

/-- What a call finds: for the requests the node knows, the nodes that sent a PROPAGATE; and the connected nodes. -/
structure Env where
  senders : Digest → Option (List Name)
  conns : List Name

/-- plenum/server/node.py:2987-2992, `sendToNodes`, with plenum/server/message_req_processor.py:53-57, `request_msg`: no names
mean all nodes. The names are those of connected nodes, which are remotes. -/
def sendTo (names : Option (List Name)) : To :=
  match names with
  | none => .all
  | some [] => .all
  | some (x :: l) => .names (x :: l)

/-- plenum/server/propagator.py:343-347, the loop of `_add_to_recently_requested`. -/
def trim (max : Nat) : List Digest → List Digest
  | [] => []
  | x :: r => if (x :: r).length > max then trim max r else x :: r

/-- plenum/server/propagator.py:343-348, `_add_to_recently_requested`. -/
def remember (max : Nat) (l : List Digest) (d : Digest) : List Digest :=
  let l := trim max l
  if d ∈ l then l else l ++ [d]

/-- One digest of a call: the digests remembered, and the message. plenum/server/propagator.py:326-341, `request_propagates`. -/
def askOne (max : Nat) (e : Env) (l : List Digest) (d : Digest) : List Digest × Option (Digest × To) :=
  if d ∈ l then (l, none)
  else
    let to := match e.senders d with
      | none => sendTo none
      | some s => sendTo (some (e.conns.filter (fun x => decide (x ∉ s))))
    (remember max l d, some (d, to))

/-- A node: the digests remembered, and all messages sent so far. -/
structure State where
  requested : List Digest := []
  sent : List (Digest × To) := []
deriving DecidableEq, Repr

/-- One digest of a call, with the messages. plenum/server/propagator.py:326-341, `request_propagates`. -/
def State.one (max : Nat) (e : Env) (s : State) (d : Digest) : State :=
  match askOne max e s.requested d with
  | (l, none) => { s with requested := l }
  | (l, some m) => { requested := l, sent := s.sent ++ [m] }

/-- plenum/server/propagator.py:316-342, `request_propagates`. -/
def State.call (max : Nat) (s : State) (c : Env × List Digest) : State := c.2.foldl (State.one max c.1) s

/-- A history of calls. -/
def run (max : Nat) (h : List (Env × List Digest)) : State := h.foldl (State.call max) {}

end Verif.AskProp
