/-!
# Model of what a node takes from its sockets in one turn

`ZStack._receiveFromListener` and `_receiveFromRemotes` (stp_zmq/zstack.py), the quotas of
plenum/server/quota_control.py and their use in `Node.prod` (plenum/server/node.py).

A socket is the list of what `recv_multipart` gives until it raises `zmq.Again`. What comes in
while a turn goes on is part of that list. Bytes are numbers. What `_verifyAndAppend` accepts is
a parameter. What is done with the messages afterwards, `processReceived`, is in `Model/Entry.lean`;
here all that is handed to it is kept.
-/
namespace Verif.Intake

abbrev Bytes := List Nat

/-- stp_zmq/zstack.py:46, `Quota`. -/
structure Quota where
  count : Nat
  size : Nat
  deriving DecidableEq, Repr

/-- One call of `recv_multipart`: the parts of a message, or a `ZMQError` other than `Again`. -/
inductive Recv
  | parts (ps : List Bytes)
  | error
  deriving DecidableEq, Repr

/-- What a loop leaves: the number and size of the messages counted, those handed on, what is
still in the socket, and whether an exception left the loop. -/
structure Out where
  count : Nat
  size : Nat
  rx : List (Bytes × Bytes)
  rest : List Recv
  raised : Bool
  deriving DecidableEq, Repr

/-- stp_zmq/zstack.py:520-551, `_receiveFromListener`. Two parts are unpacked; more are ignored;
a single one is a `ValueError`, which nothing catches. -/
def listen (ok : Bytes → Bytes → Bool) (q : Quota) (i sz : Nat) (rx : List (Bytes × Bytes)) : List Recv → Out
  | [] => ⟨i, sz, rx, [], false⟩
  | r :: rest =>
    if i < q.count ∧ sz < q.size then
      match r with
      | .error => listen ok q i sz rx rest
      | .parts ps =>
        if ps.length > 2 then listen ok q i sz rx rest
        else match ps with
          | [ident, msg] =>
            if msg.isEmpty then listen ok q i sz rx rest
            else listen ok q (i + 1) (sz + msg.length) (if ok msg ident then rx ++ [(msg, ident)] else rx) rest
          | _ => ⟨i, sz, rx, rest, true⟩
    else ⟨i, sz, rx, r :: rest, false⟩

/-- stp_zmq/zstack.py:562-585, `_receiveFromRemotes`: the loop for one remote. One part is unpacked; any
other number is a `ValueError`, which nothing catches. -/
def fromRemote (ok : Bytes → Bytes → Bool) (quota : Nat) (ident : Bytes) (i : Nat) (rx : List (Bytes × Bytes)) :
    List Recv → Out
  | [] => ⟨i, 0, rx, [], false⟩
  | r :: rest =>
    if i < quota then
      match r with
      | .error => fromRemote ok quota ident i rx rest
      | .parts ps =>
        match ps with
        | [msg] =>
          if msg.isEmpty then fromRemote ok quota ident i rx rest
          else fromRemote ok quota ident (i + 1) (if ok msg ident then rx ++ [(msg, ident)] else rx) rest
        | _ => ⟨i, 0, rx, rest, true⟩
    else ⟨i, 0, rx, r :: rest, false⟩

/-- A remote: its key and its socket, if it has one. -/
abbrev Remotes := List (Bytes × Option (List Recv))

/-- stp_zmq/zstack.py:553-586, `_receiveFromRemotes`: what is handed on, the remotes, and whether an exception
left it; then the remotes that follow are not looked at. -/
def fromRemotes (ok : Bytes → Bytes → Bool) (quota : Nat) (rx : List (Bytes × Bytes)) :
    Remotes → List (Bytes × Bytes) × Remotes × Bool
  | [] => (rx, [], false)
  | (ident, none) :: rs =>
    let r := fromRemotes ok quota rx rs
    (r.1, (ident, none) :: r.2.1, r.2.2)
  | (ident, some sock) :: rs =>
    let o := fromRemote ok quota ident 0 rx sock
    if o.raised then (o.rx, (ident, some o.rest) :: rs, true)
    else
      let r := fromRemotes ok quota o.rx rs
      (r.1, (ident, some o.rest) :: r.2.1, r.2.2)

/-- A stack: its listener, its remotes and what was handed on. -/
structure Stack where
  listener : List Recv := []
  remotes : Remotes := []
  rx : List (Bytes × Bytes) := []
  stopped : Bool := false
  deriving DecidableEq, Repr

/-- stp_zmq/zstack.py:588-604, `_serviceStack`, without the heartbeats. -/
def Stack.turn (ok : Bytes → Bytes → Bool) (q : Quota) (senderQuota : Nat) (s : Stack) : Stack :=
  let o := listen ok q 0 0 s.rx s.listener
  if o.raised then { s with listener := o.rest, rx := o.rx, stopped := true }
  else
    let r := fromRemotes ok senderQuota o.rx s.remotes
    { listener := o.rest, remotes := r.2.1, rx := r.1, stopped := r.2.2 }

/-- plenum/server/quota_control.py:22-36, `StaticQuotaControl`, and 58-77, `RequestQueueQuotaControl`.
`CompositeQuotaControl` is not used by the node and left out. -/
inductive Control
  | static (node client : Quota)
  | queue (max : Nat) (node client : Quota) (overflow : Bool)
  deriving DecidableEq, Repr

/-- plenum/server/quota_control.py:27-28 and 68-69, `update_state`. -/
def Control.update : Control → Nat → Control
  | .static n c, _ => .static n c
  | .queue max n c _, size => .queue max n c (decide (size ≥ max))

/-- plenum/server/quota_control.py:30-32 and 71-73, `node_quota`. -/
def Control.node : Control → Quota
  | .static n _ => n
  | .queue _ n _ _ => n

/-- plenum/server/quota_control.py:34-36 and 75-77, `client_quota`. -/
def Control.client : Control → Quota
  | .static _ c => c
  | .queue _ _ c overflow => if overflow then ⟨0, 0⟩ else c

/-- What is set when the node starts: the checks of messages and the sender quota. -/
structure Cfg where
  okNode : Bytes → Bytes → Bool
  okClient : Bytes → Bytes → Bool
  senderQuota : Nat

structure Node where
  ctl : Control
  node : Stack := {}
  client : Stack := {}
  deriving DecidableEq, Repr

/-- plenum/server/node.py:1037-1075, `prod`, as far as messages are taken in (`serviceNodeMsgs`,
node.py:1095-1109, and `serviceClientMsgs`, node.py:1111-1123), with the number of requests that
wait to be ordered. An exception that leaves it ends the process. The client stack has no
remotes. -/
def Node.prod (cfg : Cfg) (s : Node) (waiting : Nat) : Node :=
  if s.node.stopped ∨ s.client.stopped then s
  else
    let ctl := s.ctl.update waiting
    let node := s.node.turn cfg.okNode ctl.node cfg.senderQuota
    if node.stopped then { s with ctl := ctl, node := node }
    else { ctl := ctl, node := node, client := s.client.turn cfg.okClient ctl.client cfg.senderQuota }

/-- What comes in from clients, from nodes that connect to this one and from nodes this one connects to
(their key), and the turns. -/
inductive Ev
  | fromClient (r : Recv)
  | fromNode (r : Recv)
  | fromRemote (ident : Bytes) (r : Recv)
  | prod (waiting : Nat)
  deriving DecidableEq, Repr

/-- Something comes in at a socket, or the node has its turn. -/
def Node.step (cfg : Cfg) (s : Node) : Ev → Node
  | .fromClient r => { s with client := { s.client with listener := s.client.listener ++ [r] } }
  | .fromNode r => { s with node := { s.node with listener := s.node.listener ++ [r] } }
  | .fromRemote ident r =>
    { s with node := { s.node with remotes := s.node.remotes.map (fun p =>
      if p.1 = ident then (p.1, p.2.map (fun sock => sock ++ [r])) else p) } }
  | .prod w => s.prod cfg w

def Node.run (cfg : Cfg) (s : Node) (evs : List Ev) : Node := evs.foldl (Node.step cfg) s

end Verif.Intake
