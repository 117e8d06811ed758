import Verif.Model.Dict
/-!
# The connections of a node to the other nodes

`NodeZStack` (plenum/common/stacks.py): `KITZStack` (stp_zmq/kit_zstack.py), `KITNetworkInterface`
(stp_core/network/keep_in_touch.py), `ZStack` (stp_zmq/zstack.py) and `Remote` (stp_zmq/remote.py), with what
`TxnPoolManager` and `TxnStackManager` do to them when the pool changes.

The sockets are ZeroMQ's. A frame that comes in on the listener has the identity the other side announced (`ident`), and the
key its connection is encrypted with (`curve`); the library does not compare them. What a socket reports about itself comes
in as events of its monitor.

Not modelled: bytes, lengths and texts that are not UTF-8 or JSON (`Verif.Entry`); quotas per turn; heartbeats and
`PING_RECONNECT_ENABLED`, which are off; a full queue of a socket (`zmq.Again`); the batching of messages (`Verif.Batched`);
the sockets that are dropped when a remote is connected again.
-/
namespace Verif.Stack

abbrev Name := Nat
/-- A public key, which is also the identity announced. -/
abbrev Key := Nat
/-- Address and port. -/
abbrev Ha := Nat × Nat

/-- The events of the monitor of a socket which `hasLostConnection` looks at (stp_zmq/remote.py:115-140). -/
inductive Mon
  | connected
  | delayed
  | disconnected
  | closed
  | other
  deriving DecidableEq, Repr

/-- stp_zmq/remote.py:28-53, `Remote`. -/
structure Remote where
  ha : Ha
  key : Key
  /-- `socket` is not `None` -/
  socket : Bool := false
  /-- the events on the monitor of the socket; `none`: there is no monitor, and events are lost -/
  monitor : Option (List Mon) := none
  /-- `_isConnected` -/
  live : Bool := false
  deriving DecidableEq, Repr

inductive Msg
  | ping
  | pong
  | data (d : Nat)
  deriving DecidableEq, Repr

/-- What the stack does. -/
inductive Out
  /-- a message is handed to the node as one of node `n`; it came with the identity `k` -/
  | handed (n : Name) (k : Key) (d : Nat)
  | ping (n : Name)
  | pong (n : Name)
  /-- a socket is connected to an address, for a node with this key -/
  | dial (n : Name) (ha : Ha) (k : Key)
  /-- the replicas are told who is connected -/
  | conns (l : List Name)
  deriving DecidableEq, Repr

/-- stp_core/config.py:19-21, 51, 61-62. -/
structure Cfg where
  /-- the name of this node -/
  name : Name
  /-- `localips` -/
  localIps : List Nat
  /-- `ZMQ_STASH_UNKNOWN_REMOTE_MSGS_QUEUE_SIZE` -/
  stashMax : Nat
  /-- `RETRY_CONNECT` -/
  retryConnect : Bool
  /-- `RETRY_SOCKET_RECONNECT` -/
  retrySocket : Bool
  /-- `MAX_RECONNECT_RETRY_ON_SAME_SOCKET` -/
  maxRetry : Nat
  /-- `RETRY_TIMEOUT_RESTRICTED` -/
  pause : Nat

/-- The stack, and what of the node it uses. `_remotes` has one remote for a name. `remotesByKeys` has the same objects: a
remote leaves both at once, so that here it has their names. -/
structure State where
  /-- `nodeReg` -/
  registry : Dict Name Ha := []
  /-- the files with the public keys -/
  disk : Dict Name Key := []
  /-- the keys that the names of nodes in the ledger stand for (`TARGET_NYM`) -/
  nyms : Dict Name Key := []
  remotes : Dict Name Remote := []
  /-- `remotesByKeys` -/
  byKeys : Dict Key Name := []
  /-- `rxMsgs` -/
  rx : List (Msg × Key) := []
  /-- `_stashed_unknown_remote_msgs` -/
  stash : List (Msg × Key) := []
  /-- `_stashed_pongs`, those for identities that are not known -/
  pongs : List Key := []
  /-- `_node_mode` is `participating` -/
  participating : Bool := false
  /-- `_conns` -/
  conns : List Name := []
  /-- `_retry_connect` -/
  retries : Dict Name Nat := []
  now : Nat := 0
  nextCheck : Nat := 0
  /-- an exception left the stack -/
  stopped : Bool := false
  out : List Out := []
  deriving DecidableEq

def State.say (s : State) (o : Out) : State := { s with out := s.out ++ [o] }

/-- stp_zmq/remote.py:115-143: the last of the events that matter is a loss. -/
def lost (evs : List Mon) : Bool :=
  match (evs.filter (fun e => e ≠ .other)).getLast? with
  | some .disconnected => true
  | some .closed => true
  | _ => false

/-- stp_zmq/remote.py:57-65, `isConnected`, and 107-143, `hasLostConnection`. It makes a monitor for the socket if there is
none, reads what it has, and closes it if the connection is lost. -/
def Remote.look (r : Remote) : Remote × Bool :=
  if !r.live then (r, false)
  else if !r.socket then (r, true)
  else if lost (r.monitor.getD []) then ({ r with monitor := none, live := false }, false)
  else ({ r with monitor := some [] }, true)

/-- stp_core/network/network_interface.py:111-119, `connecteds`. -/
def State.connecteds (s : State) : State × List Name :=
  ({ s with remotes := s.remotes.map (fun e => (e.1, e.2.look.1)) },
    (s.remotes.filter (fun e => e.2.look.2)).map Prod.fst)

/-- stp_core/network/network_interface.py:196-204, `sameAddr`. -/
def sameAddr (cfg : Cfg) (a b : Ha) : Bool :=
  a = b || (a.2 = b.2 && a.1 ∈ cfg.localIps && b.1 ∈ cfg.localIps)

/-- stp_zmq/zstack.py:168-180, `removeRemote`, with plenum/common/stack_manager.py:196-206. -/
def State.removeRemote (s : State) (n : Name) : State :=
  match s.remotes.get? n with
  | none => s
  | some r => { s with remotes := s.remotes.erase n, byKeys := s.byKeys.erase r.key }

/-- stp_zmq/zstack.py:837-869, `transmit`: can something be sent? -/
def State.canSend (s : State) (n : Name) : Bool :=
  match s.remotes.get? n with
  | none => false
  | some r => r.socket

/-- stp_zmq/zstack.py:750-771, `sendPingPong`, of a ping. -/
def State.sendPing (s : State) (n : Name) : State := if s.canSend n then s.say (.ping n) else s

/-- The same of a pong to a node that is known. One that fails is kept under the name, and never sent. -/
def State.sendPong (s : State) (n : Name) : State := if s.canSend n then s.say (.pong n) else s

/-- stp_zmq/zstack.py:651-696, `connect`, with the exceptions `connectToMissing` catches. A remote that is there is connected
again, to its own address. -/
def State.connect (s : State) (n : Name) (ha : Ha) : State :=
  match s.remotes.get? n with
  | some r =>
    ({ s with remotes := s.remotes.set n { r with socket := true, monitor := none } }.say (.dial n r.ha r.key)).sendPing n
  | none =>
    match s.disk.get? n with
    | none => s
    | some k =>
      let s := { s with remotes := s.remotes.set n { ha := ha, key := k, socket := true }, byKeys := s.byKeys.set k n }
      let s := (s.say (.dial n ha k)).sendPing n
      if k ∈ s.pongs then State.sendPong { s with pongs := s.pongs.filter (· ≠ k) } n else s

/-- stp_zmq/kit_zstack.py:71-86, `reconcileNodeReg`. -/
def State.missing (cfg : Cfg) (s : State) : List Name :=
  s.registry.keys.filter (fun n => n ≠ cfg.name &&
    !(match s.remotes.get? n, s.registry.get? n with
      | some r, some ha => sameAddr cfg r.ha ha
      | _, _ => false))

/-- stp_zmq/kit_zstack.py:113-131, `connectToMissing`. A Python set has no order; here it is that of the registry. -/
def State.connectTo (s : State) (l : List Name) : State :=
  l.foldl (fun s n => match s.registry.get? n with
    | none => s
    | some ha => s.connect n ha) s

/-- stp_zmq/zstack.py:698-712, `reconnectRemote`. -/
def State.reconnect (s : State) (n : Name) : State :=
  match s.remotes.get? n with
  | none => s
  | some r =>
    ({ s with remotes := s.remotes.set n { r with socket := true, monitor := none, live := false } }.say
      (.dial n r.ha r.key)).sendPing n

/-- stp_zmq/kit_zstack.py:88-111, `retryDisconnected`, the body of the loop. -/
def State.retryOne (cfg : Cfg) (exclude : List Name) (s : State) (n : Name) : State :=
  match s.remotes.get? n with
  | none => s
  | some r =>
    if n ∈ exclude then { s with retries := s.retries.erase n }
    else
      let s := { s with remotes := s.remotes.set n r.look.1 }
      if r.look.2 then { s with retries := s.retries.erase n }
      else if !cfg.retrySocket then s.sendPing n
      else
        let c := (s.retries.get? n).getD 0
        if !r.look.1.socket || c ≥ cfg.maxRetry then State.reconnect { s with retries := s.retries.erase n } n
        else State.sendPing { s with retries := s.retries.set n (c + 1) } n

/-- stp_zmq/kit_zstack.py:88-111, `retryDisconnected`. -/
def State.retryDisconnected (cfg : Cfg) (s : State) (exclude : List Name) : State :=
  if !cfg.retryConnect then s else s.remotes.keys.foldl (State.retryOne cfg exclude) s

/-- stp_zmq/kit_zstack.py:54-69, `maintainConnections`. -/
def State.maintain (cfg : Cfg) (s : State) (force : Bool) : State :=
  if s.now < s.nextCheck && !force then s
  else
    let s := { s with nextCheck := s.now + cfg.pause }
    let l := s.missing cfg
    (s.connectTo l).retryDisconnected cfg l

/-- stp_core/network/keep_in_touch.py:92-100, of `_connsChanged`: other remotes with the address of a node now connected are
removed. `getRemote` raises if the node itself was, for one before it. -/
def State.dropSame (s : State) (i : Name) : State :=
  if s.stopped then s
  else match s.remotes.get? i with
  | none => { s with stopped := true }
  | some r =>
    ((s.remotes.filter (fun e => e.2.ha = r.ha && e.1 ≠ i)).map Prod.fst).foldl State.removeRemote s

/-- stp_core/network/keep_in_touch.py:57-74, the setter of `conns`, with 76-102, `_connsChanged`, and
plenum/server/node.py:1187-1188 of `onConnsChanged`. -/
def State.checkConns (s : State) : State :=
  let x := s.connecteds
  if x.2.all (· ∈ s.conns) && s.conns.all (· ∈ x.2) then x.1
  else
    let ins := x.2.filter (· ∉ s.conns)
    let s := ins.foldl State.dropSame { x.1 with conns := x.2 }
    if s.stopped then s
    else
      let y := s.connecteds
      y.1.say (.conns y.2)

/-- stp_zmq/remote.py:67-70, `setConnected`. -/
def State.setLive (s : State) (n : Name) : State :=
  match s.remotes.get? n with
  | none => s
  | some r => { s with remotes := s.remotes.set n { r with live := true } }

/-- `append` to a `deque` with a `maxlen`: the oldest goes. -/
def push (m : Nat) (l : List (Msg × Key)) (x : Msg × Key) : List (Msg × Key) := (l ++ [x]).drop (l.length + 1 - m)

/-- stp_zmq/zstack.py:606-646, `processReceived`, the body of the loop; with 775-793, `handlePingPong`. -/
def State.process (cfg : Cfg) (s : State) : State :=
  match s.rx with
  | [] => s
  | (m, k) :: rest =>
    let s := { s with rx := rest }
    match s.byKeys.get? k with
    | some n =>
      let s := if cfg.retryConnect then s else s.setLive n
      match m with
      | .ping => s.sendPong n
      | .pong => s.setLive n
      | .data d => s.say (.handed n k d)
    | none =>
      match m with
      | .ping => { s with pongs := if k ∈ s.pongs then s.pongs else s.pongs ++ [k] }
      | .pong => s
      | .data d => if s.participating then s else { s with stash := push cfg.stashMax s.stash (.data d, k) }

/-- plenum/common/stack_manager.py:100-126, `connectNewRemote`, and plenum/server/pool_manager.py:204-215: a node gets into the
pool. The key `k` is that of the name of the node, `TARGET_NYM`, also for a node that gets in again (pool_manager.py:307-308). -/
def State.connectNew (cfg : Cfg) (s : State) (n : Name) (ha : Ha) (k : Key) : State :=
  if n = cfg.name then { s with registry := s.registry.set n ha }
  else State.maintain cfg { s with disk := s.disk.set n k, nyms := s.nyms.set n k, registry := s.registry.set n ha } true

/-- plenum/server/pool_manager.py:222-257, `nodeHaChanged`, and plenum/common/stack_manager.py:128-174, `stackHaChanged`; of nodes in
the registry (pool_manager.py:179). -/
def State.haChanged (cfg : Cfg) (s : State) (n : Name) (ha : Ha) : State :=
  if !s.registry.has n then s
  else if n = cfg.name then { s with registry := s.registry.set n ha }
  else
    let s := s.removeRemote n
    State.maintain cfg { s with registry := s.registry.set n ha } true

/-- plenum/server/pool_manager.py:263-282, `nodeKeysChanged`, and plenum/common/stack_manager.py:176-194, `stackKeysChanged`:
a node has a new key, `VERKEY`. -/
def State.keysChanged (cfg : Cfg) (s : State) (n : Name) (k : Key) : State :=
  if !s.registry.has n || n = cfg.name then s
  else
    let s := s.removeRemote n
    State.maintain cfg { s with disk := s.disk.set n k } true

/-- plenum/server/pool_manager.py:312-326, of `nodeServicesChanged`: a node is no validator any more. -/
def State.demote (cfg : Cfg) (s : State) (n : Name) : State :=
  let s := { s with registry := s.registry.erase n }
  if n = cfg.name then s else s.removeRemote n

inductive Ev
  /-- a frame comes in on the listener, on a connection encrypted with the key `curve`; it announced `ident` -/
  | recv (curve ident : Key) (m : Msg)
  /-- a frame comes in on the socket of a remote: zstack.py:551-586 -/
  | recvRemote (k : Key) (m : Msg)
  /-- the next message is processed -/
  | process
  /-- `process_unknown_remote_msgs`, zstack.py:795-801; then the messages are processed -/
  | unknown
  | setMode (participating : Bool)
  | maintain (force : Bool)
  | checkConns
  /-- an event on the socket of a remote -/
  | mon (n : Name) (e : Mon)
  | tick (d : Nat)
  | connectNew (n : Name) (ha : Ha) (k : Key)
  | haChanged (n : Name) (ha : Ha)
  | keysChanged (n : Name) (k : Key)
  | demote (n : Name)
  /-- the process is started again: the registry is that of the ledger, and the keys are those of the names
  (stack_manager.py:82-92, `_parse_pool_transaction_file`, and 208-224, `addRemoteKeysFromLedger`) -/
  | restart
  deriving DecidableEq

/-- stp_zmq/zstack.py:553-586, `_receiveFromRemotes`, one frame. -/
def State.recvRemote (s : State) (k : Key) (m : Msg) : State :=
  match s.byKeys.get? k with
  | none => s
  | some n => if s.canSend n then { s with rx := s.rx ++ [(m, k)] } else s

/-- An event of a socket: it is seen if there is a monitor. -/
def State.mon (s : State) (n : Name) (e : Mon) : State :=
  match s.remotes.get? n with
  | none => s
  | some r => { s with remotes := s.remotes.set n { r with monitor := r.monitor.map (· ++ [e]) } }

def State.step (cfg : Cfg) (s : State) : Ev → State
  | .recv _ k m => { s with rx := s.rx ++ [(m, k)] }
  | .recvRemote k m => s.recvRemote k m
  | .process => s.process cfg
  | .unknown => { s with rx := s.rx ++ s.stash, stash := [] }
  | .setMode b => { s with participating := b }
  | .maintain force => s.maintain cfg force
  | .checkConns => s.checkConns
  | .mon n e => s.mon n e
  | .tick d => { s with now := s.now + d }
  | .connectNew n ha k => s.connectNew cfg n ha k
  | .haChanged n ha => s.haChanged cfg n ha
  | .keysChanged n k => s.keysChanged cfg n k
  | .demote n => s.demote cfg n
  | .restart => { registry := s.registry, disk := s.nyms, nyms := s.nyms, now := s.now, out := s.out }

def State.run (cfg : Cfg) (s : State) (es : List Ev) : State := es.foldl (State.step cfg) s

end Verif.Stack
