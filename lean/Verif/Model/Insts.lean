import Verif.Model.Primary
import Verif.Model.Quorums
/-!
# The protocol instances of a node

`setPoolParams`, `adjustReplicas` and the routing of messages to replicas of
plenum/server/node.py, with plenum/server/replicas.py and `restore_replicas` of
plenum/server/backup_instance_faulty_processor.py. Instances are numbers, 0 is the master.
The inbox of a replica holds all it was given; what the replica does with it is not
modelled here. A new replica gets a number of its own, so that it can be told from one it
replaces. An exception is kept as `crashed`: what was done before it stays done, and nothing
happens after it.
-/
namespace Verif.Insts
open Verif Verif.Primary

/-- Messages from other nodes that go to replicas. -/
inductive Kind where
  /-- `ThreePhaseType`, plenum/common/messages/node_messages.py:487 -/
  | threePhase
  | instanceChange
  /-- anything else: `Checkpoint`, `MessageReq`, … -/
  | other
deriving Repr, DecidableEq

/-- A message, its sender, and the instance it names, if any. `body` tells messages apart.
Names of instances that are not numbers are not modelled. -/
structure Msg where
  kind : Kind
  inst : Option Nat
  frm : Node
  body : Nat
deriving Repr, DecidableEq

/-- What is needed of a replica. `lost`: `_primary_disconnection_time` of its
`PrimaryConnectionMonitorService`. -/
structure Replica where
  serial : Nat
  inbox : List Msg := []
  primary : Option Node := none
  lost : Option Nat
deriving Repr, DecidableEq

/-- What is needed of a node. -/
structure State where
  required : Nat := 0
  replicas : Dict Nat Replica := []
  stash : Dict Nat (List Msg) := []
  nextSerial : Nat := 0
  now : Nat := 0
  crashed : Bool := false
deriving Repr, DecidableEq

/-- The keys of a dict of replicas in their order: plenum/server/replicas.py:27, a `SortedDict`. -/
def sortedIds (d : Dict Nat Replica) : List Nat :=
  (List.range (d.foldr (fun e m => max (e.1 + 1) m) 0)).filter (fun i => d.has i)

/-- plenum/server/replicas.py:31-50, `add_replica`: a replica that is there is replaced, without
`cleanup`. A new replica has no primary, and takes it for lost since now
(plenum/server/consensus/monitoring/primary_connection_monitor_service.py:33). -/
def addReplica (s : State) (i : Nat) : State :=
  { s with replicas := s.replicas.set i { serial := s.nextSerial, lost := some s.now }, nextSerial := s.nextSerial + 1 }

/-- plenum/server/replicas.py:52-62, `remove_replica`. -/
def removeReplica (s : State) (i : Nat) : State := { s with replicas := s.replicas.erase i }

/-- plenum/server/replicas.py:105-112, `pass_message`. -/
def passMessage (s : State) (m : Msg) : Option Nat → State
  | some i => match s.replicas.get? i with
    | some r => { s with replicas := s.replicas.set i { r with inbox := r.inbox ++ [m] } }
    | none => s
  | none => { s with replicas := s.replicas.map (fun e => (e.1, { e.2 with inbox := e.2.inbox ++ [m] })) }

/-- plenum/server/node.py:1383-1399, `stash_replica_msg_if_needed`. -/
def stashIfNeeded (s : State) (m : Msg) (i : Nat) : State :=
  if s.required ≤ i then { s with stash := s.stash.set i ((s.stash.get? i).getD [] ++ [m]) } else s

/-- The instance a message goes to, plenum/server/node.py:1435-1438. -/
def target (m : Msg) (given : Option Nat) : Option Nat :=
  if m.kind = .instanceChange then some 0
  else match given with
    | some i => some i
    | none => m.inst

/-- plenum/server/node.py:1427-1443, `sendToReplica`. -/
def sendToReplica (s : State) (m : Msg) (given : Option Nat) : State :=
  match target m given with
  | some i => if s.replicas.has i then passMessage s m (some i) else stashIfNeeded s m i
  | none => passMessage s m none

/-- plenum/server/node.py:1279-1286, `_dispatch_stashed_msg`: messages of other kinds are
discarded. -/
def dispatch (s : State) (m : Msg) : State := if m.kind = .other then s else sendToReplica s m none

/-- plenum/server/node.py:1288-1299, `processStashedMsgsForReplica`. The queue is emptied while its
messages are dispatched; they go to a replica that is there, so none is put back. -/
def processStashed (s : State) (i : Nat) : State :=
  match s.stash.get? i with
  | none => s
  | some l => l.foldl dispatch { s with stash := s.stash.set i [] }

/-- plenum/server/node.py:1268-1271, the first loop of `adjustReplicas`, from `k` for `n` rounds. -/
def grow (s : State) (k : Nat) : Nat → State
  | 0 => s
  | n + 1 => grow (processStashed (addReplica s k) k) (k + 1) n

/-- plenum/server/node.py:1273-1275, the second loop of `adjustReplicas`: from `k`, `n` rounds. -/
def shrink (s : State) (k : Nat) : Nat → State
  | 0 => s
  | n + 1 => shrink (removeReplica s (k - 1)) (k - 1) n

/-- plenum/server/node.py:1260-1277, `adjustReplicas`. -/
def adjustReplicas (s : State) (old new : Nat) : State :=
  let s := shrink (grow s old (new - old)) old (old - new)
  { s with stash := s.stash.filter (fun e => ¬ e.1 < new) }

/-- plenum/server/node.py:774-781, one round of the loop that gives primaries to replicas. `none`
in the list of primaries is an `IndexError`. -/
def givePrimary (primaries : List Node) (s : State) (i : Nat) : State :=
  if s.crashed then s
  else match s.replicas.get? i with
    | some r => match r.primary with
      | some _ => s
      | none => match primaries[i]? with
        | some p => { s with replicas := s.replicas.set i { r with primary := some p } }
        | none => { s with crashed := true }
    | none => s

/-- plenum/server/node.py:731-785, `setPoolParams`, for the active registry `active` and the
registries at the starts of views `reg`. The last step, the vote if the primary of the master is
not active, is not modelled, and whether new primaries are connected is left to events. -/
def setPoolParams (s : State) (reg : Dict Nat (List Node)) (active : List Node) (viewNo : Nat) : State :=
  let n := active.eraseDups.length
  let s := { s with required := getMaxFailures n + 1 }
  let s := adjustReplicas s s.replicas.length s.required
  match selectPrimaries reg active viewNo with
  | none => { s with crashed := true }
  | some primaries =>
    if s.replicas.length ≠ primaries.length then { s with crashed := true }
    else (sortedIds s.replicas).foldl (givePrimary primaries) s

/-- plenum/server/backup_instance_faulty_processor.py:18-28, `restore_replicas`: one round of the loop. -/
def restoreOne (s : State) (i : Nat) : State := if s.replicas.has i then s else addReplica s i

/-- plenum/server/backup_instance_faulty_processor.py:18-28, `restore_replicas`. -/
def restoreReplicas (s : State) : State := (List.range s.required).foldl restoreOne s

/-- plenum/server/node.py:644-646, `drop_primaries`. -/
def dropPrimaries (s : State) : State :=
  { s with replicas := s.replicas.map (fun e => (e.1, { e.2 with primary := none })) }

/-- plenum/server/consensus/view_change_service.py:82-98, the part of `process_need_view_change` that
sets primaries, for all replicas: only the master gets one. -/
def newViewPrimaries (s : State) (master : Option Node) : State :=
  let s := dropPrimaries s
  match s.replicas.get? 0 with
  | some r => { s with replicas := s.replicas.set 0 { r with primary := master } }
  | none => s

/-- plenum/server/node.py:510-513, `primaries_disconnection_times`. -/
def disconnectionTimes (s : State) : List (Option Nat) :=
  (sortedIds s.replicas).map (fun i => (s.replicas.get? i).bind (·.lost))

/-- plenum/config.py:206, `TolerateBackupPrimaryDisconnection`. -/
def tolerance : Nat := 180

/-- plenum/server/node.py:2590-2595, `_remove_replica_if_primary_lost`, with the strategy "local" of
plenum/config.py:370. -/
def removeIfLost (s : State) (i : Nat) : State :=
  match (disconnectionTimes s)[i]? with
  | some (some t) => if tolerance ≤ s.now - t then removeReplica s i else s
  | _ => s

/-- What happens to a node. -/
inductive Ev where
  /-- a message from another node -/
  | msg (m : Msg) (given : Option Nat)
  /-- a view change starts: plenum/server/node.py:620-643, `on_view_change_start`, and
  plenum/server/consensus/view_change_service.py:76-120, `process_need_view_change` -/
  | viewChange (reg : Dict Nat (List Node)) (viewNo : Nat)
  /-- the first batch of a view: plenum/server/node.py:2742-2746, `on_first_batch_in_view_committed` -/
  | firstBatch (reg : Dict Nat (List Node)) (active : List Node) (viewNo : Nat)
  /-- a catchup is done: plenum/server/node.py:1830-1843, `select_primaries_on_catchup_complete` -/
  | caughtUp (reg : Dict Nat (List Node)) (active : List Node) (viewNo : Nat)
  /-- a backup instance is removed by votes or for degradation: see `Model/BackupFaulty.lean` -/
  | removed (i : Nat)
  /-- the check that is scheduled when the primary of a backup is lost -/
  | check (i : Nat)
  /-- the connection to the primary of an instance is lost or is there -/
  | connection (i : Nat) (up : Bool)
  /-- time goes on -/
  | tick (n : Nat)
deriving Repr, DecidableEq

/-- One event. -/
def step (s : State) (e : Ev) : State :=
  if s.crashed then s
  else match e with
    | .msg m given => sendToReplica s m given
    | .viewChange reg v => newViewPrimaries (restoreReplicas s) (selectMaster reg v)
    | .firstBatch reg active v => setPoolParams s reg active v
    | .caughtUp reg active v => setPoolParams (dropPrimaries (restoreReplicas s)) reg active v
    | .removed i => if i = 0 then s else removeReplica s i
    | .check i => if i = 0 then s else removeIfLost s i
    | .connection i up => match s.replicas.get? i with
      | some r => { s with replicas := s.replicas.set i { r with lost := if up then none else some s.now } }
      | none => s
    | .tick n => { s with now := s.now + n }

/-- A node at its start: plenum/server/node.py:250-256. -/
def init (active : List Node) : State := setPoolParams {} [(0, active)] active 0

/-- A history. -/
def run (s : State) (evs : List Ev) : State := evs.foldl step s

end Verif.Insts
