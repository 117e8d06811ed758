import Verif.Model.Dict
import Verif.Model.Quorums
/-!
# Removal of faulty backup instances

plenum/server/backup_instance_faulty_processor.py. Nodes and instances are numbers;
instance 0 is the master. Sending the vote to the other nodes is not modelled.
-/
namespace Verif.Bif
open Verif

/-- `REPLICAS_REMOVING_WITH_…` of plenum/config.py. -/
inductive Strategy where
  | quorum
  | local
  | none
deriving Repr, DecidableEq

/-- The reason of a vote: one of two suspicion codes, or anything else. -/
inductive Reason where
  | disconnected
  | degraded
  | other
deriving Repr, DecidableEq

/-- What does not change. -/
structure Cfg where
  name : Nat
  onDisconnected : Strategy
  onDegraded : Strategy
deriving Repr, DecidableEq

/-- plenum/server/backup_instance_faulty_processor.py:14-16, `__init__`, and what it
uses of the node: view number, number of nodes, ids of the replicas. -/
structure State where
  viewNo : Nat
  n : Nat
  replicas : List Nat
  faulty : Dict Nat (Dict Nat Nat)
deriving Repr, DecidableEq

/-- plenum/server/backup_instance_faulty_processor.py:18-27, `restore_replicas`. -/
def restoreReplicas (s : State) (required : Nat) : State :=
  { s with
    faulty := []
    replicas := s.replicas ++ (List.range required).filter (fun i => !s.replicas.contains i) }

/-- plenum/server/replicas.py:52-62, `remove_replica`. -/
def removeReplica (s : State) (inst : Nat) : State :=
  { s with replicas := s.replicas.filter (fun i => i ≠ inst) }

/-- plenum/server/backup_instance_faulty_processor.py:88-90: the
node itself voted so often that the quorum is reached. -/
def thisNodeCondition (cfg : Cfg) (quorum : Quorum) (votes : Dict Nat Nat) : Bool :=
  match votes.get? cfg.name with
  | some k => quorum.isReached k
  | none => false

/-- The loop body, plenum/server/backup_instance_faulty_processor.py:82-93. -/
def voteOne (cfg : Cfg) (frm : Nat) (s : State) (inst : Nat) : State :=
  if !s.replicas.contains inst then s
  else
    let votes := (s.faulty.get? inst).getD []
    let votes := votes.set frm ((votes.get? frm).getD 0 + 1)
    let quorum := (Quorums.ofN s.n).backupInstanceFaulty
    let allNodes := quorum.isReached votes.keys.length
    let thisNode := thisNodeCondition cfg quorum votes
    if allNodes || thisNode then
      { removeReplica s inst with faulty := s.faulty.erase inst }
    else { s with faulty := s.faulty.set inst votes }

/-- The strategy of a reason needs no quorum, plenum/server/backup_instance_faulty_processor.py:70-80. -/
def ignored (cfg : Cfg) (reason : Reason) : Bool :=
  (reason == .disconnected && cfg.onDisconnected != .quorum) ||
  (reason == .degraded && cfg.onDegraded != .quorum)

/-- plenum/server/backup_instance_faulty_processor.py:53-93, `process_backup_instance_faulty_msg`. -/
def processMsg (cfg : Cfg) (s : State) (viewNo : Nat) (instances : List Nat) (reason : Reason) (frm : Nat) : State :=
  if viewNo ≠ s.viewNo || instances.contains 0 then s
  else if ignored cfg reason then s
  else instances.foldl (voteOne cfg frm) s

/-- plenum/server/backup_instance_faulty_processor.py:95-117, `__remove_replicas` and
`__send_backup_instance_faulty`, called by lines 30-52. With no instance the message
changes nothing whether it is processed or not. -/
def removeReplicas (cfg : Cfg) (s : State) (instances : List Nat) (reason : Reason) (strategy : Strategy) : State :=
  match strategy with
  | .quorum => processMsg cfg s s.viewNo instances reason cfg.name
  | .local => instances.foldl removeReplica s
  | .none => s

/-- What happens to a node. -/
inductive Event where
  /-- a vote arrives from another node -/
  | received (viewNo : Nat) (instances : List Nat) (reason : Reason) (frm : Nat)
  /-- `on_backup_degradation` -/
  | degradation (instances : List Nat)
  /-- `on_backup_primary_disconnected` -/
  | primaryDisconnected (instances : List Nat)
  /-- plenum/server/node.py:620-645 and 1830-1843: a view change starts, or a catch-up
  ends; the replicas are restored and then the view number is set -/
  | newView (viewNo required : Nat)
  /-- the number of nodes changes -/
  | pool (n : Nat)
  /-- the node adds or drops instances for other reasons -/
  | adjust (replicas : List Nat)
deriving Repr, DecidableEq

/-- One event. -/
def step (cfg : Cfg) (s : State) : Event → State
  | .received v is r frm => processMsg cfg s v is r frm
  | .degradation is => removeReplicas cfg s is .degraded cfg.onDegraded
  | .primaryDisconnected is => removeReplicas cfg s is .disconnected cfg.onDisconnected
  | .newView v req => { restoreReplicas s req with viewNo := v }
  | .pool n => { s with n := n }
  | .adjust rs => { s with replicas := rs }

/-- A node at the start. -/
def init (n : Nat) (replicas : List Nat) : State := ⟨0, n, replicas, []⟩

/-- A history. -/
def run (cfg : Cfg) (s : State) (h : List Event) : State := h.foldl (step cfg) s

end Verif.Bif
