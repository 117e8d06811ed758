import Verif.Model.ViewChange
/-!
# Model of the checkpoint service

`plenum/server/consensus/checkpoint_service.py` and
`checkpoint_service_msg_validator.py`, for one replica of a node (master or
backup), together with the pieces of shared data it reads that other services
write: `view_no`, `waiting_for_new_view`, the node mode, `is_primary` and
`last_ordered_3pc`.

Left out: logging, metrics, the CheckpointStabilized message to the ordering
service (`Replica.gc` in `Model/ThreePC.lean`), and the stash: a stashed message
is ignored, and its replay is one more delivery.
-/
namespace Verif.CP

open VC (Checkpoint Node)

/-- checkpoint_service.py:34-35, `CheckpointKey`; it has the fields of a
`Checkpoint`, whose `seqNoEnd` is the key's `pp_seq_no`. -/
abbrev CKey := Checkpoint

/-- An audit ledger transaction: AUDIT_TXN_VIEW_NO, AUDIT_TXN_PP_SEQ_NO, and the
root hash of the ledger up to it. -/
structure AuditTxn where
  viewNo : Nat
  ppSeqNo : Nat
  root : Nat
  deriving DecidableEq, Repr

structure Cfg where
  instId : Nat
  isMaster : Bool
  n : Nat
  chkFreq : Nat
  logSize : Nat

/-- consensus_shared_data.py:26-60 and checkpoint_service.py:50. `none` for
`high` is `sys.maxsize`; `needCatchup` counts the NeedMasterCatchup messages. -/
structure State where
  view : Nat := 0
  waiting : Bool := false
  participating : Bool := false
  isPrimary : Bool := false
  lastOrdered : Nat × Nat := (0, 0)
  stable : Nat := 0
  checkpoints : List Checkpoint := [⟨0, 0, none⟩]
  low : Nat := 0
  high : Option Nat
  received : Dict CKey (List Node) := []
  audit : List AuditTxn := []
  needCatchup : Nat := 0

def State.init (cfg : Cfg) : State := { high := some cfg.logSize }

inductive Verdict | process | discard | stash
  deriving DecidableEq, Repr

/-- checkpoint_service_msg_validator.py:14-38, `validate` and `_is_pp_seq_no_stable`. -/
def validate (cfg : Cfg) (s : State) (instId : Nat) (cp : Checkpoint) : Verdict :=
  if instId ≠ cfg.instId then .discard
  else if cp.seqNoEnd ≤ s.stable then .discard
  else if cp.viewNo < s.view then .discard
  else if s.waiting then .stash
  else if !s.participating then .stash
  else .process

/-- checkpoint_service.py:264-266, `_have_own_checkpoint`. -/
def State.haveOwn (s : State) (k : CKey) : Bool :=
  s.checkpoints.any (fun cp => cp.seqNoEnd = k.seqNoEnd && (cp.viewNo = k.viewNo && cp.digest = k.digest))

/-- checkpoint_service.py:268-270, `_have_quorum_on_received_checkpoint`. That a
`defaultdict` adds an empty entry for a missing key is not modelled: such an
entry reaches no quorum of a pool of two or more nodes. -/
def State.haveQuorum (cfg : Cfg) (s : State) (k : CKey) : Bool :=
  (Quorums.ofN cfg.n).checkpoint.isReached ((s.received.get? k).getD []).length

/-- checkpoint_service.py:278-280, `_is_below_3pc_key`, and util.py:618-622,
`compare_3PC_keys`, which compares the sequence numbers only. -/
def isBelow (k : CKey) (till : Nat × Nat) : Bool := till.2 ≥ k.seqNoEnd

/-- checkpoint_service.py:272-276, `_unknown_stabilized_checkpoints`. -/
def State.unknownStabilized (cfg : Cfg) (s : State) : List CKey :=
  s.received.keys.filter (fun k => s.haveQuorum cfg k && !s.haveOwn k && !isBelow k s.lastOrdered)

/-- checkpoint_service.py:290-302, `_audit_txn_by_pp_seq_no`: the transactions in
reverse; when none has the number, the last one looked at, which is the first of
the ledger, and no position. -/
def findAudit (ppSeqNo : Nat) : List AuditTxn → Option AuditTxn × Option AuditTxn
  | [] => (none, none)
  | [t] => if t.ppSeqNo = ppSeqNo then (some t, some t) else (some t, none)
  | t :: t' :: ts => if t.ppSeqNo = ppSeqNo then (some t, some t) else findAudit ppSeqNo (t' :: ts)

/-- checkpoint_service.py:197-207, `_create_checkpoint_from_audit_ledger`,
`_get_view_no_from_audit`, `_get_digest_from_audit`. -/
def State.fromAudit (s : State) (ppSeqNo : Nat) : Checkpoint :=
  let r := findAudit ppSeqNo s.audit.reverse
  ⟨(r.1.map (·.viewNo)).getD s.view, ppSeqNo, r.2.map (·.root)⟩

/-- checkpoint_service.py:216-225, `set_watermarks` with no high watermark given. -/
def State.setWatermarks (cfg : Cfg) (s : State) (low : Nat) : State :=
  { s with low := low, high := some (low + cfg.logSize) }

/-- checkpoint_service.py:235-248, `_remove_received_checkpoints`. -/
def State.removeReceived (s : State) (till : Nat × Nat) : State :=
  { s with received := s.received.filter (fun e => !isBelow e.1 till) }

/-- checkpoint_service.py:177-195, `_mark_checkpoint_stable`. -/
def State.markStable (cfg : Cfg) (s : State) (ppSeqNo : Nat) : State :=
  let cps := if s.checkpoints.any (fun cp => cp.seqNoEnd = ppSeqNo) then s.checkpoints
    else s.checkpoints ++ [s.fromAudit ppSeqNo]
  let s := { s with stable := ppSeqNo, checkpoints := cps.filter (fun cp => !(cp.seqNoEnd < ppSeqNo)) }
  (s.setWatermarks cfg ppSeqNo).removeReceived (s.view, ppSeqNo)

/-- checkpoint_service.py:168-175, `_try_to_stabilize_checkpoint`. -/
def State.tryStabilize (cfg : Cfg) (s : State) (k : CKey) : State :=
  if !s.haveQuorum cfg k then s
  else if !s.haveOwn k then s
  else s.markStable cfg k.seqNoEnd

/-- checkpoint_service.py:137-139, `caught_up_till_3pc`. -/
def State.caughtUp (cfg : Cfg) (s : State) (till : Nat × Nat) : State :=
  s.markStable cfg (till.2 / cfg.chkFreq * cfg.chkFreq)

/-- Line 115: the last key by view and sequence number. -/
def lastKey : List CKey → Option CKey
  | [] => none
  | k :: ks =>
    match lastKey ks with
    | none => some k
    | some m => if k.viewNo < m.viewNo ∨ (k.viewNo = m.viewNo ∧ k.seqNoEnd ≤ m.seqNoEnd) then some m else some k

/-- checkpoint_service.py:107-135, `_start_catchup_if_needed`. Line 133: the
ordering service sets `last_ordered_3pc` on NeedBackupCatchup, and
`caught_up_till_3pc` is called there as well (replica.py:585-590); the second
call changes nothing. -/
def State.startCatchup (cfg : Cfg) (s : State) (k : CKey) : State :=
  if s.haveOwn k then s
  else
    let u := s.unknownStabilized cfg
    if u.length ≤ 1 then s
    else if cfg.isMaster then
      if s.isPrimary then s else { s with needCatchup := s.needCatchup + 1 }
    else match lastKey u with
      | none => s
      | some l => { s with lastOrdered := (s.view, l.seqNoEnd) }.caughtUp cfg (s.view, l.seqNoEnd)

/-- `_received_checkpoints[key].add(sender)`. -/
def addVote (d : Dict CKey (List Node)) (k : CKey) (w : Node) : Dict CKey (List Node) :=
  let old := (d.get? k).getD []
  d.set k (if w ∈ old then old else old ++ [w])

/-- checkpoint_service.py:76-90, `process_checkpoint`. -/
def State.processCheckpoint (cfg : Cfg) (s : State) (instId : Nat) (cp : Checkpoint) (frm : Node) : State :=
  match validate cfg s instId cp with
  | .process =>
    let s := { s with received := addVote s.received cp frm }
    (s.tryStabilize cfg cp).startCatchup cfg cp
  | _ => s

/-- checkpoint_service.py:147-156, `_add_to_checkpoint` and `_do_checkpoint`. -/
def State.addToCheckpoint (cfg : Cfg) (s : State) (ppSeqNo view root : Nat) : State :=
  if ppSeqNo % cfg.chkFreq ≠ 0 then s
  else ({ s with checkpoints := s.checkpoints ++ [⟨view, ppSeqNo, some root⟩] } : State).tryStabilize cfg
    ⟨view, ppSeqNo, some root⟩

/-- checkpoint_service.py:97-105, `process_ordered`; the LogicError when the
batch is not pre-prepared leaves the state alone. -/
def State.processOrdered (cfg : Cfg) (s : State) (ppSeqNo root : Nat) (preprepared : List BatchID) : State :=
  match preprepared.reverse.find? (fun b => b.ppSeqNo = ppSeqNo) with
  | some b => s.addToCheckpoint cfg ppSeqNo b.viewNo root
  | none => s

/-- checkpoint_service.py:227-233, `update_watermark_from_3pc`. -/
def State.updateWatermark (cfg : Cfg) (s : State) : State :=
  if s.lastOrdered.1 = s.view then s.setWatermarks cfg s.lastOrdered.2 else s

/-- checkpoint_service.py:250-255, `_reset_checkpoints`. -/
def State.resetCheckpoints (s : State) : State := { s with checkpoints := [⟨0, 0, none⟩] }

/-- checkpoint_service.py:141-145, `catchup_clear_for_backup`. -/
def State.clearForBackup (s : State) : State :=
  { s.resetCheckpoints with received := [], low := 0, high := none }

/-- checkpoint_service.py:304-327, `process_new_view_accepted`. -/
def State.newViewAccepted (cfg : Cfg) (s : State) (cp : Checkpoint) : State :=
  if cfg.isMaster then
    if cp ∈ s.checkpoints then (s.markStable cfg cp.seqNoEnd).setWatermarks cfg cp.seqNoEnd else s
  else
    { ({ s with waiting := false }.setWatermarks cfg 0).resetCheckpoints with stable := 0, received := [] }

/-- checkpoint_service.py:329-339, `process_catchup_finished`, and
ordering_service.py:2361-2365: the master sets `last_ordered_3pc` after it. -/
def State.catchupFinished (cfg : Cfg) (s : State) (masterLast caught : Nat × Nat) : State :=
  if caught.2 > masterLast.2 then
    if cfg.isMaster then { s.caughtUp cfg caught with lastOrdered := caught }
    else if s.isPrimary then s else s.clearForBackup
  else s

/-- replica.py:395-403, `on_propagate_primary_done`. -/
def State.propagatePrimaryDone (cfg : Cfg) (s : State) : State :=
  if cfg.isMaster then s.updateWatermark cfg
  else if s.isPrimary then s
  else { s with low := 0, high := none }

/-- What a replica's checkpoint service sees.
* `checkpoint`: a CHECKPOINT from a node;
* `ordered`: the ordering service ordered a batch of its view, with the
  pre-prepared batches it has; it never orders a sequence number it has ordered
  (ordering_service_msg_validator.py:168-175);
* `auditTxn`: the node committed an audit transaction;
* `newView`: a NEW_VIEW was accepted;
* `catchup`: a catchup finished; on the master the first argument is not used,
  the node passes the replica's own `last_ordered_3pc` (node.py:1803-1806);
* `primaryDone`: primaries were selected after catchup;
* `backupSetup`: a backup set its `last_ordered_3pc`
  (ordering_service.py:1022-1042);
* `backupClear`: a backup is restarted, replica.py:383-392;
* `setView`, `setMode`, `setPrimary`: other services changed shared data. -/
inductive Event
  | checkpoint (instId : Nat) (cp : Checkpoint) (frm : Node)
  | ordered (ppSeqNo root : Nat) (preprepared : List BatchID)
  | auditTxn (t : AuditTxn)
  | newView (cp : Checkpoint)
  | catchup (masterLast caught : Nat × Nat)
  | primaryDone
  | backupSetup (ppSeqNo : Nat)
  | backupClear
  | setView (v : Nat) (waiting : Bool)
  | setMode (participating : Bool)
  | setPrimary (isPrimary : Bool)

def State.step (cfg : Cfg) (s : State) : Event → State
  | .checkpoint i cp w => s.processCheckpoint cfg i cp w
  | .ordered n root pre =>
    if n > s.lastOrdered.2 then { s with lastOrdered := (s.view, n) }.processOrdered cfg n root pre else s
  | .auditTxn t => { s with audit := s.audit ++ [t] }
  | .newView cp => s.newViewAccepted cfg cp
  | .catchup m c => s.catchupFinished cfg (if cfg.isMaster then s.lastOrdered else m) c
  | .primaryDone => s.propagatePrimaryDone cfg
  | .backupSetup n => if cfg.isMaster then s else { s with lastOrdered := (s.view, n) }.updateWatermark cfg
  | .backupClear => if cfg.isMaster then s else { s with lastOrdered := (s.view, 0) }
  | .setView v w => { s with view := v, waiting := w }
  | .setMode p => { s with participating := p }
  | .setPrimary p => { s with isPrimary := p }

def run (cfg : Cfg) (evs : List Event) : State := evs.foldl (State.step cfg) (State.init cfg)

end Verif.CP
