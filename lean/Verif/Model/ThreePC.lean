import Verif.Model.Quorums
import Verif.Model.Dict
import Verif.Model.BatchId
/-!
# Model of the three-phase commit of the master instance

`plenum/server/consensus/ordering_service.py` and
`plenum/server/consensus/ordering_service_msg_validator.py`.

One replica is a record; each handler is a function on it. Values the code
treats as opaque (digests, root hashes, request keys, times) are naturals.

What is left out, everywhere in this file:
* the ledger and state contents: applying a PRE-PREPARE is the answer
  `PPEnv.applyOk`, which may be anything at each delivery;
* request queues, monitoring, metrics, suspicion reports, message requests;
* the stasher: a stashed or delayed message is one that may be delivered again
  later, and an event may deliver any message any number of times;
* the re-processing of stashed messages from inside a handler
  (`process_all_stashed` in `_try_finish_reordering_after_vc` and
  `_process_stashed_pre_prepare_for_time_if_possible`), which here are later
  deliveries.
-/
namespace Verif.TPC

/-- Node (replica) names. -/
abbrev Node := Nat
/-- `(view_no, pp_seq_no)`. -/
abbrev Key := Nat × Nat

/-- The agreed content of a batch: the four fields of a PREPARE that
`_validate_prepare` compares with the PRE-PREPARE (ordering_service.py:309-323). -/
structure Content where
  digest : Nat
  stateRoot : Nat
  txnRoot : Nat
  auditRoot : Nat
  deriving DecidableEq, Repr

/-- `node_messages.py:118-164`, `PrePrepare`. `sub_seq_no`, `final`, `discarded`
and the BLS multi-signatures are left out; `origView` is
`get_original_viewno(pp)`. -/
structure PrePrepare where
  viewNo : Nat
  seqNo : Nat
  origView : Nat
  time : Nat
  reqs : List Nat
  ledger : Nat
  poolRoot : Nat
  content : Content
  deriving DecidableEq, Repr

def PrePrepare.key (p : PrePrepare) : Key := (p.viewNo, p.seqNo)

/-- consensus/utils.py:18-20, `preprepare_to_batch_id`. -/
def PrePrepare.batchId (p : PrePrepare) : BatchID := ⟨p.viewNo, p.origView, p.seqNo, p.content.digest⟩

/-- `node_messages.py:183-196`, `Prepare`. -/
structure Prepare where
  viewNo : Nat
  seqNo : Nat
  time : Nat
  content : Content
  deriving DecidableEq, Repr

def Prepare.key (p : Prepare) : Key := (p.viewNo, p.seqNo)

/-- What a COMMIT's BLS signature signs: `MultiSignatureValue`
(bls_bft_replica_plenum.py:181-187). -/
structure BlsValue where
  ledger : Nat
  stateRoot : Nat
  poolRoot : Nat
  txnRoot : Nat
  time : Nat
  deriving DecidableEq, Repr

/-- bls_bft_replica_plenum.py:186-192, `_create_multi_sig_value_for_pre_prepare`.
The code signs one value per ledger named in the batch's audit transaction; the
model keeps the batch's own ledger. -/
def blsValue (p : PrePrepare) : BlsValue :=
  ⟨p.ledger, p.content.stateRoot, p.poolRoot, p.content.txnRoot, p.time⟩

/-- `node_messages.py:199-213`, `Commit`: it carries no digest. `bls = some v` is
a signature, by the sender, of the value `v`. -/
structure Commit where
  viewNo : Nat
  seqNo : Nat
  bls : Option BlsValue
  deriving DecidableEq, Repr

def Commit.key (c : Commit) : Key := (c.viewNo, c.seqNo)

/-- A 3PC message. -/
inductive Msg
  | prePrepare (p : PrePrepare)
  | prepare (p : Prepare)
  | commit (c : Commit)
  deriving DecidableEq, Repr

/-! ## Admission of messages -/

/-- Results of the validators (`stashing_router.py:11-12`,
`replica_validator_enums.py`). -/
inductive Code
  | process
  | discard
  | stashView
  | stashCatchUp
  | stashWatermarks
  | stashWaitingFirstBatch
  deriving DecidableEq, Repr

/-- Reasons (`replica_validator_enums.py`). -/
inductive Reason
  | incorrectInstance
  | incorrectPpSeqNo
  | alreadyOrdered
  | oldView
  | futureView
  | catchingUp
  | waitingForNewView
  | outsideWatermarks
  | waitingFirstBatchInView
  | nonMaster
  deriving DecidableEq, Repr

/-- The part of `ConsensusSharedData` (consensus_shared_data.py:20-80) that the
validator reads. -/
structure SharedData where
  instId : Nat
  isMaster : Bool
  viewNo : Nat
  participating : Bool
  waitingForNewView : Bool
  lowWatermark : Nat
  highWatermark : Nat
  prevViewPrepareCert : Nat
  lastOrdered : Key
  deriving Repr

/-- ordering_service_msg_validator.py:172-174, `has_already_ordered`, with
`compare_3PC_keys` (common/util.py:618-622), which compares sequence numbers
only. -/
def SharedData.hasAlreadyOrdered (d : SharedData) (ppSeqNo : Nat) : Bool := ppSeqNo ≤ d.lastOrdered.2

/-- ordering_service_msg_validator.py:152-170, `_validate_base`. -/
def SharedData.validateBase (d : SharedData) (viewNo : Nat) : Code × Option Reason :=
  if viewNo < d.viewNo then (.discard, some .oldView)
  else if viewNo > d.viewNo then (.stashView, some .futureView)
  else if !d.participating then (.stashCatchUp, some .catchingUp)
  else (.process, none)

/-- ordering_service_msg_validator.py:105-150, `_validate_3pc` (the same for
PRE-PREPARE, PREPARE and COMMIT: lines 38-60). -/
def SharedData.validate3pc (d : SharedData) (instId viewNo ppSeqNo : Nat) : Code × Option Reason :=
  if instId ≠ d.instId then (.discard, some .incorrectInstance)
  else if ppSeqNo = 0 then (.discard, some .incorrectPpSeqNo)
  else if ppSeqNo ≤ d.lowWatermark then (.discard, some .alreadyOrdered)
  else
    let base := d.validateBase viewNo
    if base.1 ≠ .process then base
    else if d.waitingForNewView then (.stashView, some .waitingForNewView)
    else if ppSeqNo > d.highWatermark then (.stashWatermarks, some .outsideWatermarks)
    else if d.hasAlreadyOrdered ppSeqNo && ppSeqNo > d.prevViewPrepareCert then
      (.discard, some .alreadyOrdered)
    else if viewNo > 0 && ppSeqNo > d.prevViewPrepareCert + 1
        && d.lastOrdered.2 < d.prevViewPrepareCert + 1 then
      (.stashWaitingFirstBatch, some .waitingFirstBatchInView)
    else (.process, none)

/-- ordering_service_msg_validator.py:62-65, `validate_new_view`. -/
def SharedData.validateNewView (d : SharedData) (viewNo : Nat) : Code × Option Reason :=
  d.validateBase viewNo

/-- ordering_service_msg_validator.py:67-82, `validate_old_view_prep_prepare_req`. -/
def SharedData.validateOldViewReq (d : SharedData) (instId : Nat) : Code × Option Reason :=
  if instId ≠ d.instId then (.discard, some .incorrectInstance)
  else if !d.isMaster then (.discard, some .nonMaster)
  else if !d.participating then (.stashCatchUp, some .catchingUp)
  else (.process, none)

/-- ordering_service_msg_validator.py:84-101, `validate_old_view_prep_prepare_rep`. -/
def SharedData.validateOldViewRep (d : SharedData) (instId : Nat) : Code × Option Reason :=
  if instId ≠ d.instId then (.discard, some .incorrectInstance)
  else if !d.isMaster then (.discard, some .nonMaster)
  else if d.waitingForNewView then (.stashView, some .waitingForNewView)
  else if !d.participating then (.stashCatchUp, some .catchingUp)
  else (.process, none)

/-! ## A replica -/

/-- What does not change during a run: the pool and the replica's place in it. -/
structure Cfg where
  name : Node
  /-- pool size -/
  n : Nat
  /-- primary of each view -/
  primary : Nat → Node
  /-- `prev_view_prepare_cert` set by the NEW_VIEW this replica accepts for each
  view: the last sequence number among its batches
  (view_change_service.py:314-319); 0 for view 0 -/
  cert : Nat → Nat
  /-- how far the highest sequence number among the batches of that NEW_VIEW is
  above `cert`: the batches are sorted by view first, so the last one need not be
  the highest (`Props.C60_certificate_below_batch`) -/
  above : Nat → Nat := fun _ => 0
  /-- `generate_pp_digest` (ordering_service.py:2313-2315) -/
  digest : List Nat → Nat → Nat → Nat
  /-- has BLS keys (`can_sign_bls`) -/
  bls : Bool
  /-- `Max3PCBatchesInFlight` -/
  maxInFlight : Option Nat

/-- The highest sequence number the NEW_VIEW of a view names. -/
def Cfg.top (cfg : Cfg) (v : Nat) : Nat := cfg.cert v + cfg.above v

/-- State of the ordering service of the master replica: the fields of
`OrderingService` (ordering_service.py:62-213) and of `ConsensusSharedData`
that the modelled code touches. `out` and `ordLog` record everything sent to the
network and every `Ordered` message put on the internal bus, oldest first;
`caught` is the highest sequence number a catchup has jumped to. -/
structure Replica where
  view : Nat := 0
  participating : Bool := true
  waiting : Bool := false
  lowWM : Nat := 0
  highWM : Nat := 300
  prevCert : Nat := 0
  lastOrdered : Key := (0, 0)
  lastPP : Nat := 0
  sentPP : Dict Key PrePrepare := []
  recvPP : Dict Key PrePrepare := []
  prepares : Dict Key (List Node × Prepare) := []
  commits : Dict Key (List Node × Commit) := []
  prepWait : Dict Key (List (Prepare × Node)) := []
  commWait : Dict Key (List (Commit × Node)) := []
  batches : List Key := []
  ordered : List Key := []
  outOfOrder : Dict Key Commit := []
  preprepared : List BatchID := []
  prepared : List BatchID := []
  stable : Nat := 0
  caught : Nat := 0
  out : List Msg := []
  ordLog : List PrePrepare := []

variable (cfg : Cfg)

/-- The validator's view of the replica. -/
def Replica.shared (r : Replica) : SharedData :=
  { instId := 0, isMaster := true, viewNo := r.view, participating := r.participating
    waitingForNewView := r.waiting, lowWatermark := r.lowWM, highWatermark := r.highWM
    prevViewPrepareCert := r.prevCert, lastOrdered := r.lastOrdered }

/-- ordering_service.py:815-816, `_validate` (instance 0). -/
def Replica.admits (r : Replica) (viewNo ppSeqNo : Nat) : Bool :=
  (r.shared.validate3pc 0 viewNo ppSeqNo).1 = .process

/-- `has_already_ordered`. -/
def Replica.alreadyOrdered (r : Replica) (ppSeqNo : Nat) : Bool := r.shared.hasAlreadyOrdered ppSeqNo

/-- ordering_service.py:1054-1066, `_is_msg_from_primary`, for a message of the
current view (the validator lets no other through). -/
def Replica.fromPrimary (r : Replica) (sender : Node) : Bool := cfg.primary r.view = sender

/-- `_data.is_primary`. -/
def Replica.isPrimary (r : Replica) : Bool := cfg.primary r.view = cfg.name

/-- models.py:24-28, `_add_msg`: the first message is kept, the voter added. -/
def addVote {μ : Type} (d : Dict Key (List Node × μ)) (k : Key) (m : μ) (voter : Node) :
    Dict Key (List Node × μ) :=
  match d.get? k with
  | none => d.set k ([voter], m)
  | some (vs, m0) => d.set k (if voter ∈ vs then vs else vs ++ [voter], m0)

/-- models.py:34-36, `_has_vote`. -/
def hasVote {μ : Type} (d : Dict Key (List Node × μ)) (k : Key) (voter : Node) : Bool :=
  match d.get? k with
  | none => false
  | some (vs, _) => vs.contains voter

/-- models.py:44-45, `_has_enough_votes`. -/
def hasQuorum {μ : Type} (d : Dict Key (List Node × μ)) (k : Key) (q : Nat) : Bool :=
  match d.get? k with
  | none => 0 ≥ q
  | some (vs, _) => vs.length ≥ q

/-- ordering_service.py:1380-1386, `get_preprepare`. -/
def Replica.getPP (r : Replica) (k : Key) : Option PrePrepare :=
  match r.sentPP.get? k with
  | some pp => some pp
  | none => r.recvPP.get? k

/-- ordering_service.py:1372-1378, `_has_prepared`. -/
def Replica.hasPrepared (r : Replica) (k : Key) : Bool :=
  (r.getPP k).isSome && (r.prepares.has k || r.sentPP.has k || r.prepWait.has k)

/-- The setter of `last_ordered_3pc` (ordering_service.py:670-676). -/
def Replica.setLastOrdered (r : Replica) (k : Key) : Replica :=
  { r with lastOrdered := k, lastPP := if k.2 > r.lastPP then k.2 else r.lastPP }

/-- The setter of `lastPrePrepareSeqNo` (ordering_service.py:1258-1271). -/
def Replica.bumpLastPP (r : Replica) (s : Nat) : Replica :=
  { r with lastPP := if s > r.lastPP then s else r.lastPP }

/-- ordering_service.py:2462-2477, the list update of `_preprepare_batch` and
`_prepare_batch`. -/
def trackBatch (l : List BatchID) (b : BatchID) : List BatchID := if b ∈ l then l else l ++ [b]

/-! ### Ordering -/

/-- ordering_service.py:1700-1728, `_all_prev_ordered`. -/
def Replica.allPrevOrdered (r : Replica) (k : Key) : Bool :=
  r.lastOrdered.2 == k.2 - 1 ||
  (r.sentPP.keys ++ r.recvPP.keys ++ r.prepares.keys ++ r.commits.keys).all (fun j =>
    !((j.1 < k.1 && !r.ordered.contains j) || (j.1 == k.1 && j.2 < k.2 && !r.ordered.contains j)))

/-- ordering_service.py:1480-1552, `_order_3pc_key` and `_add_to_ordered`:
emits `Ordered` for the stored PRE-PREPARE. With no PRE-PREPARE it raises
`ValueError`; nothing was changed yet. -/
def Replica.order (r : Replica) (k : Key) : Replica :=
  match r.getPP k with
  | none => r
  | some pp =>
    let r := { r with ordered := r.ordered ++ [k] }
    let r := r.setLastOrdered k
    { r with ordLog := r.ordLog ++ [pp] }

/-- ordering_service.py:1454-1468 and 1608-1640, `_try_order` and `_can_order`.
The result says whether the key was ordered. -/
def Replica.tryOrder (r : Replica) (c : Commit) : Replica × Bool :=
  if !hasQuorum r.commits c.key (Quorums.ofN cfg.n).commit.value then (r, false)
  else if r.alreadyOrdered c.seqNo then (r, false)
  else if c.seqNo > 1 && !r.allPrevOrdered c.key then
    ({ r with outOfOrder := r.outOfOrder.set c.key c }, false)
  else (r.order c.key, true)

/-- ordering_service.py:1440-1452, `_add_to_commits`. -/
def Replica.addToCommits (r : Replica) (c : Commit) (sender : Node) : Replica :=
  (({ r with commits := addVote r.commits c.key c sender } : Replica).tryOrder cfg c).1

/-- ordering_service.py:474-478 and bls_bft_replica_plenum.py:54-75,
`validate_commit`: no signature is accepted, a signature must be over the value
of the own PRE-PREPARE. A signature under another node's key or over another
ledger's roots is not distinguished. -/
def blsAccepts (pp : PrePrepare) (c : Commit) : Bool :=
  match c.bls with
  | none => true
  | some v => v = blsValue pp

/-- ordering_service.py:434-455, `process_commit`, `_validate_commit` and
`_enqueue_commit`. -/
def Replica.processCommit (r : Replica) (c : Commit) (sender : Node) : Replica :=
  if !r.admits c.viewNo c.seqNo then r
  else if !r.hasPrepared c.key then
    { r with commWait := r.commWait.set c.key (((r.commWait.get? c.key).getD []) ++ [(c, sender)]) }
  else if hasVote r.commits c.key sender then r
  else if !r.alreadyOrdered c.seqNo && !((r.getPP c.key).all (blsAccepts · c)) then r
  else r.addToCommits cfg c sender

/-- ordering_service.py:1309-1327, `_dequeue_commits`. The queue is emptied
before its messages are processed (nothing reads it meanwhile) and its key
dropped after. -/
def Replica.dequeueCommits (r : Replica) (k : Key) : Replica :=
  match r.commWait.get? k with
  | none => r
  | some q =>
    if !r.hasPrepared k then r
    else
      let r := { r with commWait := r.commWait.set k [] }
      let r := q.foldl (fun r e => r.processCommit cfg e.1 e.2) r
      { r with commWait := r.commWait.erase k }

/-! ### PREPARE -/

/-- ordering_service.py:1415-1438, `_do_commit`: broadcast an own COMMIT and
count it. -/
def Replica.doCommit (r : Replica) (k : Key) : Replica :=
  let c : Commit := ⟨k.1, k.2, if cfg.bls then (r.getPP k).map blsValue else none⟩
  let r := { r with out := r.out ++ [Msg.commit c] }
  r.addToCommits cfg c cfg.name

/-- ordering_service.py:1402-1413 and 1730-1753, `_try_commit`, `_can_commit`
and `_has_committed`. -/
def Replica.tryCommit (r : Replica) (k : Key) : Replica :=
  if !hasQuorum r.prepares k (Quorums.ofN cfg.n).prepare.value then r
  else if hasVote r.commits k cfg.name then r
  else
    let r := { r with prepared := match r.getPP k with
      | some pp => trackBatch r.prepared pp.batchId
      | none => r.prepared }
    r.doCommit cfg k

/-- ordering_service.py:1388-1400, `_add_to_prepares`. -/
def Replica.addToPrepares (r : Replica) (p : Prepare) (sender : Node) : Replica :=
  let r := { r with prepares := addVote r.prepares p.key p sender }
  let r := r.dequeueCommits cfg p.key
  r.tryCommit cfg p.key

/-- ordering_service.py:330-341, `_enqueue_prepare`; what it requests from
others is left out. -/
def Replica.enqueuePrepare (r : Replica) (p : Prepare) (sender : Node) : Replica :=
  { r with prepWait := r.prepWait.set p.key (((r.prepWait.get? p.key).getD []) ++ [(p, sender)]) }

/-- ordering_service.py:221-251, `process_prepare` and `_validate_prepare`.
`primaryStatus` is never `None` here: the primary of a view is known. -/
def Replica.processPrepare (r : Replica) (p : Prepare) (sender : Node) : Replica :=
  if !r.admits p.viewNo p.seqNo then r
  else if r.fromPrimary cfg sender then r
  else if hasVote r.prepares p.key sender then r
  else
    match r.getPP p.key with
    | none =>
      if r.isPrimary cfg then
        if p.seqNo ≤ r.prevCert then r.enqueuePrepare p sender else r
      else r.enqueuePrepare p sender
    | some pp => if p.content ≠ pp.content then r else r.addToPrepares cfg p sender

/-- ordering_service.py:1294-1307, `_dequeue_prepares`. -/
def Replica.dequeuePrepares (r : Replica) (k : Key) : Replica :=
  match r.prepWait.get? k with
  | none => r
  | some q =>
    let r := { r with prepWait := r.prepWait.set k [] }
    let r := q.foldl (fun r e => r.processPrepare cfg e.1 e.2) r
    { r with prepWait := r.prepWait.erase k }

/-! ### PRE-PREPARE -/

/-- ordering_service.py:1351-1370, `_do_prepare`: broadcast an own PREPARE and
count it. -/
def Replica.doPrepare (r : Replica) (pp : PrePrepare) : Replica :=
  let p : Prepare := ⟨pp.viewNo, pp.seqNo, pp.time, pp.content⟩
  let r := { r with out := r.out ++ [Msg.prepare p] }
  r.addToPrepares cfg p cfg.name

/-- ordering_service.py:1329-1338, `try_prepare` and `_can_prepare`. -/
def Replica.tryPrepare (r : Replica) (pp : PrePrepare) : Replica :=
  if hasVote r.prepares pp.key cfg.name then r else r.doPrepare cfg pp

/-- ordering_service.py:1273-1287, `_add_to_pre_prepares`. -/
def Replica.addToPrePrepares (r : Replica) (pp : PrePrepare) : Replica :=
  let r := { r with recvPP := r.recvPP.set pp.key pp, preprepared := trackBatch r.preprepared pp.batchId }
  let r := r.bumpLastPP pp.seqNo
  r.tryPrepare cfg pp

/-- ordering_service.py:1289-1292, `_add_to_sent_pre_prepares`. -/
def Replica.addToSentPP (r : Replica) (pp : PrePrepare) : Replica :=
  let r := { r with sentPP := r.sentPP.set pp.key pp, preprepared := trackBatch r.preprepared pp.batchId }
  r.bumpLastPP pp.seqNo

/-- Python's `peekitem(-1)` of a `SortedDict` keyed by `(view, seq)`. -/
def lastKey (ks : List Key) : Option Key :=
  ks.foldl (fun m k => match m with
    | none => some k
    | some j => if j.1 < k.1 || (j.1 == k.1 && j.2 < k.2) then some k else some j) none

/-- ordering_service.py:678-690, `last_preprepare` and `__last_pp_3pc`. -/
def Replica.lastPP3pc (r : Replica) : Key :=
  let top : Option Key :=
    match lastKey r.sentPP.keys, lastKey r.recvPP.keys with
    | s, none => s
    | none, some k => if k.2 > 0 then some k else none
    | some s, some k => if k.2 > s.2 then some k else some s
  match top with
  | none => r.lastOrdered
  | some k => if k.2 > r.lastOrdered.2 then k else r.lastOrdered

/-- ordering_service.py:1130-1136, `_is_next_pre_prepare`. -/
def Replica.isNextPP (r : Replica) (s : Nat) : Bool := s == 1 || s == r.lastPP3pc.2 + 1

/-- The answers, at the moment a PRE-PREPARE is processed, of the checks whose
inputs are not modelled: its time (`_is_pre_prepare_time_acceptable`), that all
its requests are known, the pool state root, the BLS multi-signatures, and
`_apply_and_validate_applied_pre_prepare`. -/
structure PPEnv where
  timeOk : Bool := true
  reqsKnown : Bool := true
  poolRootOk : Bool := true
  multiSigOk : Bool := true
  applyOk : Bool := true
  deriving DecidableEq, Repr

/-- ordering_service.py:818-866, `_can_process_pre_prepare` (`true` for
`None`). -/
def Replica.canProcessPP (r : Replica) (pp : PrePrepare) (sender : Node) (env : PPEnv) : Bool :=
  if r.alreadyOrdered pp.seqNo then true
  else if cfg.digest pp.reqs pp.origView pp.time ≠ pp.content.digest then false
  else if !r.fromPrimary cfg sender then false
  else if r.recvPP.has pp.key then false
  else if !env.timeOk then false
  else if pp.seqNo < r.lastPP3pc.2 then false
  else if !env.reqsKnown then false
  else if !r.isNextPP pp.seqNo then false
  else if !env.poolRootOk then false
  else env.multiSigOk

/-- ordering_service.py:871-890, `_process_valid_preprepare`, and the tracking
of the applied batch (line 937, `_track_batches`). -/
def Replica.processValidPP (r : Replica) (pp : PrePrepare) (env : PPEnv) : Replica :=
  if !r.alreadyOrdered pp.seqNo && !env.applyOk then r
  else
    let r := if r.alreadyOrdered pp.seqNo then r
      else { r with batches := (r.batches.filter (fun k => ¬ k = pp.key)) ++ [pp.key] }
    let r := if r.isPrimary cfg then r.addToSentPP pp else r.addToPrePrepares cfg pp
    let r := r.dequeuePrepares cfg pp.key
    r.dequeueCommits cfg pp.key

/-- ordering_service.py:499-644, `process_preprepare`. -/
def Replica.processPrePrepare (r : Replica) (pp : PrePrepare) (sender : Node) (env : PPEnv) : Replica :=
  if !r.admits pp.viewNo pp.seqNo then r
  else if !r.canProcessPP cfg pp sender env then r
  else r.processValidPP cfg pp env

/-! ### The primary's batches -/

/-- ordering_service.py:1831-1864, `can_send_3pc_batch` on the master. -/
def Replica.canSendBatch (r : Replica) : Bool :=
  if !r.isPrimary cfg then false
  else if !r.participating then false
  else if r.waiting then false
  else if r.prevCert > r.lastPP then false
  else if r.view > 0 && r.lastPP > r.prevCert && r.lastOrdered.2 < r.prevCert + 1 then false
  else if r.view < r.lastOrdered.1 then false
  else if r.view == r.lastOrdered.1 then
    if r.lastPP < r.lastOrdered.2 then false
    else match cfg.maxInFlight with
      | none => true
      | some m => !(r.lastPP - r.lastOrdered.2 ≥ m)
  else true

/-- What the primary puts into a new batch: requests, time and the roots it
computed. -/
structure NewBatch where
  time : Nat
  reqs : List Nat
  ledger : Nat
  poolRoot : Nat
  stateRoot : Nat
  txnRoot : Nat
  auditRoot : Nat
  deriving DecidableEq, Repr

/-- ordering_service.py:2026-2034, `_do_send_3pc_batch` and
`create_3pc_batch`. -/
def Replica.createBatch (r : Replica) (b : NewBatch) : Replica :=
  if !r.canSendBatch cfg then r
  else
    let pp : PrePrepare :=
      { viewNo := r.view, seqNo := r.lastPP + 1, origView := r.view, time := b.time, reqs := b.reqs
        ledger := b.ledger, poolRoot := b.poolRoot
        content := ⟨cfg.digest b.reqs r.view b.time, b.stateRoot, b.txnRoot, b.auditRoot⟩ }
    let r := r.addToSentPP pp
    { r with out := r.out ++ [.prePrepare pp], batches := r.batches ++ [pp.key] }

/-! ### Housekeeping -/

/-- One round of the loop of `_process_stashed_out_of_order_commits`
(ordering_service.py:1656-1678) over one stashed commit; `lo` is the local
`lastOrdered`, `del` the keys to delete. -/
def Replica.orderStashed (s : Replica × Key × List Key) (e : Key × Commit) : Replica × Key × List Key :=
  let (r, lo, del) := s
  if e.1.1 < lo.1 then (r, lo, del ++ [e.1])
  else if r.ordered.contains e.1 || r.alreadyOrdered e.2.seqNo then (r, lo, del ++ [e.1])
  else if (e.1.1 == lo.1 && lo.2 + 1 == e.1.2) ||
      (e.1.1 > lo.1 && (e.1.1 ≤ r.view && e.1.2 == 1)) then
    let t := r.tryOrder cfg e.2
    if t.2 then (t.1, e.1, del ++ [e.1]) else (t.1, lo, del)
  else (r, lo, del)

/-- ordering_service.py:1642-1691, `_process_stashed_out_of_order_commits`. The
code deletes a key after its view's loop, the model after all of them. -/
def Replica.processOutOfOrder (r : Replica) : Replica :=
  if !r.participating then r
  else
    let s := r.outOfOrder.foldl (Replica.orderStashed cfg) (r, r.lastOrdered, [])
    { s.1 with outOfOrder := s.1.outOfOrder.filter (fun e => !s.2.2.contains e.1) }

/-- ordering_service.py:2479-2487, `_clear_batch`, for the PRE-PREPARE held at
the batch's key. -/
def Replica.clears (r : Replica) (p : Key → Bool) (b : BatchID) : Bool :=
  p (b.viewNo, b.ppSeqNo) && (r.getPP (b.viewNo, b.ppSeqNo)).any (fun pp => pp.batchId = b)

/-- Drop the 3PC messages of the keys satisfying `p` for which a PRE-PREPARE is
held (the loops of ordering_service.py:773-779 and 2284-2291). -/
def Replica.dropKeys (r : Replica) (p : Key → Bool) : Replica :=
  let q := fun k => p k && (r.getPP k).isSome
  { r with
    sentPP := r.sentPP.filter (fun e => !q e.1)
    recvPP := r.recvPP.filter (fun e => !q e.1)
    prepares := r.prepares.filter (fun e => !q e.1)
    commits := r.commits.filter (fun e => !q e.1)
    batches := r.batches.filter (fun k => !q k)
    preprepared := r.preprepared.filter (fun b => !r.clears p b)
    prepared := r.prepared.filter (fun b => !r.clears p b) }

/-- ordering_service.py:733-792, `gc`, called with a stabilized checkpoint. -/
def Replica.gc (r : Replica) (till : Nat) : Replica :=
  let r := r.dropKeys (fun k => k.2 ≤ till)
  { r with ordered := r.ordered.filter (fun k => !(k.1 < r.view - 1)) }

/-- ordering_service.py:2186-2209, `revert_unordered_batches`: the 3PC part. -/
def Replica.revertUnordered (r : Replica) : Replica :=
  { r with
    lastPP := r.lastPP - (r.batches.filter (fun k => k.2 > r.lastOrdered.2)).length
    batches := r.batches.filter (fun k => !(k.2 > r.lastOrdered.2)) }

/-- node.py:2600-2608, `_do_start_catchup`, on a replica that is not the master
primary: `checkpoint_service.py:118-122` asks for a catchup only there. -/
def Replica.startCatchup (r : Replica) : Replica :=
  if r.isPrimary cfg then r else { r.revertUnordered with participating := false }

/-- ordering_service.py:2223-2253, 2268-2291 and 2361-2373, `_caught_up_till_3pc` (if the
catchup went beyond the last ordered key) and the return to participation.
`restored` are the batches read back from the audit ledger (2227-2251). -/
def Replica.caughtUp (r : Replica) (k : Key) (restored : List BatchID) : Replica :=
  let r := if k.2 > r.lastOrdered.2 then
      let r := (r.setLastOrdered k).dropKeys (fun j => j.2 ≤ k.2)
      { r with preprepared := r.preprepared ++ restored, prepared := r.prepared ++ restored
               caught := max r.caught k.2 }
    else r
  { r with participating := true }

/-- view_change_service.py:71-128 and ordering_service.py:2320-2350,
`process_need_view_change` and `process_view_change_started`: move to a higher
view and wait for its NEW_VIEW. -/
def Replica.startViewChange (r : Replica) (v : Nat) : Replica :=
  if v ≤ r.view then r
  else
    let r := r.revertUnordered
    { r with view := v, waiting := true, batches := [], recvPP := [], prepares := [], commits := []
             sentPP := [], preprepared := [], prepared := [], ordered := r.ordered.filter (fun k => !(k.1 < v)) }

/-- view_change_service.py:314-319, `_finish_view_change`: the NEW_VIEW of the
current view is accepted. -/
def Replica.acceptNewView (r : Replica) : Replica :=
  if r.waiting then { r with waiting := false, prevCert := cfg.cert r.view } else r

/-- ordering_service.py:2380-2453, a PRE-PREPARE of an old view named in the
accepted NEW_VIEW is processed as if from the current primary. Such a batch is
at or below the highest one the NEW_VIEW names. -/
def Replica.oldViewPP (r : Replica) (pp : PrePrepare) (env : PPEnv) : Replica :=
  if pp.seqNo ≤ cfg.top r.view then
    r.processPrePrepare cfg { pp with viewNo := r.view } (cfg.primary r.view) env
  else r

/-- Everything that can happen to a replica. -/
inductive Event
  /-- a message arrives from another node -/
  | deliver (m : Msg) (sender : Node) (env : PPEnv)
  /-- the primary makes a batch -/
  | createBatch (b : NewBatch)
  /-- the timer of `_out_of_order_repeater` -/
  | orderStashed
  /-- a checkpoint at or below the last ordered batch becomes stable -/
  | stabilize (till : Nat)
  /-- the checkpoint service sets the watermarks (checkpoint_service.py:216-225) -/
  | watermarks (low high : Nat)
  | startCatchup
  | caughtUp (k : Key) (restored : List BatchID)
  | startViewChange (v : Nat)
  | acceptNewView
  | oldViewPP (pp : PrePrepare) (env : PPEnv)
  deriving Repr

/-- One event. A checkpoint above the last ordered batch is never stabilized:
`_mark_checkpoint_stable` is reached for own checkpoints or after a catchup
(checkpoint_service.py:137-139, 168-175). Nor is one below the stable one: a
received checkpoint at or below it is discarded
(checkpoint_service_msg_validator.py:24-25) and own ones below it are gone
(checkpoint_service.py:186-189). -/
def Replica.step (r : Replica) : Event → Replica
  | .deliver m sender env =>
    match m with
    | .prePrepare pp => r.processPrePrepare cfg pp sender env
    | .prepare p => r.processPrepare cfg p sender
    | .commit c => r.processCommit cfg c sender
  | .createBatch b => r.createBatch cfg b
  | .orderStashed => r.processOutOfOrder cfg
  | .stabilize till =>
    if r.stable ≤ till ∧ till ≤ r.lastOrdered.2 then { r.gc till with stable := till } else r
  | .watermarks low high => { r with lowWM := low, highWM := high }
  | .startCatchup => r.startCatchup cfg
  | .caughtUp k restored => r.caughtUp k restored
  | .startViewChange v => r.startViewChange v
  | .acceptNewView => r.acceptNewView cfg
  | .oldViewPP pp env => r.oldViewPP cfg pp env

/-- A run from the initial state. -/
def run (evs : List Event) : Replica := evs.foldl (Replica.step cfg) {}

/-- The messages an event list delivers from a node. -/
def Delivered (evs : List Event) (w : Node) (m : Msg) : Prop := ∃ env, Event.deliver m w env ∈ evs

end Verif.TPC
