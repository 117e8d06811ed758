import Verif.Model.Dict
/-!
# The write pipeline of the master instance

A PRE-PREPARE is applied on top of everything applied before it, checked,
and either kept as a batch which waits for its COMMITs or reverted. An ordered
batch is committed by the node. Batches which are not ordered are reverted when
a view change or a catchup starts. All this happens on shared databases: the
ledgers, the states and the audit ledger with its tracker.

Left out: backup instances (they do not touch the databases), the registry of
nodes and the primaries (other batch handlers), the BLS store, plugins, what a
catchup fetches, and who sent a message (any PRE-PREPARE may come, as from a
faulty primary).
-/
namespace Verif.Pipeline

/-- The key of a batch: view and sequence number. -/
structure Key where
  view : Nat
  seq : Nat
deriving DecidableEq, Repr

/-- A request: its digest and the ledger its type belongs to.
Models plenum/server/request_managers/write_request_manager.py:148-155, `apply_request`: the handler, and with
it the ledger, is found by the type of the transaction. -/
structure Req where
  digest : Nat
  lid : Nat
deriving DecidableEq, Repr

/-- A transaction: a request and the time of its batch. Its sequence number is its place in the ledger. -/
structure Txn where
  req : Req
  time : Nat
deriving DecidableEq, Repr

/-- A ledger with what is applied but not committed. Models plenum/common/ledger.py:14-20, `__init__`. -/
structure Led where
  com : List Txn
  unc : List Txn
deriving DecidableEq, Repr

/-- A state: the committed root and the head. Models state/pruning_state.py:46-49, `committedHead`. -/
structure St (σ : Type) where
  com : σ
  head : σ
deriving DecidableEq, Repr

/-- Models plenum/common/ledger_uncommitted_tracker.py:8-12, `__init__`, of the audit ledger: only the sizes are
used by the audit handler. -/
structure Trk where
  last : Nat
  unc : List Nat
deriving DecidableEq, Repr

/-- The databases of a node. `α` is the type of audit transactions. -/
structure Dbs (σ α : Type) where
  led : Nat → Led
  st : Nat → St σ
  audCom : List α
  audUnc : List α
  trk : Trk

/-- What the validation of a request says: fine, refused (`InvalidClientMessageException`), or ordered before
(`SuspiciousPrePrepare`). -/
inductive Verdict | ok | invalid | suspicious
deriving DecidableEq, Repr

/-- What is not modelled here: how requests are validated, how one changes the state, the content of an audit
transaction, and the roots of ledgers (no collision freedom is assumed). -/
structure Env (σ α : Type) where
  verdict : Dbs σ α → Req → Nat → Verdict
  upd : σ → Txn → σ
  mkAudit : Dbs σ α → Key → Nat → Nat → α
  rootL : List Txn → Nat
  rootA : List α → Nat

/-- A PRE-PREPARE. `discarded` is `none` when it does not decode to a list. `auditRoot` is `none` when the field is
absent. Models plenum/common/messages/node_messages.py:118-145, `PrePrepare`. -/
structure PP (σ : Type) where
  key : Key
  lid : Nat
  time : Nat
  reqs : List Req
  discarded : Option (List Nat)
  stateRoot : σ
  txnRoot : Nat
  auditRoot : Option Nat
  subSeqNo : Nat
  final : Bool
deriving DecidableEq, Repr

/-- What a step shows to the outside. -/
inductive Out (α : Type)
  /-- a batch was applied and is kept: its key, its ledger, its transactions, its audit transaction -/
  | accepted (k : Key) (lid : Nat) (txns : List Txn) (audit : Option α)
  /-- a PRE-PREPARE was refused after it had been applied -/
  | refused (k : Key)
  /-- the node committed the batch: these transactions went to the ledger -/
  | committed (k : Key) (txns : List Txn)
  /-- a kept batch was reverted -/
  | reverted (k : Key)
  /-- a batch was ordered which is no longer applied -/
  | stale (k : Key)
  /-- an exception left the function -/
  | raised
deriving DecidableEq, Repr

/-! ## Ledgers and states -/

/-- Change the ledger of one id. -/
def setLed {σ α : Type} (db : Dbs σ α) (l : Nat) (v : Led) : Dbs σ α :=
  { db with led := fun i => if i = l then v else db.led i }

/-- Change the state of one id. -/
def setSt {σ α : Type} (db : Dbs σ α) (l : Nat) (v : St σ) : Dbs σ α :=
  { db with st := fun i => if i = l then v else db.st i }

/-- Models plenum/common/ledger.py:25-27, `uncommitted_root_hash` (through
plenum/server/database_manager.py:39-46, `get_txn_root_hash`). -/
def txnRoot {σ α : Type} (E : Env σ α) (db : Dbs σ α) (l : Nat) : Nat :=
  E.rootL ((db.led l).com ++ (db.led l).unc)

/-- The same of the audit ledger. Models plenum/common/ledger.py:25-27, `uncommitted_root_hash`. -/
def auditRoot {σ α : Type} (E : Env σ α) (db : Dbs σ α) : Nat :=
  E.rootA (db.audCom ++ db.audUnc)

/-- Models plenum/server/request_handlers/handler_interfaces/write_request_handler.py:47-58, `apply_request`: the
transaction goes to the ledger of the handler, and so does the change of the state. -/
def applyReq {σ α : Type} (E : Env σ α) (db : Dbs σ α) (r : Req) (t : Nat) : Dbs σ α :=
  setSt
    (setLed db r.lid { (db.led r.lid) with unc := (db.led r.lid).unc ++ [⟨r, t⟩] })
    r.lid { (db.st r.lid) with head := E.upd (db.st r.lid).head ⟨r, t⟩ }

/-- The requests of a PRE-PREPARE, in order: the databases, the transactions made, the indices of those not applied,
and whether one was suspicious. Models plenum/server/consensus/ordering_service.py:1149-1166, `_apply_pre_prepare`;
an exception of another kind is left out. -/
def applyReqs {σ α : Type} (E : Env σ α) (db : Dbs σ α) (t : Nat) :
    List Req → Nat → Dbs σ α × List Txn × List Nat × Bool
  | [], _ => (db, [], [], false)
  | r :: rs, i =>
    match E.verdict db r t with
    | .ok =>
      let x := applyReqs E (applyReq E db r t) t rs (i + 1)
      (x.1, ⟨r, t⟩ :: x.2.1, x.2.2.1, x.2.2.2)
    | .invalid =>
      let x := applyReqs E db t rs (i + 1)
      (x.1, x.2.1, i :: x.2.2.1, x.2.2.2)
    | .suspicious =>
      let x := applyReqs E db t rs (i + 1)
      (x.1, x.2.1, i :: x.2.2.1, true)

/-- The audit transaction of a batch, if it has one. Models
plenum/server/batch_handlers/audit_batch_handler.py:64-81, `_add_to_ledger`. -/
def newAudit {σ α : Type} (E : Env σ α) (db : Dbs σ α) (k : Key) (lid t : Nat) (hasAudit : Bool) : Option α :=
  if hasAudit then some (E.mkAudit db k lid t) else none

/-- Models plenum/server/batch_handlers/audit_batch_handler.py:27-31, `post_batch_applied`: the tracker gets an
element even when the batch has no audit transaction. -/
def postApply {σ α : Type} (E : Env σ α) (db : Dbs σ α) (k : Key) (lid t : Nat) (hasAudit : Bool) : Dbs σ α :=
  let unc := db.audUnc ++ (newAudit E db k lid t hasAudit).toList
  { db with audUnc := unc, trk := { db.trk with unc := db.trk.unc ++ [db.audCom.length + unc.length] } }

/-- Models plenum/common/ledger.py:100-127, `discardTxns`; `none` is the `LogicError`. -/
def discard {β : Type} (unc : List β) (count : Nat) : Option (List β) :=
  if count = 0 then some unc
  else if unc.length < count then none
  else some (unc.take (unc.length - count))

/-- Models plenum/server/batch_handlers/audit_batch_handler.py:33-37, `post_batch_rejected`, with
plenum/common/ledger_uncommitted_tracker.py:45-60, `reject_batch`. Sizes in the tracker do not shrink, so the
difference is a natural number. -/
def postReject {σ α : Type} (db : Dbs σ α) : Option (Dbs σ α) :=
  match db.trk.unc.getLast? with
  | none => none
  | some size =>
    let rest := db.trk.unc.dropLast
    (discard db.audUnc (size - (rest.getLast?.getD db.trk.last))).map
      (fun u => { db with audUnc := u, trk := { db.trk with unc := rest } })

/-- Models plenum/server/consensus/ordering_service.py:1229-1240, `_revert`; `none` when it raises. -/
def revert {σ α : Type} (db : Dbs σ α) (lid : Nat) (root : σ) (count : Nat) : Option (Dbs σ α) :=
  let db1 := setSt db lid { (db.st lid) with head := root }
  (discard (db1.led lid).unc count).bind
    (fun u => postReject (setLed db1 lid { (db1.led lid) with unc := u }))

/-- Models plenum/server/batch_handlers/audit_batch_handler.py:39-44, `commit_batch`, with
plenum/common/ledger_uncommitted_tracker.py:29-43, `commit_batch`. -/
def commitAudit {σ α : Type} (db : Dbs σ α) : Option (Dbs σ α) :=
  match db.trk.unc with
  | [] => none
  | size :: rest =>
    let c := size - db.trk.last
    some { db with audCom := db.audCom ++ db.audUnc.take c, audUnc := db.audUnc.drop c, trk := ⟨size, rest⟩ }

/-- Models plenum/common/ledger.py:75-98, `commitTxns`. -/
def commitTxns (l : Led) (count : Nat) : Led := ⟨l.com ++ l.unc.take count, l.unc.drop count⟩

/-- Models plenum/server/batch_handlers/batch_request_handler.py:36-52, `_commit`, and then the audit handler
(plenum/server/request_managers/write_request_manager.py:178-185, `commit_batch`); `none` when it raises. -/
def commitBatch {σ α : Type} (E : Env σ α) (db : Dbs σ α) (lid count : Nat) (root : Nat) (stateRoot : σ) :
    Option (Dbs σ α) :=
  let led := commitTxns (db.led lid) count
  if E.rootL led.com ≠ root then none
  else commitAudit (setSt (setLed db lid led) lid { (db.st lid) with com := stateRoot })

/-! ## The node -/

/-- What is kept to revert a batch: ledger, number of applied requests, state root before.
Models plenum/server/consensus/ordering_service.py:1251-1252, `_track_batches`. -/
structure Entry (σ : Type) where
  lid : Nat
  count : Nat
  prev : σ
deriving DecidableEq, Repr

/-- A node: the current view, the databases, `batches`, the PRE-PREPAREs kept (`prePrepares` and
`sent_preprepares` together), the last ordered key, `_lastPrePrepareSeqNo`, the `Ordered` messages the node has not
taken yet, and whether an exception was raised (nothing happens afterwards in this model).
Models plenum/server/consensus/ordering_service.py:170-180, `__init__`. -/
structure Node (σ α : Type) where
  view : Nat
  db : Dbs σ α
  batches : Dict Key (Entry σ)
  pps : Dict Key (PP σ)
  lastOrdered : Key
  lastPpSeq : Nat
  outbox : List (PP σ)
  dead : Bool

/-- A node at start. -/
def start {σ α : Type} (db : Dbs σ α) : Node σ α := ⟨0, db, [], [], ⟨0, 0⟩, 0, [], false⟩

/-- Models plenum/server/consensus/ordering_service.py:692-702, `__last_pp_3pc`: the later of the last kept
PRE-PREPARE and the last ordered key; keys are compared by the sequence number only
(plenum/common/util.py:618-622, `compare_3PC_keys`). The kept ones are of one view, so the last key is the one with
the greatest sequence number. -/
def lastPp {σ α : Type} (n : Node σ α) : Nat :=
  (n.pps.map (fun e => e.1.seq)).foldl max n.lastOrdered.seq

/-- Models plenum/server/consensus/ordering_service.py:811-866, `_can_process_pre_prepare`, the parts about keys: for
the current view, not ordered, not kept already, not old and the next one. -/
def canProcess {σ α : Type} (n : Node σ α) (k : Key) : Bool :=
  k.view = n.view && n.lastOrdered.seq < k.seq && !(n.pps.has k) && lastPp n ≤ k.seq &&
    (k.seq = 1 || k.seq = lastPp n + 1)

/-- `len(reqIdr) - len(discarded)`, the number of applied requests. Models
plenum/server/consensus/ordering_service.py:2194-2197, `revert_unordered_batches`. -/
def countOf {σ : Type} (pp : PP σ) : Nat := pp.reqs.length - (pp.discarded.getD []).length

/-- Models plenum/server/consensus/ordering_service.py:1500-1506, `_order_3pc_key`: the requests whose index is not
among the discarded ones. -/
def validReqs {σ : Type} (pp : PP σ) : List Req :=
  (pp.reqs.zipIdx.filter (fun x => !((pp.discarded.getD []).contains x.2))).map Prod.fst

/-- Models plenum/server/consensus/ordering_service.py:1183-1199, `_validate_applied_pre_prepare`. -/
def applied {σ α : Type} [DecidableEq σ] (E : Env σ α) (db : Dbs σ α) (pp : PP σ) (invalid disc : List Nat) : Bool :=
  invalid.length = disc.length && pp.stateRoot = (db.st pp.lid).head && pp.txnRoot = txnRoot E db pp.lid &&
    (pp.auditRoot = none || pp.auditRoot = some (auditRoot E db))

/-- Keep a batch. Models plenum/server/consensus/ordering_service.py:1242-1252, `_track_batches`, 1273-1292,
`_add_to_pre_prepares`, `_add_to_sent_pre_prepares`, and the setter of `lastPrePrepareSeqNo`. -/
def keep {σ α : Type} (n : Node σ α) (db : Dbs σ α) (pp : PP σ) (prev : σ) : Node σ α :=
  { n with db := db, batches := n.batches.set pp.key ⟨pp.lid, countOf pp, prev⟩, pps := n.pps.set pp.key pp,
           lastPpSeq := max n.lastPpSeq pp.key.seq }

/-- The databases and the outcome of a PRE-PREPARE after its requests and the audit handler were applied. -/
def appliedDb {σ α : Type} (E : Env σ α) (db : Dbs σ α) (pp : PP σ) : Dbs σ α :=
  postApply E (applyReqs E db pp.time pp.reqs 0).1 pp.key pp.lid pp.time pp.auditRoot.isSome

/-- Refuse an applied PRE-PREPARE. Models plenum/server/consensus/ordering_service.py:921-927,
`_apply_and_validate_applied_pre_prepare`. -/
def refuse {σ α : Type} (n : Node σ α) (db : Dbs σ α) (pp : PP σ) (prev : σ) (count : Nat) : Node σ α × List (Out α) :=
  match revert db pp.lid prev count with
  | none => ({ n with db := db, dead := true }, [.refused pp.key, .raised])
  | some db' => ({ n with db := db' }, [.refused pp.key])

/-- Models plenum/server/consensus/ordering_service.py:892-951, `_apply_and_validate_applied_pre_prepare`. -/
def applyPp {σ α : Type} [DecidableEq σ] (E : Env σ α) (n : Node σ α) (pp : PP σ) : Node σ α × List (Out α) :=
  let prev := (n.db.st pp.lid).head
  let x := applyReqs E n.db pp.time pp.reqs 0
  let db := appliedDb E n.db pp
  if pp.subSeqNo ≠ 0 then ({ n with db := db }, [.refused pp.key])
  else if pp.final = false then ({ n with db := db }, [.refused pp.key])
  else
    match pp.discarded with
    | none => ({ n with db := db, dead := true }, [.raised])
    | some disc =>
      if x.2.2.2 = false ∧ applied E db pp x.2.2.1 disc then
        (keep n db pp prev, [.accepted pp.key pp.lid x.2.1 (newAudit E x.1 pp.key pp.lid pp.time pp.auditRoot.isSome)])
      else refuse n db pp prev (pp.reqs.length - x.2.2.1.length)

/-- Models plenum/server/consensus/ordering_service.py:871-890, `_process_valid_preprepare`; a PRE-PREPARE which is
not processed (old, waiting for others, ordered already) changes nothing. -/
def receive {σ α : Type} [DecidableEq σ] (E : Env σ α) (n : Node σ α) (pp : PP σ) : Node σ α × List (Out α) :=
  if canProcess n pp.key then applyPp E n pp else (n, [])

/-- The requests the primary takes from the queue of a ledger: suspicious ones are skipped, so they have no index.
Models plenum/server/consensus/ordering_service.py:2130-2168, `_consume_req_queue_for_pre_prepare`. -/
def consume {σ α : Type} (E : Env σ α) (db : Dbs σ α) (t : Nat) :
    List Req → Nat → Dbs σ α × List Txn × List Req × List Nat
  | [], _ => (db, [], [], [])
  | r :: rs, i =>
    match E.verdict db r t with
    | .ok =>
      let x := consume E (applyReq E db r t) t rs (i + 1)
      (x.1, ⟨r, t⟩ :: x.2.1, r :: x.2.2.1, x.2.2.2)
    | .invalid =>
      let x := consume E db t rs (i + 1)
      (x.1, x.2.1, r :: x.2.2.1, i :: x.2.2.2)
    | .suspicious => consume E db t rs i

/-- The PRE-PREPARE the primary makes. Models plenum/server/consensus/ordering_service.py:2036-2108,
`create_3pc_batch`. The queue of a ledger holds requests of this ledger
(plenum/server/replica.py:499-508, `readyFor3PC`). -/
def makePp {σ α : Type} (E : Env σ α) (n : Node σ α) (lid t : Nat) (queue : List Req) : PP σ :=
  let x := consume E n.db t (queue.filter (fun r => r.lid = lid)) 0
  let k : Key := ⟨n.view, n.lastPpSeq + 1⟩
  let db := postApply E x.1 k lid t true
  ⟨k, lid, t, x.2.2.1, some x.2.2.2, (db.st lid).head, txnRoot E db lid, some (auditRoot E db), 0, true⟩

/-- Models plenum/server/consensus/ordering_service.py:2026-2035, `_do_send_3pc_batch`. -/
def create {σ α : Type} (E : Env σ α) (n : Node σ α) (lid t : Nat) (queue : List Req) : Node σ α × List (Out α) :=
  let x := consume E n.db t (queue.filter (fun r => r.lid = lid)) 0
  let k : Key := ⟨n.view, n.lastPpSeq + 1⟩
  (keep n (postApply E x.1 k lid t true) (makePp E n lid t queue) (n.db.st lid).head,
    [.accepted k lid x.2.1 (newAudit E x.1 k lid t true)])

/-- Models plenum/server/consensus/ordering_service.py:1482-1552, `_order_3pc_key`, when 1608-1640, `_can_order`,
allows it. That all batches before it are ordered is taken as: the last ordered one is the one before it. -/
def order {σ α : Type} (n : Node σ α) (k : Key) : Node σ α × List (Out α) :=
  match n.pps.get? k with
  | none => (n, [])
  | some pp =>
    if k.seq = n.lastOrdered.seq + 1 then
      ({ n with lastOrdered := k, outbox := n.outbox ++ [pp], lastPpSeq := max n.lastPpSeq k.seq },
        if n.batches.has k then [] else [.stale k])
    else (n, [])

/-- Models plenum/server/node.py:1967-1984, `apply_stashed_reqs`, `apply_reqs`: the requests which are not in the
ledger are applied without validation. That all of them are known is assumed. -/
def applyStashed {σ α : Type} (E : Env σ α) (db : Dbs σ α) (pp : PP σ) : Dbs σ α :=
  let todo := (validReqs pp).filter (fun r => !((db.led r.lid).com.any (fun t => t.req.digest = r.digest)))
  postApply E (todo.foldl (fun d r => applyReq E d r pp.time) db) pp.key pp.lid pp.time pp.auditRoot.isSome

/-- Models plenum/server/node.py:2202-2216, `processOrdered`: when nothing is uncommitted on the audit ledger the
batch is taken as one which is not applied. -/
def beforeCommit {σ α : Type} (E : Env σ α) (db : Dbs σ α) (pp : PP σ) : Dbs σ α :=
  if db.audUnc.isEmpty then applyStashed E db pp else db

/-- Models plenum/server/node.py:2659-2694, `executeBatch`, 2753-2759, `commitAndSendReplies`. -/
def executeOne {σ α : Type} (E : Env σ α) (n : Node σ α) (pp : PP σ) (rest : List (PP σ)) : Node σ α × List (Out α) :=
  let db := beforeCommit E n.db pp
  match commitBatch E db pp.lid (validReqs pp).length pp.txnRoot pp.stateRoot with
  | none => ({ n with db := db, outbox := rest, dead := true }, [.raised])
  | some db' =>
    ({ n with db := db', outbox := rest },
      [.committed pp.key ((db.led pp.lid).unc.take (validReqs pp).length)])

/-- The node takes the next `Ordered`. Models plenum/server/node.py:2167-2229, `processOrdered`. -/
def execute {σ α : Type} (E : Env σ α) (n : Node σ α) : Node σ α × List (Out α) :=
  match n.outbox with
  | [] => (n, [])
  | pp :: rest => executeOne E n pp rest

/-- Models plenum/server/node.py:2231-2258, `force_process_ordered`; it stops at an exception. -/
def executeAll {σ α : Type} (E : Env σ α) : List (PP σ) → Node σ α → Node σ α × List (Out α)
  | [], n => (n, [])
  | pp :: rest, n =>
    let x := executeOne E n pp rest
    if x.1.dead then x
    else
      let y := executeAll E rest x.1
      (y.1, x.2 ++ y.2)

/-- Whether a key is before another, as tuples are compared. -/
def keyLt (a b : Key) : Bool := a.view < b.view || (a.view = b.view && a.seq < b.seq)

/-- Put a key into a descending list. -/
def insertDesc (k : Key) : List Key → List Key
  | [] => [k]
  | a :: l => if keyLt k a then a :: insertDesc k l else k :: a :: l

/-- `sorted(keys, reverse=True)`. -/
def sortDesc (ks : List Key) : List Key := ks.foldl (fun acc k => insertDesc k acc) []

/-- The loop of plenum/server/consensus/ordering_service.py:2192-2208, `revert_unordered_batches`: it stops at the
first key which is ordered. The requests go back to the queues (the queues are not modelled). -/
def revertLoop {σ α : Type} : List Key → Node σ α → Node σ α × List (Out α)
  | [], n => (n, [])
  | k :: ks, n =>
    if n.lastOrdered.seq < k.seq then
      match n.batches.get? k with
      | none => (n, [])
      | some e =>
        let n1 := { n with batches := n.batches.erase k }
        match revert n.db e.lid e.prev e.count with
        | none => ({ n1 with dead := true }, [.raised])
        | some db =>
          let x := revertLoop ks { n1 with db := db, lastPpSeq := n.lastPpSeq - 1 }
          (x.1, .reverted k :: x.2)
    else (n, [])

/-- Models plenum/server/consensus/ordering_service.py:2186-2212, `revert_unordered_batches`. -/
def revertUnordered {σ α : Type} (n : Node σ α) : Node σ α × List (Out α) :=
  revertLoop (sortDesc n.batches.keys) n

/-- A view change starts. Models plenum/server/consensus/ordering_service.py:2332-2350,
`process_view_change_started`, with 2320-2330, `_clear_all_3pc_msgs`. -/
def viewChange {σ α : Type} (n : Node σ α) : Node σ α × List (Out α) :=
  let x := revertUnordered n
  if x.1.dead then x else ({ x.1 with view := n.view + 1, batches := [], pps := [] }, x.2)

/-- A catchup starts. Models plenum/server/node.py:2600-2608, `_do_start_catchup`. The PRE-PREPAREs stay. -/
def catchup {σ α : Type} (E : Env σ α) (n : Node σ α) : Node σ α × List (Out α) :=
  let x := executeAll E n.outbox n
  if x.1.dead then x
  else
    let y := revertUnordered x.1
    (y.1, x.2 ++ y.2)

/-- A checkpoint got stable. Models plenum/server/consensus/ordering_service.py:734-778, `gc`. A stable checkpoint is
of ordered batches. -/
def gc {σ α : Type} (n : Node σ α) (till : Nat) : Node σ α × List (Out α) :=
  if till ≤ n.lastOrdered.seq then
    ({ n with batches := n.batches.filter (fun e => till < e.1.seq), pps := n.pps.filter (fun e => till < e.1.seq) }, [])
  else (n, [])

/-- What may happen. -/
inductive Event (σ : Type)
  | preprepare (pp : PP σ)
  | create (lid t : Nat) (queue : List Req)
  | order (k : Key)
  | execute
  | viewChange
  | catchup
  | gc (till : Nat)

/-- One event at a node which is alive. -/
def stepLive {σ α : Type} [DecidableEq σ] (E : Env σ α) (n : Node σ α) : Event σ → Node σ α × List (Out α)
  | .preprepare pp => receive E n pp
  | .create lid t q => create E n lid t q
  | .order k => order n k
  | .execute => execute E n
  | .viewChange => viewChange n
  | .catchup => catchup E n
  | .gc till => gc n till

/-- One event. -/
def step {σ α : Type} [DecidableEq σ] (E : Env σ α) (n : Node σ α) (e : Event σ) : Node σ α × List (Out α) :=
  if n.dead then (n, []) else stepLive E n e

/-- A history: the node after it and all that was shown. -/
def run {σ α : Type} [DecidableEq σ] (E : Env σ α) (n : Node σ α) (evs : List (Event σ)) : Node σ α × List (Out α) :=
  evs.foldl (fun x e => ((step E x.1 e).1, x.2 ++ (step E x.1 e).2)) (n, [])

end Verif.Pipeline
