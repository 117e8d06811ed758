import Verif.Model.Dict
/-!
# The audit ledger

Every ordered batch leaves one transaction on the audit ledger. To keep the
transactions small a field which did not change is stored as a distance back
to the transaction which has the value.
-/
namespace Verif.Audit

/-! ## The tracker of uncommitted batches -/

/-- What may be raised. -/
inductive Err
  /-- `PlenumValueError` of `commit_batch` on an empty queue -/
  | nothingToCommit
  /-- `LogicError("No items to return")` -/
  | nothingToReject
  /-- the two `LogicError`s of `_fill_primaries` and the one of `_fill_node_reg` -/
  | badDelta
  /-- `LogicError` of `discardTxns` -/
  | tooManyToDiscard
deriving DecidableEq, Repr

/-- An element of the queue: state root, transaction root, ledger size.
Models plenum/common/ledger_uncommitted_tracker.py:27. -/
structure Mark where
  state : String
  root : String
  size : Nat
deriving DecidableEq, Repr

/-- Models plenum/common/ledger_uncommitted_tracker.py:8-12, `LedgerUncommittedTracker`;
the state root of the audit tracker is `None` in the code, here the empty string. -/
structure Tracker where
  uncommitted : List Mark
  committed : Mark
deriving DecidableEq, Repr

namespace Tracker

/-- Models plenum/common/ledger_uncommitted_tracker.py:14-27, `apply_batch`; a size is a natural number, so
the error for negative ones cannot arise. -/
def applyBatch (t : Tracker) (state root : String) (size : Nat) : Tracker :=
  { t with uncommitted := t.uncommitted ++ [⟨state, root, size⟩] }

/-- Models plenum/common/ledger_uncommitted_tracker.py:29-43, `commit_batch`. The count is an integer: the
code subtracts without a check. -/
def commitBatch (t : Tracker) : Except Err ((String × String × Int) × Tracker) :=
  match t.uncommitted with
  | [] => .error .nothingToCommit
  | m :: rest => .ok ((m.state, m.root, (m.size : Int) - t.committed.size), ⟨rest, m⟩)

/-- Models plenum/common/ledger_uncommitted_tracker.py:45-60, `reject_batch`. -/
def rejectBatch (t : Tracker) : Except Err ((String × String × Int) × Tracker) :=
  match t.uncommitted.getLast? with
  | none => .error .nothingToReject
  | some m =>
    let rest := t.uncommitted.dropLast
    let prev := rest.getLast?.getD t.committed
    .ok ((prev.state, prev.root, (m.size : Int) - prev.size), { t with uncommitted := rest })

/-- Models plenum/common/ledger_uncommitted_tracker.py:62-63, `set_last_committed`. -/
def setLastCommitted (t : Tracker) (state root : String) (size : Nat) : Tracker :=
  { t with committed := ⟨state, root, size⟩ }

end Tracker

/-! ## Audit transactions -/

/-- A field of an audit transaction: the value, or the distance to the
transaction with the value. -/
inductive Field (α : Type)
  | here (v : α)
  | back (n : Nat)
deriving DecidableEq, Repr

/-- What `_create_audit_txn_data` reads of one ledger: `uncommitted_size`,
`uncommitted_root_hash`, `len(uncommittedTxns)` and the `headHash` of its state.
Roots stand for the strings written by `Ledger.hashToStr`. -/
structure LedgerNow where
  size : Nat
  root : String
  staged : Nat
  state : String
deriving DecidableEq, Repr

/-- The fields of a `ThreePcBatch` which reach the audit transaction, with the
ledgers of the node and the frozen ledgers (with their `seq_no`) as they are when the
batch has been applied. Models plenum/server/batch_handlers/three_pc_batch.py:8-44. -/
structure Batch where
  ledgerId : Nat
  viewNo : Nat
  origView : Option Nat
  ppSeqNo : Nat
  digest : String
  primaries : List String
  nodeReg : Option (List String)
  hasAudit : Bool
  ledgers : Dict Nat LedgerNow
  frozen : Dict Nat Nat
deriving DecidableEq, Repr

/-- Payload of an audit transaction. Models plenum/server/batch_handlers/audit_batch_handler.py:86-95. -/
structure Txn where
  viewNo : Nat
  ppSeqNo : Nat
  sizes : Dict Nat Nat
  roots : Dict Nat (Field String)
  states : Dict Nat String
  primaries : Field (List String)
  nodeReg : Option (Field (List String))
  digest : String
deriving DecidableEq, Repr

/-- `AUDIT_LEDGER_ID`. Models plenum/common/constants.py:266. -/
def auditId : Nat := 3

/-- The last three branches, 3, 4 and 5, of `_fill_ledger_root_hash`.
Models plenum/server/batch_handlers/audit_batch_handler.py:145-155. -/
def unchangedRoot (last : Txn) (lid : Nat) : Option (Field String) :=
  match last.roots.get? lid with
  | none => none
  | some (.back n) => some (.back (n + 1))
  | some (.here _) => some (.back 1)

/-- Models plenum/server/batch_handlers/audit_batch_handler.py:120-155, `_fill_ledger_root_hash`: the entry
made in the ledger roots, `none` if there is none. -/
def fillRoot (last : Option Txn) (b : Batch) (lid : Nat) (l : LedgerNow) : Option (Field String) :=
  if lid = b.ledgerId then some (.here l.root)
  else match last with
    | none => if l.size ≠ 0 then some (.here l.root) else none
    | some t =>
      match t.sizes.get? lid with
      | none => if l.staged ≠ 0 then some (.here l.root) else unchangedRoot t lid
      | some n => if l.size > n then some (.here l.root) else unchangedRoot t lid

/-- One pass of the loop over the ledgers: size, root, and the state root wherever
the root is written out. Models plenum/server/batch_handlers/audit_batch_handler.py:100-108. -/
def fillLedger (last : Option Txn) (b : Batch) (t : Txn) (e : Nat × LedgerNow) : Txn :=
  if e.1 = auditId ∨ b.frozen.has e.1 = true then t
  else match fillRoot last b e.1 e.2 with
    | none => { t with sizes := t.sizes.set e.1 e.2.size }
    | some (.here r) =>
      { t with sizes := t.sizes.set e.1 e.2.size, roots := t.roots.set e.1 (.here r),
               states := t.states.set e.1 e.2.state }
    | some (.back n) =>
      { t with sizes := t.sizes.set e.1 e.2.size, roots := t.roots.set e.1 (.back n) }

/-- One pass of the loop over the frozen ledgers.
Models plenum/server/batch_handlers/audit_batch_handler.py:237-245. -/
def fillFrozen (last : Txn) (t : Txn) (e : Nat × Nat) : Txn :=
  match last.roots.get? e.1 with
  | some (.back n) =>
    { t with sizes := t.sizes.set e.1 e.2, roots := t.roots.set e.1 (.back (n + 1)),
             states := match last.states.get? e.1 with
               | some r => t.states.set e.1 r
               | none => t.states }
  | _ => t

/-- The transaction `n` places before position `i` (from 0) of the ledger, if there is one: there is no
transaction with a sequence number below 1. -/
def behind (log : List Txn) (i n : Nat) : Option Txn := if n ≤ i then log[i - n]? else none

/-- The two fields share their rule. `log` is the whole audit ledger, committed and not,
whose last transaction has the sequence number `log.length`; `field` picks the field of a
transaction. Models plenum/server/batch_handlers/audit_batch_handler.py:166-194 for the primaries and
plenum/server/batch_handlers/audit_batch_handler.py:208-231 for the node registry, without the test that the distance is
smaller than the ledger, which the two treat differently. -/
def fillDelta (log : List Txn) (field : Txn → Option (Field (List String))) (last : Field (List String))
    (cur : List String) : Except Err (Field (List String)) :=
  match last with
  | .here v => if v = cur then .ok (.back 1) else .ok (.here cur)
  | .back n =>
    match (behind log (log.length - 1) n).bind field with
    | some (.here v) => if v = cur then .ok (.back (n + 1)) else .ok (.here cur)
    | _ => .error .badDelta

/-- Models plenum/server/batch_handlers/audit_batch_handler.py:157-194, `_fill_primaries`. The primaries of a
batch are always a list here. -/
def fillPrimaries (log : List Txn) (b : Batch) : Except Err (Field (List String)) :=
  match log.getLast? with
  | none => .ok (.here b.primaries)
  | some t =>
    match t.primaries with
    | .here v => fillDelta log (fun t => some t.primaries) (.here v) b.primaries
    | .back n =>
      if n < log.length then fillDelta log (fun t => some t.primaries) (.back n) b.primaries
      else .error .badDelta

/-- Models plenum/server/batch_handlers/audit_batch_handler.py:196-231, `_fill_node_reg`. -/
def fillNodeReg (log : List Txn) (b : Batch) : Except Err (Option (Field (List String))) :=
  match b.nodeReg with
  | none => .ok none
  | some cur =>
    match log.getLast?.bind (·.nodeReg) with
    | none => .ok (some (.here cur))
    | some (.here v) => (fillDelta log (·.nodeReg) (.here v) cur).map some
    | some (.back n) =>
      if n < log.length then (fillDelta log (·.nodeReg) (.back n) cur).map some
      else .ok none

/-- Models plenum/server/batch_handlers/audit_batch_handler.py:83-118, `_create_audit_txn_data`. -/
def createTxn (log : List Txn) (b : Batch) : Except Err Txn :=
  let last := log.getLast?
  let t0 : Txn := ⟨b.origView.getD b.viewNo, b.ppSeqNo, [], [], [], .here [], none, b.digest⟩
  let t1 := b.ledgers.foldl (fillLedger last b) t0
  let t2 := match last with
    | none => t1
    | some l => b.frozen.foldl (fillFrozen l) t1
  match fillPrimaries log b with
  | .error e => .error e
  | .ok p =>
    match fillNodeReg log b with
    | .error e => .error e
    | .ok r => .ok { t2 with primaries := p, nodeReg := r }

/-! ## The handler -/

/-- The audit ledger, as committed and uncommitted transactions (see Model/Ledger.lean
for the ledger itself), and the tracker. -/
structure State where
  committed : List Txn
  uncommitted : List Txn
  tracker : Tracker
deriving DecidableEq, Repr

/-- `self.ledger` as one list: `get_last_txn` and `get_by_seq_no_uncommitted` read
committed and uncommitted transactions alike. Models plenum/common/ledger.py:153-156, `get_last_txn` and
plenum/common/ledger.py:163-168, `get_by_seq_no_uncommitted`. -/
def State.log (s : State) : List Txn := s.committed ++ s.uncommitted

/-- A node starting with a given audit ledger. Models plenum/server/batch_handlers/audit_batch_handler.py:22-25.
Roots in the tracker play no role for the audit ledger and are left empty. -/
def start (committed : List Txn) : State :=
  ⟨committed, [], ⟨[], ⟨"", "", committed.length⟩⟩⟩

/-- Models plenum/server/batch_handlers/audit_batch_handler.py:27-31, `post_batch_applied` and
plenum/server/batch_handlers/audit_batch_handler.py:64-81, `_add_to_ledger`. -/
def postBatchApplied (s : State) (b : Batch) : Except Err State :=
  if b.hasAudit = true then
    match createTxn s.log b with
    | .error e => .error e
    | .ok t =>
      .ok { s with uncommitted := s.uncommitted ++ [t],
                   tracker := s.tracker.applyBatch "" "" (s.log.length + 1) }
  else .ok { s with tracker := s.tracker.applyBatch "" "" s.log.length }

/-- The Python slice `l[:k]`. -/
def upTo (l : List Txn) (k : Int) : List Txn :=
  if 0 ≤ k then l.take k.toNat else l.take (l.length - (-k).toNat)

/-- The Python slice `l[k:]`. -/
def since (l : List Txn) (k : Int) : List Txn :=
  if 0 ≤ k then l.drop k.toNat else l.drop (l.length - (-k).toNat)

/-- `discardTxns` on the list of uncommitted transactions.
Models plenum/common/ledger.py:102-127, `discardTxns`. -/
def discardTxns (l : List Txn) (k : Int) : Except Err (List Txn) :=
  if k = 0 then .ok l
  else if k > l.length then .error .tooManyToDiscard
  else .ok (upTo l (-k))

/-- Models plenum/server/batch_handlers/audit_batch_handler.py:33-37, `post_batch_rejected`. -/
def postBatchRejected (s : State) : State × Option Err :=
  match s.tracker.rejectBatch with
  | .error e => (s, some e)
  | .ok ((_, _, k), t) =>
    match discardTxns s.uncommitted k with
    | .error e => ({ s with tracker := t }, some e)
    | .ok l => ({ s with uncommitted := l, tracker := t }, none)

/-- Models plenum/server/batch_handlers/audit_batch_handler.py:39-44, `commit_batch`, with
plenum/common/ledger.py:75-100, `commitTxns`. -/
def commitBatch (s : State) : State × Option Err :=
  match s.tracker.commitBatch with
  | .error e => (s, some e)
  | .ok ((_, _, k), t) =>
    (⟨s.committed ++ upTo s.uncommitted k, since s.uncommitted k, t⟩, none)

/-- What happens to the handler. `restart` is a crash and a new start: what was not
committed is gone. -/
inductive Op
  | apply (b : Batch)
  | reject
  | commit
  | restart
deriving Repr

/-- One operation, and what it raises. `createTxn` raises before anything is changed. -/
def step (s : State) : Op → State × Option Err
  | .apply b =>
    match postBatchApplied s b with
    | .ok s' => (s', none)
    | .error e => (s, some e)
  | .reject => postBatchRejected s
  | .commit => commitBatch s
  | .restart => (start s.committed, none)

/-- A history, from an empty audit ledger. -/
def run (ops : List Op) : State := ops.foldl (fun s o => (step s o).1) (start [])

/-! ## The readers -/

/-- Models plenum/server/node.py:1875-1884, `_get_last_audited_primaries`. The outer option is
the exception for a missing transaction, the result may be a field which is not a list. -/
def lastAuditedPrimaries (committed : List Txn) : Option (Field (List String)) :=
  match committed.getLast? with
  | none => none
  | some t =>
    match t.primaries with
    | .here v => some (.here v)
    | .back n => (behind committed (committed.length - 1) n).map (·.primaries)

/-- Models plenum/server/consensus/ordering_service.py:1580-1597, `_get_from_audit_for_ordered` on
the master: `none` is `None`. `i` is the position on the ledger of the first transaction of
`rest`, which are the uncommitted ones from there on. -/
def fromAuditForOrdered (log : List Txn) (field : Txn → Option (Field (List String))) (view pp : Nat) :
    (i : Nat) → (rest : List Txn) → Option (Field (List String))
  | _, [] => none
  | i, t :: rest =>
    if pp = t.ppSeqNo ∧ view = t.viewNo then
      match field t with
      | some (.here v) => some (.here v)
      | some (.back n) => (behind log i n).bind field
      | none => none
    else fromAuditForOrdered log field view pp (i + 1) rest

/-- Size and root of a ledger of the catching up node. -/
structure Own where
  size : Nat
  root : String
deriving DecidableEq, Repr

/-- Models plenum/server/catchup/utils.py:13-16. -/
structure Till where
  start : Nat
  final : Nat
  hash : Option String
deriving DecidableEq, Repr

/-- One pass of the loop of `_calc_catchup_till`; the outer `none` is `return {}`, the
inner one `continue`. Models plenum/server/catchup/node_leecher_service.py:195-230. -/
def tillOf (audit : List Txn) (last : Txn) (own : Nat → Option Own) (lid final : Nat) : Option (Option Till) :=
  match own lid with
  | none => some none
  | some o =>
    match last.roots.get? lid with
    | none =>
      if final ≠ o.size then none
      else some (some ⟨o.size, final, if final > 0 then some o.root else none⟩)
    | some (.here r) => some (some ⟨o.size, final, some r⟩)
    | some (.back n) =>
      match behind audit (audit.length - 1) n with
      | none => none
      | some t =>
        match t.roots.get? lid with
        | some (.here r) => some (some ⟨o.size, final, some r⟩)
        | _ => none

/-- The loop of `_calc_catchup_till`.
Models plenum/server/catchup/node_leecher_service.py:194-232. -/
def tillLoop (audit : List Txn) (last : Txn) (own : Nat → Option Own) :
    List (Nat × Nat) → Dict Nat Till → Dict Nat Till
  | [], acc => acc
  | (lid, final) :: rest, acc =>
    match tillOf audit last own lid final with
    | none => []
    | some none => tillLoop audit last own rest acc
    | some (some t) => tillLoop audit last own rest (acc.set lid t)

/-- Models plenum/server/catchup/node_leecher_service.py:186-232, `_calc_catchup_till`. -/
def calcCatchupTill (audit : List Txn) (own : Nat → Option Own) : Dict Nat Till :=
  match audit.getLast? with
  | none => []
  | some last => tillLoop audit last own last.sizes []

end Verif.Audit
