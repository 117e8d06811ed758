import Verif.Model.Dict
/-!
# Writes to the databases of a node, and crashes between them

What a node writes, and in which order, when it starts, catches up and commits a batch: the
transaction logs, the roots of the states, the audit ledger, the times of roots and the index
of requests. A node may stop between any two writes. One write is taken to be done or not: C07 is
about the parts of a write to a ledger.

Kept simple: a state is known by its content (C12), and what transactions do to it is a parameter;
the audit ledger is only counted, since its transactions are those of the pool; the pool is a fixed list
of batches, and all its catchup replies are right (C30, C31); ledgers without a state are left out.
-/
namespace Verif.Crash
open Verif

/-- A transaction: the payload digest and the digest of the request and the time of the batch,
which genesis transactions do not have. -/
structure Txn where
  id : Option (Nat × Nat)
  time : Option Nat
  body : Nat
deriving Repr, DecidableEq

/-- A batch: its ledger, its time and its valid requests. -/
structure Batch where
  lid : Nat
  time : Nat
  txns : List Txn
deriving Repr, DecidableEq

/-- The pool: the ledgers in the order of catchup, those with a store of times, the genesis
transactions and the batches it orders. -/
structure Pool where
  lids : List Nat
  tsLids : List Nat
  genesis : Nat → List Txn
  batches : List Batch

/-- The empty state and the effect of a transaction: `WriteRequestHandler.update_state`. -/
structure Env (σ : Type) where
  empty : σ
  upd : σ → Txn → σ

/-- What is on the disk of a node. -/
structure Disk (σ : Type) where
  ledger : Nat → List Txn
  state : Nat → σ
  audit : Nat
  ts : Dict (Nat × Nat) σ
  seq : Dict Nat (Nat × Nat)
  full : List Nat

/-- The ledger of the pool after the first `m` batches. -/
def Pool.ledger (P : Pool) (m l : Nat) : List Txn :=
  P.genesis l ++ ((P.batches.take m).filter (·.lid = l)).flatMap (·.txns)

/-- One write. -/
inductive Write (σ : Type) where
  | append (l : Nat) (t : Txn)
  | state (l : Nat) (s : σ)
  | audit
  | ts (l time : Nat) (s : σ)
  | seq (es : List (Nat × (Nat × Nat)))
  | full (ds : List Nat)

/-- The effect of a write. -/
def write {σ : Type} (d : Disk σ) : Write σ → Disk σ
  | .append l t => { d with ledger := fun k => if k = l then d.ledger k ++ [t] else d.ledger k }
  | .state l s => { d with state := fun k => if k = l then s else d.state k }
  | .audit => { d with audit := d.audit + 1 }
  | .ts l time s => { d with ts := d.ts.set (l, time) s }
  | .seq es => { d with seq := es.foldl (fun m e => m.set e.1 e.2) d.seq }
  | .full ds => { d with full := d.full ++ ds }

/-- Several writes. -/
def writes {σ : Type} (d : Disk σ) (ws : List (Write σ)) : Disk σ := ws.foldl write d

/-- What is written as one step in the safest reading, made of smaller steps. -/
abbrev Steps (σ : Type) := List (List (List (Write σ)))

/-- plenum/persistence/req_id_to_txn.py:24-34, `addBatch`: two writes, first by the payload digests, then by the
digests; called by plenum/server/node.py:2748-2751, `updateSeqNoMap`, which leaves out transactions
without a request. `n` is the number of the first. -/
def seqWrites {σ : Type} (l n : Nat) (ts : List Txn) : List (List (Write σ)) :=
  if ts.all (fun t => t.id.isSome) then
    [[.seq (ts.zipIdx.filterMap fun e => e.1.id.map fun i => (i.1, (l, n + e.2)))],
     [.full (ts.filterMap fun t => t.id.map (·.2))]]
  else []

/-- plenum/server/batch_handlers/ts_store_batch_handler.py:11-24, `commit_batch`, registered for some ledgers by
plenum/server/node_bootstrap.py:101-104, `register_ts_store_batch_handlers`. -/
def tsWrites {σ : Type} (P : Pool) (l time : Nat) (s : σ) : List (List (Write σ)) :=
  if l ∈ P.tsLids then [[.ts l time s]] else []

/-- plenum/server/batch_handlers/batch_request_handler.py:37-52, `_commit`: the transactions one by one,
plenum/common/ledger.py:75-100, `commitTxns`, then the root of the state. -/
def ledgerWrites {σ : Type} (E : Env σ) (l : Nat) (s : σ) (ts : List Txn) : List (Write σ) :=
  ts.map (.append l) ++ [.state l (ts.foldl E.upd s)]

/-- plenum/server/node.py:2753-2759, `commitAndSendReplies`, with
plenum/server/request_managers/write_request_manager.py:178-185, `commit_batch`: the handler of the ledger, the audit
ledger, the times, in the order of their registration, and then the index of requests. -/
def commitSteps {σ : Type} (E : Env σ) (P : Pool) (d : Disk σ) (b : Batch) : Steps σ :=
  [[ledgerWrites E b.lid (d.state b.lid) b.txns, [.audit]] ++
    tsWrites P b.lid b.time (b.txns.foldl E.upd (d.state b.lid)) ++
    seqWrites b.lid ((d.ledger b.lid).length + 1) b.txns]

/-- plenum/server/node.py:1748-1765, `postTxnFromCatchupAddedToLedger`, after the transaction is added to the
ledger; the state is written by plenum/server/request_managers/write_request_manager.py:136-146, `restore_state`. -/
def addTxn {σ : Type} (E : Env σ) (P : Pool) (l : Nat) (s : σ) (n : Nat) (t : Txn) : List (List (Write σ)) :=
  [[.append l t, .state l (E.upd s t)]] ++
    (match t.time with
     | none => []
     | some time => tsWrites P l time (E.upd s t)) ++
    seqWrites l (n + 1) [t]

/-- Several transactions of a catchup. -/
def addAll {σ : Type} (E : Env σ) (P : Pool) (l : Nat) : σ → Nat → List Txn → Steps σ
  | _, _, [] => []
  | s, n, t :: ts => addTxn E P l s n t :: addAll E P l (E.upd s t) (n + 1) ts

/-- The last batch to catch up with. -/
def target {σ : Type} (d : Disk σ) (m : Nat) : Nat := max m d.audit

/-- plenum/server/catchup/node_leecher_service.py:97-113, `_on_ledger_catchup_complete`: the audit ledger, then the
others up to the sizes in its last transaction,
plenum/server/catchup/node_leecher_service.py:186-232, `_calc_catchup_till`; a ledger that is long enough gets
nothing, plenum/server/catchup/catchup_rep_service.py:53-78, `start`. -/
def catchupSteps {σ : Type} (E : Env σ) (P : Pool) (d : Disk σ) (m : Nat) : Steps σ :=
  List.replicate (target d m - d.audit) [[.audit]] ++
  P.lids.flatMap fun l => addAll E P l (d.state l) (d.ledger l).length ((P.ledger (target d m) l).drop (d.ledger l).length)

/-- ledger/ledger.py:34-68, `__init__`: an empty ledger gets the genesis transactions. -/
def genesisSteps {σ : Type} (P : Pool) (d : Disk σ) : Steps σ :=
  P.lids.flatMap fun l => if (d.ledger l).isEmpty then (P.genesis l).map fun t => [[.append l t]] else []

/-- The loop in plenum/server/ledgers_bootstrap.py:255-268, `_init_state_from_ledger`: `restore_state` writes
the root after each transaction. -/
def rebuild {σ : Type} (E : Env σ) (l : Nat) : σ → List Txn → List (Write σ)
  | _, [] => []
  | s, t :: ts => .state l (E.upd s t) :: rebuild E l (E.upd s t) ts

/-- plenum/server/ledgers_bootstrap.py:255-273, `_init_state_from_ledger`: only an empty state is made. -/
def rebuildSteps {σ : Type} [DecidableEq σ] (E : Env σ) (P : Pool) (d : Disk σ) : Steps σ :=
  P.lids.map fun l => [if d.state l = E.empty then rebuild E l E.empty (d.ledger l) else []]

/-- The ledgers are opened, then plenum/server/ledgers_bootstrap.py:208-212, `upload_states`, is called by
plenum/server/node.py:919-952, `start`. -/
def startSteps {σ : Type} [DecidableEq σ] (E : Env σ) (P : Pool) (d : Disk σ) : Steps σ :=
  genesisSteps P d ++ rebuildSteps E P (writes d (genesisSteps P d).flatten.flatten)

/-- Whether a node runs and has caught up. -/
inductive Status where
  | down | started | synced
deriving Repr, DecidableEq

/-- A node. -/
structure Node (σ : Type) where
  disk : Disk σ
  status : Status

/-- Nothing on the disk. -/
def init {σ : Type} (E : Env σ) : Node σ :=
  ⟨⟨fun _ => [], fun _ => E.empty, 0, [], [], []⟩, .down⟩

/-- Whether the node can commit the batch: the PRE-PREPARE is refused unless the roots of its ledger and its
state and the audit transaction, with the sizes of all ledgers, are those of the primary,
plenum/server/consensus/ordering_service.py:1183-1199, `_validate_applied_pre_prepare`. -/
def canCommit {σ : Type} [DecidableEq σ] (E : Env σ) (P : Pool) (d : Disk σ) (b : Batch) : Bool :=
  decide (∀ l ∈ P.lids, (d.ledger l).length = (P.ledger d.audit l).length) &&
  decide (d.ledger b.lid ++ b.txns = P.ledger (d.audit + 1) b.lid) &&
  decide (b.txns.foldl E.upd (d.state b.lid) = (P.ledger (d.audit + 1) b.lid).foldl E.upd E.empty)

/-- What happens at a node: a start, a catchup to the first `m` batches, the commit of the next batch. Each may be cut
short after some writes by a crash. -/
inductive Ev where
  | start (stop : Option Nat)
  | catchup (m : Nat) (stop : Option Nat)
  | commit (stop : Option Nat)
deriving Repr, DecidableEq

/-- The writes before the crash. -/
def cut {σ : Type} (ws : List (Write σ)) : Option Nat → List (Write σ)
  | none => ws
  | some j => ws.take j

/-- Perform the writes, or some of them. -/
def perform {σ : Type} (n : Node σ) (steps : Steps σ) (stop : Option Nat) (after : Status) : Node σ :=
  ⟨writes n.disk (cut steps.flatten.flatten stop), if stop.isSome then .down else after⟩

/-- What an event writes, or nothing if it cannot happen, and the status after it. -/
def stepsOf {σ : Type} [DecidableEq σ] (E : Env σ) (P : Pool) (n : Node σ) : Ev → Option (Steps σ × Option Nat × Status)
  | .start stop => if n.status = .down then some (startSteps E P n.disk, stop, .started) else none
  | .catchup m stop =>
    if n.status ≠ .down ∧ m ≤ P.batches.length then some (catchupSteps E P n.disk m, stop, .synced) else none
  | .commit stop =>
    match P.batches[n.disk.audit]? with
    | none => none
    | some b => if n.status = .synced ∧ canCommit E P n.disk b then some (commitSteps E P n.disk b, stop, .synced) else none

/-- One event. -/
def step {σ : Type} [DecidableEq σ] (E : Env σ) (P : Pool) (n : Node σ) (e : Ev) : Node σ :=
  match stepsOf E P n e with
  | none => n
  | some (steps, stop, after) => perform n steps stop after

/-- A history. -/
def run {σ : Type} [DecidableEq σ] (E : Env σ) (P : Pool) (n : Node σ) (evs : List Ev) : Node σ := evs.foldl (step E P) n

end Verif.Crash
