import Verif.Model.Propagator
/-!
# What a node answers to its clients

`plenum/server/node.py`: requests of clients, PROPAGATEs with the name of a client in them, and the
answers: REQACK, REQNACK, REPLY and REJECT. The records of requests are those of
`Verif.Propagator`; `State.sender` is `requestSender`.

Simplified: a transaction is the request it was made of; the multi-signature, audit path and other
additions to a REPLY are not modelled. Batches of client messages are the messages in them
(node.py:1672-1682); LEDGER_STATUS and CATCHUP_REQ are not modelled here. No client is ever black-listed: `SuspiciousClient`
is raised nowhere. The read-only mode (2059-2063) is not modelled. A message waits in `clientInBox` only within one call of `serviceClientMsgs`.
-/
namespace Verif.Answers
open Verif.Propagator (Key Req Sender Inst)

/-- The name of a connection of a client. -/
abbrev Client := Nat

/-- node.py:2032-2058: which branch of `processRequest`. -/
inductive Kind
  | action | query | write
  deriving DecidableEq, Repr

structure Cfg where
  prop : Propagator.Cfg
  kind : Req → Kind
  /-- `doStaticValidation` (node.py:1944-1957), and whether the message makes a request at all. -/
  wellFormed : Req → Bool
  /-- the static validation when a read is processed (node.py:2077) -/
  readOk : Req → Bool
  /-- whether an action is allowed and done without an exception (node.py:2088-2091) -/
  actionOk : Req → Bool
  /-- identifier and `reqId` -/
  reqId : Req → Nat
  /-- the ledger for the type of the request -/
  ledgerOf : Req → Nat
  /-- dynamic validation, on the state made by these requests -/
  valid : List Req → Req → Bool

/-- An answer about a request. -/
inductive Answer
  | ack (r : Req)
  | nack (r : Req)
  /-- the result of a read or of an action -/
  | result (r : Req)
  | reject (r : Req)
  /-- a transaction, the request it was made of, with ledger and sequence number -/
  | reply (t : Req) (ledger seqNo : Nat)
  deriving DecidableEq, Repr

inductive Out
  | client (c : Client) (a : Answer)
  /-- a PROPAGATE to all nodes -/
  | propagate (r : Req) (c : Option Client)
  deriving DecidableEq, Repr

/-- A batch that is applied and not ordered: requests with the verdict of the dynamic validation. -/
structure Batch where
  ledger : Nat
  reqs : List (Req × Bool)
  deriving DecidableEq, Repr

/-- The requests which were found valid. -/
def Batch.valid (b : Batch) : List Req := (b.reqs.filter Prod.snd).map Prod.fst

structure State where
  prop : Propagator.State := {}
  /-- `requestSender` -/
  sender : Dict Key (Option Client) := []
  /-- `seqNoDB`: payload digests with ledger and sequence number -/
  byPayload : Dict Key (Nat × Nat) := []
  /-- `seqNoDB`: full digests -/
  byFull : List Key := []
  ledger : Nat → List Req := fun _ => []
  pending : List Batch := []
  /-- all requests ordered, in the order in which they were; the state -/
  history : List Req := []
  viewChange : Bool := false

/-- node.py:2150-2152, `doneProcessingReq`. -/
def State.done (s : State) (k : Key) : State := { s with sender := s.sender.erase k }

/-- node.py:2144-2145, `startedProcessingReq`, and 2157-2158, `set_sender_for_req`. -/
def State.start (s : State) (k : Key) (c : Option Client) : State := { s with sender := s.sender.set k c }

/-- A message for a client whose name may not be known. `transmitToClient` with `None` reaches nobody. -/
def toClient (c : Option Client) (a : Answer) : List Out :=
  match c with
  | none => []
  | some c => [.client c a]

/-- node.py:2994-3004, `getReplyFromLedgerForRequest`, with 3006-3016, `getReplyFromLedger`. -/
def State.fromLedger (cfg : Cfg) (s : State) (r : Req) : Option Answer :=
  match s.byPayload.get? (cfg.prop.payload r) with
  | none => none
  | some (l, n) =>
    if cfg.prop.digest r ∈ s.byFull then
      match n with
      | 0 => none
      | n + 1 => ((s.ledger l)[n]?).map (fun t => .reply t l (n + 1))
    else some (.nack r)

/-- plenum/server/propagator.py:204-218, `propagate`: what is sent. -/
def State.propagated (cfg : Cfg) (s : State) (r : Req) (c : Option Client) : List Out :=
  if s.prop.hasPropagated cfg.prop r (.str cfg.prop.name) then [] else [.propagate r c]

/-- plenum/server/propagator.py:289-298, `recordAndPropagate`. -/
def State.record (cfg : Cfg) (s : State) (r : Req) (c : Option Client) : State × List Out :=
  let s := { s with prop := s.prop.add cfg.prop r }
  ({ s with prop := (s.prop.propagate cfg.prop r).tryForwarding cfg.prop r }, s.propagated cfg r c)

/-- node.py:2037-2056, `processRequest`, a write; with 1986-1997, `handle_request_if_forced`. -/
def State.write (cfg : Cfg) (s : State) (r : Req) (c : Client) : State × List Out :=
  match s.fromLedger cfg r with
  | some a => (s, [.client c a])
  | none =>
    let k := cfg.prop.digest r
    if s.sender.has k then
      let x := s.record cfg r (some c)
      (x.1, x.2 ++ [.client c (.ack r)])
    else if cfg.prop.forcedOk r then
      let x := (s.start k (some c)).record cfg r (some c)
      (x.1, x.2 ++ [.client c (.ack r)])
    else ((s.start k (some c)).done k, [.client c (.nack r)])

/-- node.py:2074-2083, `process_query`: after a NACK the result is sent all the same. -/
def query (cfg : Cfg) (r : Req) (c : Client) : List Out :=
  [.client c (if cfg.readOk r then .ack r else .nack r), .client c (.result r)]

/-- node.py:2085-2095, `process_action`. -/
def action (cfg : Cfg) (r : Req) (c : Client) : List Out :=
  [.client c (.ack r), .client c (if cfg.actionOk r then .result r else .reject r)]

/-- A message of a client: node.py:1555-1597, `handleOneClientMsg` and `handleInvalidClientMsg`,
1618-1690, `validateClientMsg` and `unpackClientMsg`, and 2000-2063, `processRequest`. -/
def State.came (cfg : Cfg) (s : State) (r : Req) (c : Client) : State × List Out :=
  if !(cfg.wellFormed r && cfg.prop.authentic r) then (s, [.client c (.nack r)])
  else match cfg.kind r with
    | .action => (s, action cfg r c)
    | .query => (s, query cfg r c)
    | .write => if s.viewChange then (s, []) else s.write cfg r c

/-- node.py:2139-2142: a PROPAGATE is recorded, the node's own is sent, and the request may be forwarded. -/
def State.addProp (cfg : Cfg) (s : State) (r : Req) (frm : Sender) (c : Option Client) : State × List Out :=
  let s := { s with prop := s.prop.addPropagate cfg.prop r frm }
  ({ s with prop := (s.prop.propagate cfg.prop r).tryForwarding cfg.prop r }, s.propagated cfg r c)

/-- node.py:2133-2137: the name of the client is taken if none was known. -/
def State.learn (s : State) (k : Key) (c : Option Client) : State :=
  match c, s.sender.get? k with
  | some c, some none => s.start k (some c)
  | _, _ => s

/-- node.py:2099-2142, `processPropagate`. -/
def State.processPropagate (cfg : Cfg) (s : State) (r : Req) (frm : Sender) (c : Option Client) : State × List Out :=
  let k := cfg.prop.digest r
  if s.sender.has k then (s.learn k c).addProp cfg r frm c
  else if s.byPayload.has (cfg.prop.payload r) then (s, [])
  else if cfg.prop.forcedOk r then (s.start k c).addProp cfg r frm c
  else ((s.start k c).done k, toClient c (.nack r))

/-- The records of the requests a PRE-PREPARE names; `none`: one is missing, the PRE-PREPARE waits. -/
def State.recordsOf (s : State) : List Key → Option (List Req)
  | [] => some []
  | k :: ks => match s.prop.requests.get? k, s.recordsOf ks with
    | some st, some rs => some (st.request :: rs)
    | _, _ => none

/-- The requests applied and not ordered, all batches. -/
def State.uncommitted (s : State) : List Req := s.pending.flatMap Batch.valid

/-- plenum/server/consensus/ordering_service.py:1794-1808, `_do_dynamic_validation`: is the request new?
`cur` are the requests applied before it in this batch. -/
def State.fresh (cfg : Cfg) (s : State) (cur : List Req) (r : Req) : Bool :=
  !s.byPayload.has (cfg.prop.payload r) &&
  !((s.uncommitted ++ cur).filter (fun u => cfg.ledgerOf u = cfg.ledgerOf r)).any
    (fun u => cfg.prop.payload u = cfg.prop.payload r)

/-- plenum/server/consensus/ordering_service.py:1138-1178, `_apply_pre_prepare`: the requests with
their verdicts; `none`: one of them was ordered before. -/
def State.applyReqs (cfg : Cfg) (s : State) : List Req → List Req → Option (List (Req × Bool))
  | _, [] => some []
  | cur, r :: rs =>
    if s.fresh cfg cur r then
      let ok := cfg.valid (s.history ++ s.uncommitted ++ cur) r
      (s.applyReqs cfg (if ok then cur ++ [r] else cur) rs).map (fun l => (r, ok) :: l)
    else none

/-- node.py:1331-1337: a REJECT for a request goes to the client it came from. -/
def State.rejectOne (cfg : Cfg) (s : State) (r : Req) : State × List Out :=
  match s.sender.get? (cfg.prop.digest r) with
  | none => (s, [])
  | some c => (s.done (cfg.prop.digest r), toClient c (.reject r))

/-- The REJECTs of a batch, one after another. -/
def State.rejectAll (cfg : Cfg) : State → List Req → State × List Out
  | s, [] => (s, [])
  | s, r :: rs =>
    let x := s.rejectOne cfg r
    let y := x.1.rejectAll cfg rs
    (y.1, x.2 ++ y.2)

/-- A PRE-PREPARE of the master instance is applied, by a primary or by another node:
plenum/server/consensus/ordering_service.py:892-945, `_apply_and_validate_applied_pre_prepare`, and
2055-2105. The REJECTs are sent then. A batch that is refused changes nothing. -/
def State.apply (cfg : Cfg) (s : State) (l : Nat) (ks : List Key) : State × List Out :=
  match s.recordsOf ks with
  | none => (s, [])
  | some rs =>
    if rs.all (fun r => cfg.ledgerOf r = l) then
      match s.applyReqs cfg [] rs with
      | none => (s, [])
      | some v =>
        State.rejectAll cfg { s with pending := s.pending ++ [Batch.mk l v] } ((v.filter (fun e => !e.2)).map Prod.fst)
    else (s, [])

/-- node.py:2793-2804, `sendReplyToClient`. -/
def State.replyOne (cfg : Cfg) (s : State) (t : Req) (l n : Nat) : State × List Out :=
  match s.sender.get? (cfg.prop.digest t) with
  | none => (s, [])
  | some c => (s.done (cfg.prop.digest t), toClient c (.reply t l n))

/-- node.py:2788-2791, `sendRepliesToClients`; the first transaction has number `n`. -/
def State.replyAll (cfg : Cfg) (l : Nat) : State → Nat → List Req → State × List Out
  | s, _, [] => (s, [])
  | s, n, t :: ts =>
    let x := s.replyOne cfg t l n
    let y := x.1.replyAll cfg l (n + 1) ts
    (y.1, x.2 ++ y.2)

/-- The transactions with their numbers. -/
def numbered (n : Nat) : List Req → List (Req × Nat)
  | [] => []
  | t :: ts => (t, n) :: numbered (n + 1) ts

/-- plenum/persistence/req_id_to_txn.py:24-34, `addBatch`. -/
def State.addDb (cfg : Cfg) (s : State) (l : Nat) (ts : List (Req × Nat)) : State :=
  { s with
    byPayload := ts.foldl (fun d t => d.set (cfg.prop.payload t.1) (l, t.2)) s.byPayload
    byFull := ts.map (fun t => cfg.prop.digest t.1) ++ s.byFull }

/-- node.py:2748-2751, `updateSeqNoMap`: nothing is written if one of the transactions has no `reqId`. -/
def State.updateDb (cfg : Cfg) (s : State) (l : Nat) (ts : List (Req × Nat)) : State :=
  if ts.all (fun t => cfg.reqId t.1 ≠ 0) then s.addDb cfg l ts else s

/-- New transactions of a ledger. -/
def State.append (s : State) (l : Nat) (ts : List Req) : State :=
  { s with ledger := (fun j => if j = l then s.ledger l ++ ts else s.ledger j), history := s.history ++ ts }

/-- The first of the applied batches is ordered: node.py:2661-2698, `executeBatch`, and 2753-2759,
`commitAndSendReplies`. -/
def State.order (cfg : Cfg) (s : State) : State × List Out :=
  match s.pending with
  | [] => (s, [])
  | b :: bs =>
    let n := (s.ledger b.ledger).length + 1
    let s := { s with pending := bs }.append b.ledger b.valid
    let s := s.updateDb cfg b.ledger (numbered n b.valid)
    let x := s.replyAll cfg b.ledger n b.valid
    ({ x.1 with prop := b.reqs.foldl (fun p e => p.markExecuted (cfg.prop.digest e.1)) x.1.prop }, x.2)

/-- node.py:1767-1781, `_clear_request_for_txn`. -/
def State.clear (s : State) (k : Key) : State :=
  match s.prop.requests.get? k with
  | none => s
  | some st =>
    let s := if st.forwarded ∧ ¬ st.executed then
      ({ s with prop := ((s.prop.markExecuted k).orderedBy k).free 0 k }).done k
    else s
    if ¬ st.forwarded then ({ s with prop := s.prop.forceFree k }).done k else s

/-- A transaction is caught up: node.py:1737-1781. Applied batches are given up before a catchup. -/
def State.caughtUp (cfg : Cfg) (s : State) (r : Req) : State :=
  if s.pending.isEmpty then
    let l := cfg.ledgerOf r
    let n := (s.ledger l).length + 1
    ((s.append l [r]).updateDb cfg l [(r, n)]).clear (cfg.prop.digest r)
  else s

/-- node.py:3120-3146, `check_outdated_reqs`, a request found to be outdated. -/
def State.outdated (s : State) (k : Key) : State :=
  if s.prop.requests.has k then ({ s with prop := s.prop.forceFree k }).done k else s

inductive Ev
  /-- a client sends a request -/
  | came (r : Req) (c : Client)
  /-- a PROPAGATE of a node, which names a client -/
  | propagate (r : Req) (frm : Sender) (c : Option Client)
  /-- a MESSAGE_RESPONSE with a PROPAGATE, the signature of which is not verified -/
  | propRep (r : Req) (frm : Sender) (c : Option Client)
  /-- a batch for a ledger is applied -/
  | apply (l : Nat) (ks : List Key)
  /-- all but the first `n` applied batches are reverted -/
  | revert (n : Nat)
  | order
  | caughtUp (r : Req)
  | outdated (k : Key)
  /-- an instance orders a batch with the request -/
  | ordered (k : Key)
  /-- an instance is done with the request -/
  | released (i : Inst) (k : Key)
  | replicas (n : Nat)
  | viewChange (b : Bool)
  /-- the process is started again: ledgers and `seqNoDB` are kept -/
  | restart
  deriving DecidableEq

def State.step (cfg : Cfg) (s : State) : Ev → State × List Out
  | .came r c => s.came cfg r c
  | .propagate r frm c => if cfg.prop.authentic r then s.processPropagate cfg r frm c else (s, [])
  | .propRep r frm c => s.processPropagate cfg r frm c
  | .apply l ks => s.apply cfg l ks
  | .revert n => ({ s with pending := s.pending.take n }, [])
  | .order => s.order cfg
  | .caughtUp r => (s.caughtUp cfg r, [])
  | .outdated k => (s.outdated k, [])
  | .ordered k => ({ s with prop := s.prop.orderedBy k }, [])
  | .released i k => ({ s with prop := (s.prop.orderedBy k).free i k }, [])
  | .replicas n => ({ s with prop := { s.prop with numReplicas := n } }, [])
  | .viewChange b => ({ s with viewChange := b }, [])
  | .restart => ({ s with prop := {}, sender := [], pending := [], viewChange := false }, [])

/-- What a node sends, with the state it is left in. -/
def State.run (cfg : Cfg) : State → List Ev → State × List Out
  | s, [] => (s, [])
  | s, e :: es =>
    let x := s.step cfg e
    let y := x.1.run cfg es
    (y.1, x.2 ++ y.2)

/-- The same, one event at a time: what was sent at each of them. -/
def State.trace (cfg : Cfg) : State → List Ev → List (Ev × List Out)
  | _, [] => []
  | s, e :: es => (e, (s.step cfg e).2) :: (s.step cfg e).1.trace cfg es

end Verif.Answers
