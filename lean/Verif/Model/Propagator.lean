import Verif.Model.Dict
import Verif.Model.Quorums
/-!
# Model of `plenum/server/propagator.py` and its callers in `plenum/server/node.py`

A request is an opaque number; `Cfg.digest` and `Cfg.payload` are its two
digests (`plenum/common/request.py:38-48, 79-87`). Nothing is assumed about
them: two requests may share a digest. `Cfg.authentic` is the verdict of the
client authenticator. Times (`added_ts`, `finalised_ts`) are not modelled: which
requests are outdated is an input (`Event.outdated`).

`State.log` is not part of the code: it records what was done to the records of
requests, so that properties can speak about the past.
-/
namespace Verif.Propagator

/-- A digest (`request.key`, request.py:79-81). -/
abbrev Key := Nat
abbrev Req := Nat
/-- Index of a protocol instance. -/
abbrev Inst := Nat

/-- The name a PROPAGATE is recorded under: propagator.py:40-43 ignores names
which are bytes. -/
inductive Sender
  | str (name : Nat)
  | bytes (name : Nat)
  deriving DecidableEq, Repr

structure Cfg where
  name : Nat
  quorums : Quorums
  digest : Req → Key
  payload : Req → Key
  authentic : Req → Bool
  /-- `handle_request_if_forced` (node.py:1986-1997): false for a forced request
  which fails validation. -/
  forcedOk : Req → Bool

/-- propagator.py:20-59, `ReqState`. -/
structure ReqState where
  request : Req
  forwarded : Bool := false
  forwardedTo : Int := 0
  propagates : Dict Sender Req := []
  finalised : Option Req := none
  executed : Bool := false
  unordered : Int := 0
  deriving DecidableEq, Repr

/-- propagator.py:38-46, `ReqState.req_with_acceptable_quorum`; `seen` are the
digests of the entries passed. -/
def reqWithQuorum (cfg : Cfg) (q : Quorum) : List (Sender × Req) → List Key → Option Req
  | [], _ => none
  | (.bytes _, _) :: ps, seen => reqWithQuorum cfg q ps seen
  | (.str _, r) :: ps, seen =>
    if q.isReached ((cfg.digest r :: seen).count (cfg.digest r)) then some r
    else reqWithQuorum cfg q ps (cfg.digest r :: seen)

/-- What happened to the record of a request. -/
inductive Act
  /-- a record was made -/
  | added (k : Key)
  /-- handed to `n` instances (`ReqKey` on the internal bus) -/
  | forwarded (k : Key) (n : Nat)
  | executed (k : Key)
  /-- released by an instance -/
  | freed (i : Inst) (k : Key)
  /-- removed by `_clean` -/
  | cleaned (k : Key)
  /-- removed by `force_free` or `pop` -/
  | dropped (k : Key)
  /-- applied as `r` when a PRE-PREPARE names it -/
  | applied (k : Key) (r : Req)
  deriving DecidableEq, Repr

structure State where
  requests : Dict Key ReqState := []
  /-- keys of `requestSender`, node.py:2144-2158 -/
  processing : List Key := []
  /-- payload digests found in `seqNoDB` -/
  known : List Key := []
  /-- `self.replicas.num_replicas` -/
  numReplicas : Nat := 1
  /-- PROPAGATEs sent -/
  sent : List Req := []
  log : List Act := []
  deriving DecidableEq

/-- propagator.py:75-82, `Requests.add`. -/
def State.add (cfg : Cfg) (s : State) (r : Req) : State :=
  if s.requests.has (cfg.digest r) then s
  else { s with
    requests := s.requests.set (cfg.digest r) { request := r }
    log := s.log ++ [.added (cfg.digest r)] }

/-- Change the record of a key, if there is one. -/
def State.update (s : State) (k : Key) (f : ReqState → ReqState) : State :=
  match s.requests.get? k with
  | none => s
  | some st => { s with requests := s.requests.set k (f st) }

/-- propagator.py:111-120, `Requests.add_propagate`. -/
def State.addPropagate (cfg : Cfg) (s : State) (r : Req) (sender : Sender) : State :=
  (s.add cfg r).update (cfg.digest r) (fun st => { st with propagates := st.propagates.set sender r })

/-- propagator.py:122-130, `Requests.votes`. -/
def State.votes (cfg : Cfg) (s : State) (r : Req) : Nat :=
  match s.requests.get? (cfg.digest r) with
  | none => 0
  | some st => st.propagates.length

/-- propagator.py:181-185, `Requests.has_propagated`. -/
def State.hasPropagated (cfg : Cfg) (s : State) (r : Req) (sender : Sender) : Bool :=
  match s.requests.get? (cfg.digest r) with
  | none => false
  | some st => st.propagates.has sender

/-- propagator.py:204-218, `Propagator.propagate`. -/
def State.propagate (cfg : Cfg) (s : State) (r : Req) : State :=
  if s.hasPropagated cfg r (.str cfg.name) then s
  else
    let s := s.addPropagate cfg r (.str cfg.name)
    { s with sent := s.sent ++ [r] }

/-- propagator.py:133-140 and 47-58, `set_finalised`. -/
def State.setFinalised (cfg : Cfg) (s : State) (r : Req) : State :=
  s.update (cfg.digest r) (fun st => { st with finalised := some r })

/-- propagator.py:241-271, `Propagator.canForward`: the request to finalise, if
the request may be forwarded. The `KeyError` of an absent key does not occur: the
callers add the record first. -/
def State.canForward (cfg : Cfg) (s : State) (r : Req) : Option Req :=
  match s.requests.get? (cfg.digest r) with
  | none => none
  | some st =>
    if st.forwarded then none
    else if !cfg.quorums.propagate.isReached (s.votes cfg r) then none
    else reqWithQuorum cfg cfg.quorums.propagate st.propagates []

/-- propagator.py:274-286, `Propagator.forward`, with 101-110,
`Requests.mark_as_forwarded`. -/
def State.forward (cfg : Cfg) (s : State) (r : Req) : State :=
  let s : State := { s with log := s.log ++ [Act.forwarded (cfg.digest r) s.numReplicas] }
  s.update (cfg.digest r) (fun st => { st with
    forwarded := true, forwardedTo := s.numReplicas, unordered := s.numReplicas })

/-- propagator.py:300-314, `Propagator.tryForwarding`. -/
def State.tryForwarding (cfg : Cfg) (s : State) (r : Req) : State :=
  match s.canForward cfg r with
  | none => s
  | some fin => (s.setFinalised cfg fin).forward cfg r

/-- propagator.py:175-179, `Requests._clean`. -/
def State.clean (s : State) (k : Key) : State :=
  match s.requests.get? k with
  | none => s
  | some st =>
    if st.executed ∧ st.forwardedTo ≤ 0 then
      { s with requests := s.requests.erase k, log := s.log ++ [.cleaned k] }
    else s

/-- propagator.py:142-151, `Requests.mark_as_executed`; the caller checks that
there is a record. -/
def State.markExecuted (s : State) (k : Key) : State :=
  if s.requests.has k then
    (({ s with log := s.log ++ [Act.executed k] } : State).update k (fun st => { st with executed := true })).clean k
  else s

/-- propagator.py:90-97, `Requests.ordered_by_replica`. -/
def State.orderedBy (s : State) (k : Key) : State :=
  s.update k (fun st => { st with unordered := st.unordered - 1 })

/-- propagator.py:153-165, `Requests.free`, called by instance `i`: the code does
not know by whom. -/
def State.free (s : State) (i : Inst) (k : Key) : State :=
  if s.requests.has k then
    (({ s with log := s.log ++ [Act.freed i k] } : State).update k
      (fun st => { st with forwardedTo := st.forwardedTo - 1 })).clean k
  else s

/-- propagator.py:167-173, `Requests.force_free`; also `requests.pop`. -/
def State.forceFree (s : State) (k : Key) : State :=
  if s.requests.has k then
    { s with requests := s.requests.erase k, log := s.log ++ [.dropped k] }
  else s

/-- node.py:2150-2152, `doneProcessingReq`. -/
def State.done (s : State) (k : Key) : State :=
  { s with processing := s.processing.filter (fun j => ¬ j = k) }

/-- The part common to both ways in: node.py:2045-2051 and 2126-2130. `none`: the
request is turned down. -/
def State.startProcessing (cfg : Cfg) (s : State) (r : Req) : Option State :=
  if cfg.digest r ∈ s.processing then some s
  else
    let s := { s with processing := s.processing ++ [cfg.digest r] }
    if cfg.forcedOk r then some s else none

/-- node.py:2037-2056, `processRequest`, a write, after `verifySignature`
(node.py:2624-2655). The reply from the ledger is taken to exist for every known
payload digest. With a forced request turned down, `doneProcessingReq` undoes
`startedProcessingReq` (node.py:1993). -/
def State.client (cfg : Cfg) (s : State) (r : Req) : State :=
  if !cfg.authentic r then s
  else if cfg.payload r ∈ s.known then s
  else match s.startProcessing cfg r with
    | none => s
    | some s => ((s.add cfg r).propagate cfg r).tryForwarding cfg r

/-- node.py:2099-2142, `processPropagate`. -/
def State.processPropagate (cfg : Cfg) (s : State) (r : Req) (frm : Sender) : State :=
  if cfg.digest r ∉ s.processing ∧ cfg.payload r ∈ s.known then s
  else match s.startProcessing cfg r with
    | none => s
    | some s => ((s.addPropagate cfg r frm).propagate cfg r).tryForwarding cfg r

/-- A PROPAGATE: node.py:1479-1505, `validateNodeMsg`, verifies the signatures of the
request in it. -/
def State.onPropagate (cfg : Cfg) (s : State) (r : Req) (frm : Sender) : State :=
  if !cfg.authentic r then s else s.processPropagate cfg r frm

/-- A MESSAGE_RESPONSE with a PROPAGATE in it: plenum/server/message_req_processor.py:42-50,
`process_message_rep`, and plenum/server/message_handlers.py:144-168, `PropagateHandler`. A
MESSAGE_RESPONSE is in the white list of `verifySignature` (node.py:408-428, 2632-2633), and
the PROPAGATE taken out of it goes to `processPropagate` without another check; whether it was
asked for is not looked at. The digest named in the message is compared with that of the
request; the sender can always give the right one. -/
def State.onReply (cfg : Cfg) (s : State) (r : Req) (frm : Sender) : State :=
  s.processPropagate cfg r frm

/-- A request named by a PRE-PREPARE is applied: plenum/server/consensus/ordering_service.py:1120-1126,
`_non_finalised_reqs`, looks only if there is a record, and
plenum/server/consensus/ordering_service.py:1138-1175, `_apply_pre_prepare`, takes the request
of the record. Without a record the PRE-PREPARE waits. -/
def State.onProposed (s : State) (k : Key) : State :=
  match s.requests.get? k with
  | none => s
  | some st => { s with log := s.log ++ [.applied k st.request] }

/-- node.py:1767-1781, `_clear_request_for_txn`: a transaction with digest `k` was
caught up. The record is looked up once: what follows acts on that object, also
after `mark_request_as_executed` removed it. -/
def State.caughtUp (s : State) (k : Key) : State :=
  match s.requests.get? k with
  | none => s
  | some st =>
    let s := if st.forwarded ∧ ¬ st.executed then
      (((s.markExecuted k).orderedBy k).free 0 k).done k
    else s
    if ¬ st.forwarded then (s.forceFree k).done k else s

/-- node.py:2692-2698, `executeBatch`, one request of the batch: it is removed
from `processing` when it has a reply (2793-2804) or was rejected (1337);
`payload` is its payload digest if it made a transaction, which is recorded
(2748-2756) before the request is marked. -/
def State.execute (s : State) (k : Key) (payload : Option Key) : State :=
  let s := match payload with
    | none => s.done k
    | some p => { s with known := p :: s.known }.done k
  s.markExecuted k

inductive Event
  /-- a client sends a write request -/
  | client (r : Req)
  | propagate (r : Req) (frm : Sender)
  /-- a MESSAGE_RESPONSE with a PROPAGATE -/
  | reply (r : Req) (frm : Sender)
  /-- a PRE-PREPARE names the request -/
  | proposed (k : Key)
  | executed (k : Key) (payload : Option Key)
  /-- an instance orders a batch with the request (ordering_service.py:1507) -/
  | ordered (k : Key)
  /-- an instance is done with the request, at a stable checkpoint
  (ordering_service.py:780-782) or when it is removed (replica.py:193-196) -/
  | released (i : Inst) (k : Key)
  /-- a transaction is caught up; its payload digest is recorded -/
  | caughtUp (k payload : Key)
  /-- node.py:3120-3146, `check_outdated_reqs` -/
  | outdated (k : Key)
  | replicas (n : Nat)

def State.step (cfg : Cfg) (s : State) : Event → State
  | .client r => s.client cfg r
  | .propagate r frm => s.onPropagate cfg r frm
  | .reply r frm => s.onReply cfg r frm
  | .proposed k => s.onProposed k
  | .executed k p => s.execute k p
  | .ordered k => s.orderedBy k
  | .released i k => (s.orderedBy k).free i k
  | .caughtUp k p => { s with known := p :: s.known }.caughtUp k
  | .outdated k => (s.forceFree k).done k
  | .replicas n => { s with numReplicas := n }

def run (cfg : Cfg) (evs : List Event) : State := evs.foldl (State.step cfg) {}

end Verif.Propagator
