import Verif.Model.Dict
/-!
# The queues of requests of an instance and the batches made of them

A request with enough PROPAGATEs is put into the queue of its ledger. The primary takes
requests out of the queues and sends them in PRE-PREPAREs. An ordered batch takes its requests
out of the queues of the other nodes; a batch which is not ordered when a catchup or a view
change starts gives its requests back.

Left out: the contents of requests and how they are validated (the verdict on a request is a
parameter of the event, see `Verif.Model.Pipeline` for what is applied), the roots, times,
digests and BLS signatures of a PRE-PREPARE, the checks of a received PRE-PREPARE, and the votes
on it (see `Verif.Model.ThreePC`).
-/
namespace Verif.ReqQueue
open Verif

/-- The digest of a request. -/
abbrev Req := Nat

/-- A view and a number in it. -/
abbrev K3 := Nat × Nat

/-- plenum/common/util.py:618-622, `compare_3PC_keys`: whether the second key is later than the
first (`compare_3PC_keys(a, b) > 0`). Only the numbers are compared, not the views. -/
def later (a b : K3) : Bool := decide (a.2 < b.2)

/-- The order of Python on pairs, which `sorted` uses. -/
def pairLt (a b : K3) : Bool := decide (a.1 < b.1) || (decide (a.1 = b.1) && decide (a.2 < b.2))

/-- What the validation of a request says. Any other exception is left out.
plenum/server/consensus/ordering_service.py:1794-1814, `_do_dynamic_validation`. -/
inductive Verdict where
  | ok
  | invalid
  | suspicious
deriving DecidableEq, Repr

/-- A PRE-PREPARE: its key, its ledger, its requests (`reqIdr`) and the places of those which
were rejected (`discarded`). -/
structure PP where
  key : K3
  ledger : Nat
  reqs : List Req
  bad : List Nat := []
deriving DecidableEq, Repr

/-- Why a request left the queues without being put into a batch or after its batch. -/
inductive Why where
  | ordered
  | checkpointed
  | caughtUp
  | forgotten
  | already
deriving DecidableEq, Repr

/-- What is seen of an instance. -/
inductive Out where
  | queued (r : Req)
  | sent (pp : PP)
  | left (r : Req) (why : Why)
deriving DecidableEq, Repr

/-- The settings `Max3PCBatchSize`, `Max3PCBatchWait`, `Max3PCBatchesInFlight` (plenum/config.py:253-260) and
`UPDATE_STATE_FRESHNESS`. `ledgerOf` is the ledger a request belongs to by its type:
plenum/server/consensus/ordering_service.py:1785-1792, `_ledger_id_for_request`. -/
structure Cfg where
  master : Bool
  maxSize : Nat
  maxWait : Nat
  maxInFlight : Option Nat
  freshness : Bool
  ledgerOf : Req → Nat

/-- The instance. `reqs` is `_requests` of the node with `finalised` of each request, `queues` is
`requestQueues`, `batches` is `batches` of which only the keys and ledgers matter here, `sent`
and `got` are `sent_preprepares` and `prePrepares`. The rest decides whether a batch may be sent.
plenum/server/consensus/ordering_service.py:111-190, `__init__`. -/
structure St where
  reqs : Dict Req Bool := []
  queues : Dict Nat (List Req)
  batches : Dict K3 Nat := []
  sent : Dict K3 PP := []
  got : Dict K3 PP := []
  view : Nat := 0
  lastPp : Nat := 0
  lastOrdered : K3 := (0, 0)
  lastCreated : Nat := 0
  primary : Bool := false
  participating : Bool := true
  reordered : Bool := true
  waiting : Bool := false
  prevCert : Nat := 0
  primariesBatch : Bool := false
deriving DecidableEq, Repr

/-- `OrderedSet.add`: a key which is there keeps its place. -/
def addQ (q : List Req) (r : Req) : List Req := if r ∈ q then q else q ++ [r]

/-- `OrderedSet.discard`. -/
def dropQ (q : List Req) (r : Req) : List Req := q.filter (fun x => x ≠ r)

/-- plenum/server/consensus/ordering_service.py:1380-1386, `get_preprepare`. -/
def St.pp (s : St) (k : K3) : Option PP := if s.sent.has k then s.sent.get? k else s.got.get? k

/-- plenum/server/propagator.py:75-82, `add`: a first PROPAGATE for a request. -/
def propagated (s : St) (r : Req) : St := if s.reqs.has r then s else { s with reqs := s.reqs.set r false }

/-- plenum/server/propagator.py:136-140, `set_finalised`; the request is there (it has PROPAGATEs). -/
def finalised (s : St) (r : Req) : St := { s with reqs := s.reqs.set r true }

/-- The request is dropped by the node: plenum/server/propagator.py:167-173, `force_free`, and 175-179, `_clean`. -/
def forgotten (s : St) (r : Req) : St := { s with reqs := s.reqs.erase r }

/-- plenum/server/replica.py:499-515, `readyFor3PC`. `none`: it raises, as `ledger_id_for_request`
does when the request has no `finalised`, or there is no queue for its ledger. -/
def ready (c : Cfg) (s : St) (r : Req) : Option (St × List Out) :=
  match s.reqs.get? r with
  | none => some (s, [])
  | some false => none
  | some true =>
    match s.queues.get? (c.ledgerOf r) with
    | none => none
    | some q => some ({ s with queues := s.queues.set (c.ledgerOf r) (addQ q r) }, [.queued r])

/-- What `_consume_req_queue_for_pre_prepare` has found so far: the requests of the batch, the
places of the rejected ones, what is left of the queue, and what was dropped from it. -/
structure Taken where
  reqs : List Req := []
  bad : List Nat := []
  rest : List Req := []
  gone : List (Req × Why) := []
deriving DecidableEq, Repr

/-- plenum/server/consensus/ordering_service.py:2127-2172, `_consume_req_queue_for_pre_prepare`. The verdict on a request
depends on those which are already in the batch. `none`: it raises, as `payload_digest` of
`None` does when a request in the queue is known but not `finalised` (on a backup instance the
digest of `None` is asked for later, by `create_3pc_batch`). -/
def consume (n : Nat) (reqs : Dict Req Bool) (v : List Req → Req → Verdict) : List Req → Taken → Option Taken
  | [], t => some { t with rest := [] }
  | r :: q, t =>
    if t.reqs.length < n then
      match reqs.get? r with
      | none => consume n reqs v q { t with gone := t.gone ++ [(r, .forgotten)] }
      | some false => none
      | some true =>
        match v t.reqs r with
        | .ok => consume n reqs v q { t with reqs := t.reqs ++ [r] }
        | .invalid => consume n reqs v q { t with reqs := t.reqs ++ [r], bad := t.bad ++ [t.reqs.length] }
        | .suspicious => consume n reqs v q { t with gone := t.gone ++ [(r, .already)] }
    else some { t with rest := r :: q }

/-- plenum/server/consensus/ordering_service.py:1820-1827, `_process_req_during_batch`: backup instances do not
validate. -/
def verdict (c : Cfg) (v : List Req → Req → Verdict) : List Req → Req → Verdict :=
  if c.master then v else fun _ _ => .ok

/-- plenum/server/consensus/ordering_service.py:2025-2109, `_do_send_3pc_batch` and `create_3pc_batch`, and
`_track_batches`: the next batch of a ledger is made and sent. -/
def sendBatch (c : Cfg) (v : List Req → Req → Verdict) (s : St) (l : Nat) : Option (St × List Out) :=
  match s.queues.get? l with
  | none => none
  | some q =>
    match consume c.maxSize s.reqs (verdict c v) q {} with
    | none => none
    | some t =>
      let pp : PP := ⟨(s.view, s.lastPp + 1), l, t.reqs, t.bad⟩
      some ({ s with queues := s.queues.set l t.rest, lastPp := s.lastPp + 1,
                     sent := s.sent.set pp.key pp, batches := s.batches.set pp.key l },
            t.gone.map (fun e => .left e.1 e.2) ++ [.sent pp])

/-- plenum/server/consensus/ordering_service.py:1831-1864, `can_send_3pc_batch`. -/
def canSend (c : Cfg) (s : St) : Bool :=
  s.primary && s.participating && (c.master || s.reordered) && !s.waiting &&
  !decide (s.prevCert > s.lastPp) &&
  !(decide (s.view > 0) && decide (s.lastPp > s.prevCert) && decide (s.lastOrdered.2 < s.prevCert + 1)) &&
  !decide (s.view < s.lastOrdered.1) &&
  !(decide (s.view = s.lastOrdered.1) &&
    (decide (s.lastPp < s.lastOrdered.2) ||
      match c.maxInFlight with
      | none => false
      | some m => decide (s.lastPp - s.lastOrdered.2 ≥ m)))

/-- Batches for the ledgers of a list, one after the other; `done` are the ledgers with a batch
(`sent_batches`), `skip` says when a ledger is passed over. -/
def sendAll (c : Cfg) (v : Nat → List Req → Req → Verdict) (skip : St → List Nat → Nat → Bool) :
    List Nat → St × List Nat → Option ((St × List Nat) × List Out)
  | [], x => some (x, [])
  | l :: ls, x =>
    if skip x.1 x.2 l then sendAll c v skip ls x
    else
      match sendBatch c (v l) x.1 l with
      | none => none
      | some y =>
        match sendAll c v skip ls (y.1, x.2 ++ [l]) with
        | none => none
        | some z => some (z.1, y.2 ++ z.2)

/-- plenum/server/consensus/ordering_service.py:2012-2023, `_send_3pc_batches_for_ledgers`: a ledger is passed over when
its queue is empty, or neither full nor waiting for long enough. -/
def skipQueue (c : Cfg) (now : Nat) (s : St) (_ : List Nat) (l : Nat) : Bool :=
  match s.queues.get? l with
  | none => true
  | some q => q.isEmpty || (!decide (q.length ≥ c.maxSize) && !decide (s.lastCreated + c.maxWait < now))

/-- plenum/server/consensus/ordering_service.py:1990-2010, `_send_3pc_freshness_batch`: a ledger is passed over when it had a
batch just now. -/
def skipFresh (_ : St) (done : List Nat) (l : Nat) : Bool := done.contains l

/-- plenum/server/consensus/ordering_service.py:1982-1988, `l_send_3pc_primaries_batch`. The domain ledger has number 1. -/
def primariesBatch (c : Cfg) (v : Nat → List Req → Req → Verdict) (x : St × List Nat) : Option ((St × List Nat) × List Out) :=
  if x.2.isEmpty && x.1.primariesBatch then
    sendAll c v (fun _ _ _ => false) [1] ({ x.1 with primariesBatch := false }, x.2)
  else some (x, [])

/-- plenum/server/consensus/ordering_service.py:1961-1980, `send_3pc_batch`, at time `now` when `old` are the ledgers
which the freshness checker reports. Simplification: the clock does not move during the call. -/
def tick (c : Cfg) (v : Nat → List Req → Req → Verdict) (now : Nat) (old : List Nat) (s : St) : Option (St × List Out) :=
  if canSend c s then
    match sendAll c v (skipQueue c now) s.queues.keys (s, []) with
    | none => none
    | some x =>
      match sendAll c v skipFresh (if c.freshness && c.master then old else []) x.1 with
      | none => none
      | some y =>
        match primariesBatch c v y.1 with
        | none => none
        | some z =>
          some (if z.1.2.isEmpty then z.1.1 else { z.1.1 with lastCreated := now }, x.2 ++ (y.2 ++ z.2))
  else some (s, [])

/-- A PRE-PREPARE is received (or taken from an old view) and found good, and is kept:
plenum/server/consensus/ordering_service.py:871-890, `_process_valid_preprepare`, 942, `_track_batches`, and 1273-1292, `_add_to_pre_prepares`,
`_add_to_sent_pre_prepares`. Of the checks these are modelled: it is for this view and for a known ledger, is no duplicate,
and its requests are known (1120-1126, `_non_finalised_reqs`). -/
def accept (s : St) (pp : PP) : St :=
  if pp.key.1 = s.view && !(s.pp pp.key).isSome && !s.batches.has pp.key && s.queues.has pp.ledger &&
      pp.reqs.all (fun r => s.reqs.has r) then
    let s := { s with batches := s.batches.set pp.key pp.ledger, lastPp := max s.lastPp pp.key.2 }
    if s.primary then { s with sent := s.sent.set pp.key pp } else { s with got := s.got.set pp.key pp }
  else s

/-- plenum/server/consensus/ordering_service.py:794-795, `discard_req_key`. A ledger without a queue is not met. -/
def discard (s : St) (l : Nat) (r : Req) : St :=
  match s.queues.get? l with
  | none => s
  | some q => { s with queues := s.queues.set l (dropQ q r) }

/-- plenum/server/consensus/ordering_service.py:1599-1606, `_discard_ordered_req_keys`. -/
def discardAll (s : St) (l : Nat) (rs : List Req) : St := rs.foldl (fun s r => discard s l r) s

/-- Whether no batch which is not ordered comes before this one; what `_can_order` checks,
plenum/server/consensus/ordering_service.py:1608-1647 (see `Verif.Model.ThreePC`). -/
def isNext (s : St) (k : K3) : Bool :=
  later s.lastOrdered k && s.batches.keys.all (fun j => !later s.lastOrdered j || !later j k)

/-- plenum/server/consensus/ordering_service.py:668-675, `last_ordered_3pc`, the setter. -/
def setOrdered (s : St) (k : K3) : St := { s with lastOrdered := k, lastPp := max s.lastPp k.2 }

/-- plenum/server/consensus/ordering_service.py:1480-1527, `_order_3pc_key`, for a batch which has its votes. -/
def order (s : St) (k : K3) : St × List Out :=
  match s.pp k with
  | none => (s, [])
  | some pp =>
    if isNext s k then
      (discardAll (setOrdered s k) pp.ledger pp.reqs, pp.reqs.map (fun r => .left r .ordered))
    else (s, [])

/-- One batch is reverted: the body of the loop in `revert_unordered_batches`. -/
def revertOne (s : St) (k : K3) : St :=
  match s.batches.get? k with
  | none => s
  | some l =>
    let s' := { s with batches := s.batches.erase k, lastPp := s.lastPp - 1 }
    match s.pp k with
    | none => s'
    | some pp =>
      match s.queues.get? l with
      | none => s'
      | some q => { s' with queues := s.queues.set l (pp.reqs.foldl addQ q) }

/-- `sorted(..., reverse=True)` of keys. -/
def insertDown (k : K3) : List K3 → List K3
  | [] => [k]
  | j :: ks => if pairLt k j then j :: insertDown k ks else k :: j :: ks

def sortDown : List K3 → List K3
  | [] => []
  | k :: ks => insertDown k (sortDown ks)

/-- plenum/server/consensus/ordering_service.py:2186-2210, `revert_unordered_batches`: from the last batch back to the
last ordered one. What is reverted in ledgers and states is left out. -/
def revert (s : St) : St :=
  ((sortDown s.batches.keys).takeWhile (fun k => later s.lastOrdered k)).foldl revertOne s

/-- plenum/server/consensus/ordering_service.py:2319-2330, `_clear_all_3pc_msgs`. -/
def clearAll (s : St) : St := { s with batches := [], sent := [], got := [] }

/-- plenum/server/consensus/ordering_service.py:2332-2350, `process_view_change_started`: only the master instance reverts. -/
def viewChange (c : Cfg) (s : St) (v : Nat) : St := { clearAll (if c.master then revert s else s) with view := v }

/-- The requests of the PRE-PREPAREs up to a key. -/
def upTo (s : St) (k : K3) : List PP :=
  (s.sent ++ s.got).filterMap (fun e => if later k e.1 then none else some e.2)

/-- plenum/server/consensus/ordering_service.py:735-791, `gc`. Simplifications: requests are released by
other events; keys which are only in `pre_prepare_tss` have no batch. -/
def gc (s : St) (k : K3) : St × List Out :=
  let rs := (upTo s k).flatMap PP.reqs
  let ks := ((s.sent ++ s.got).map Prod.fst).filter (fun j => !later k j)
  ({ s with queues := s.queues.map (fun e => (e.1, e.2.filter (fun r => r ∉ rs))),
            sent := s.sent.filter (fun e => later k e.1), got := s.got.filter (fun e => later k e.1),
            batches := s.batches.filter (fun e => e.1 ∉ ks) },
   rs.map (fun r => .left r .checkpointed))

/-- plenum/server/consensus/ordering_service.py:2268-2291, `_remove_till_caught_up_3pc`, for one key. `outdated_pre_prepares` has the
sent PRE-PREPARE when there is also a received one. -/
def caughtUpOne (x : St × List Out) (e : K3 × PP) : St × List Out :=
  let s := x.1
  (discardAll { s with batches := s.batches.erase e.1, sent := s.sent.erase e.1, got := s.got.erase e.1 } e.2.ledger e.2.reqs,
   x.2 ++ e.2.reqs.map (fun r => .left r .caughtUp))

/-- plenum/server/consensus/ordering_service.py:2358-2366, `process_catchup_checkpoints_applied`, and 2223-2225,
`_caught_up_till_3pc`, 2258-2266, `catchup_clear_for_backup`. -/
def caughtUp (c : Cfg) (s : St) (k : K3) : St × List Out :=
  if later s.lastOrdered k then
    if c.master then
      ((s.got.filter (fun e => !later k e.1 && !s.sent.has e.1)) ++ s.sent.filter (fun e => !later k e.1)).foldl
        caughtUpOne (setOrdered s k, [])
    else if s.primary then (s, []) else ({ s with sent := [], got := [] }, [])
  else (s, [])

/-- What happens to an instance. `set` gives it its role: whether it is primary, takes part,
waits for a new view, has finished ordering again, and `prev_view_prepare_cert`. `fetched` is a
transaction fetched by a catchup: plenum/server/node.py:1767-1770, `_clear_request_for_txn`. -/
inductive Ev where
  | propagated (r : Req)
  | finalised (r : Req)
  | forgotten (r : Req)
  | ready (r : Req)
  | set (primary participating waiting reordered primariesBatch : Bool) (prevCert : Nat)
  | tick (now : Nat) (old : List Nat) (v : Nat → List Req → Req → Verdict)
  | accept (pp : PP)
  | order (k : K3)
  | revert
  | viewChange (v : Nat)
  | gc (k : K3)
  | caughtUp (k : K3)
  | fetched (l : Nat) (r : Req)

/-- One event. `none`: an exception leaves the instance and stops the node. -/
def step (c : Cfg) (s : St) : Ev → Option (St × List Out)
  | .propagated r => some (propagated s r, [])
  | .finalised r => some (finalised s r, [])
  | .forgotten r => some (forgotten s r, [])
  | .ready r => ready c s r
  | .set p a w o b n => some ({ s with primary := p, participating := a, waiting := w, reordered := o,
                                       primariesBatch := b, prevCert := n }, [])
  | .tick now old v => tick c v now old s
  | .accept pp => some (accept s pp, [])
  | .order k => some (order s k)
  | .revert => some (revert s, [])
  | .viewChange v => some (viewChange c s v, [])
  | .gc k => some (gc s k)
  | .caughtUp k => some (caughtUp c s k)
  | .fetched l r => some (discard s l r, [.left r .caughtUp])

/-- The instance after events, and what was seen; `none` when it stopped. -/
def run (c : Cfg) (s : St) : List Ev → Option (St × List Out)
  | [] => some (s, [])
  | e :: es =>
    match step c s e with
    | none => none
    | some x =>
      match run c x.1 es with
      | none => none
      | some y => some (y.1, x.2 ++ y.2)

/-- A new instance with queues for these ledgers. plenum/server/replica.py:245-252, `register_ledger`. -/
def start (ls : List Nat) : St := { queues := ls.map (fun l => (l, [])) }

end Verif.ReqQueue
