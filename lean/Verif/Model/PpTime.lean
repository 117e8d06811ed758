import Verif.Model.Dict
import Verif.Model.Quorums
/-!
# Times of batches

A batch has a time, given by the primary. The part of
plenum/server/consensus/ordering_service.py that gives, checks and remembers these times, on
one replica of the master instance. Everything else about a PRE-PREPARE is left open: what
the other checks say comes with each event.
-/
namespace Verif.PpTime

abbrev Node := Nat
/-- `(view_no, pp_seq_no)`. -/
abbrev Key := Nat × Nat

/-- plenum/common/messages/node_messages.py:118-164, `PrePrepare`: the fields the time checks read.
`audit` is `auditTxnRootHash`. -/
structure PP where
  key : Key
  time : Nat
  audit : Nat
deriving DecidableEq, Repr

/-- What the other checks say of a PRE-PREPARE at one delivery. -/
structure Checks where
  /-- `_validate`: not stashed or discarded -/
  admitted : Bool
  /-- `has_already_ordered` -/
  ordered : Bool
  /-- digest, sender and no PRE-PREPARE with the key yet -/
  before : Bool
  /-- the checks after that of the time, and the batch can be applied -/
  after : Bool
  /-- for a PREPARE without PRE-PREPARE: the replica may ask for the PRE-PREPARE, which is the
  case if it is of the master instance or has ordered something, if the PRE-PREPARE does not wait
  for the one before it or for requests, and if the setting is on -/
  ask : Bool := false
deriving DecidableEq, Repr

/-- The settings: pool size and `ACCEPTABLE_DEVIATION_PREPREPARE_SECS`. -/
structure Cfg where
  n : Nat
  dev : Nat := 600

/-- plenum/server/consensus/ordering_service.py:62-213, the fields that matter for times, and the
times of the batches in the audit ledger, committed ones and not. -/
structure State where
  /-- `last_accepted_pre_prepare_time` -/
  last : Option Nat := none
  /-- `pre_prepare_tss`, the two levels of keys in one -/
  tss : Dict (Key × Nat × Node) Nat := []
  /-- `pre_prepares_stashed_for_incorrect_time` -/
  stashed : Dict Key (PP × Node × Bool) := []
  /-- `preparesWaitingForPrePrepare`: times and senders -/
  waiting : Dict Key (List (Nat × Node)) := []
  /-- `requested_pre_prepares`, the keys; the same object as the requests of
  plenum/server/consensus/message_request/message_handlers.py:156-158, `PreprepareHandler.__init__` -/
  requested : List Key := []
  committed : List Nat := []
  pending : List Nat := []
deriving Repr

/-- The times of all batches, in order. -/
def State.chain (s : State) : List Nat := s.committed ++ s.pending

/-- plenum/common/util.py:90-120, `mostCommonElement`, only the count. -/
def maxCount (l : List Nat) : Nat := (l.map (fun b => l.count b)).foldl max 0

/-- `abs(a - b)`. -/
def dist (a b : Nat) : Nat := (a - b) + (b - a)

/-- plenum/server/consensus/ordering_service.py:1086-1087: the time is behind the last one. `None`
and 0 are both false in Python; no time is behind 0. -/
def behind (last : Option Nat) (t : Nat) : Bool :=
  match last with
  | none => false
  | some l => decide (t < l)

/-- plenum/server/consensus/ordering_service.py:1076-1096, `_is_pre_prepare_time_correct`. -/
def timeCorrect (cfg : Cfg) (s : State) (pp : PP) (sender : Node) : Bool :=
  if behind s.last pp.time then false
  else match s.tss.get? (pp.key, pp.audit, sender) with
    | none => false
    | some t => decide (dist pp.time t ≤ cfg.dev)

/-- plenum/server/consensus/ordering_service.py:1098-1118, `_is_pre_prepare_time_acceptable`. -/
def timeAcceptable (cfg : Cfg) (s : State) (pp : PP) (sender : Node) : Bool :=
  s.requested.contains pp.key || timeCorrect cfg s pp sender ||
    match s.stashed.get? pp.key with
    | none => false
    | some (_, _, done) => done

/-- plenum/server/consensus/ordering_service.py:511-514: the time of the first delivery. -/
def noteTime (s : State) (now : Nat) (pp : PP) (sender : Node) : State :=
  if s.tss.has (pp.key, pp.audit, sender) then s
  else { s with tss := s.tss.set (pp.key, pp.audit, sender) now }

/-- plenum/server/consensus/ordering_service.py:868-874, the end of `_process_valid_preprepare`, with
1273-1287, `_add_to_pre_prepares`, 1289-1292, `_add_to_sent_pre_prepares`, and 1294-1307,
`_dequeue_prepares`. -/
def addPP (s : State) (primary : Bool) (pp : PP) : State :=
  { s with last := if primary then s.last else some pp.time, waiting := s.waiting.erase pp.key }

/-- plenum/server/consensus/ordering_service.py:499-645, `process_preprepare`, 818-859,
`_can_process_pre_prepare`, and 864-878, `_process_valid_preprepare`. A PRE-PREPARE that is
to wait for something other than its time may be delivered again. `primary`: the replica
is the primary; then the PRE-PREPARE is one of an old view. -/
def recv (cfg : Cfg) (s : State) (now : Nat) (primary : Bool) (c : Checks) (pp : PP) (sender : Node) : State :=
  let s := noteTime s now pp sender
  if !c.admitted then s
  else if c.ordered then addPP s primary pp
  else if !c.before then s
  else if !timeAcceptable cfg s pp sender then { s with stashed := s.stashed.set pp.key (pp, sender, false) }
  else if !c.after then s
  else addPP { s with pending := s.pending ++ [pp.time] } primary pp

/-- plenum/server/consensus/ordering_service.py:343-368, `_process_stashed_pre_prepare_for_time_if_possible`. -/
def retry (cfg : Cfg) (s : State) (now : Nat) (primary : Bool) (c : Checks) (k : Key) : State :=
  let times := (((s.waiting.get? k).getD []).map Prod.fst)
  if times.length > (Quorums.ofN cfg.n).f && (Quorums.ofN cfg.n).timestamp.isReached (maxCount times) then
    match s.stashed.get? k with
    | none => s
    | some (pp, sender, done) =>
      if done then s
      else recv cfg { s with stashed := s.stashed.set k (pp, sender, true) } now primary c pp sender
  else s

/-- PRE-PREPAREs are asked for. Models plenum/server/consensus/message_request/message_req_service.py:92-109,
`process_missing_message`, and plenum/server/consensus/message_request/message_handlers.py:93-99,
`prepare_msg_to_request`; only that the keys are remembered. -/
def request (s : State) (ks : List Key) : State := { s with requested := s.requested ++ ks }

/-- plenum/server/consensus/ordering_service.py:371-406, `_request_pre_prepare_for_prepare`. For which state it asks is in
Model/AskPp.lean. -/
def requestForPrepare (cfg : Cfg) (s : State) (c : Checks) (k : Key) : State :=
  if c.ask && decide ((Quorums.ofN cfg.n).prepare.value ≤ ((s.waiting.get? k).getD []).length) then request s [k] else s

/-- plenum/server/consensus/ordering_service.py:329-341, `_enqueue_prepare`, for a PREPARE that has no
PRE-PREPARE yet. -/
def enqueue (cfg : Cfg) (s : State) (now : Nat) (primary : Bool) (c : Checks) (k : Key) (time : Nat) (sender : Node) : State :=
  let s := { s with waiting := s.waiting.set k (((s.waiting.get? k).getD []) ++ [(time, sender)]) }
  if s.stashed.has k then retry cfg s now primary c k else requestForPrepare cfg s c k

/-- plenum/server/consensus/ordering_service.py:2045-2048: `stored` is what
`_get_last_timestamp_from_state` gives. -/
def restoreLast (last stored : Option Nat) : Option Nat :=
  match last with
  | none => match stored with
    | some t => if t = 0 then none else some t
    | none => none
  | some t => some t

/-- plenum/server/consensus/ordering_service.py:2123-2128, `_get_utc_epoch_for_preprepare`. -/
def createTime (last : Option Nat) (now : Nat) : Nat :=
  match last with
  | none => now
  | some l => if now < l then l else now

/-- plenum/server/consensus/ordering_service.py:2038-2109, `create_3pc_batch`. -/
def create (s : State) (now : Nat) (stored : Option Nat) : State :=
  let last := restoreLast s.last stored
  let tm := createTime last now
  { s with last := some tm, pending := s.pending ++ [tm] }

/-- The oldest pending batch is ordered and committed. -/
def commit (s : State) : State :=
  match s.pending with
  | [] => s
  | t :: ts => { s with committed := s.committed ++ [t], pending := ts }

/-- plenum/server/consensus/ordering_service.py:2186-2209, `revert_unordered_batches`. -/
def revert (s : State) : State := { s with pending := [], last := s.committed.getLast? }

/-- What can happen to the replica. -/
inductive Event
  /-- a PRE-PREPARE arrives, or one of an old view is processed again -/
  | recv (now : Nat) (primary : Bool) (c : Checks) (pp : PP) (sender : Node)
  /-- a PREPARE without PRE-PREPARE arrives; `c` is for a stashed PRE-PREPARE that may now
  be processed -/
  | prepare (now : Nat) (primary : Bool) (c : Checks) (k : Key) (time : Nat) (sender : Node)
  /-- the replica is the primary and makes a batch -/
  | create (now : Nat) (stored : Option Nat)
  | commit
  /-- a PRE-PREPARE comes that is not the next one, and those before it are asked for:
  plenum/server/consensus/ordering_service.py:620-634, with 965-970, `_request_missing_three_phase_messages` -/
  | missing (ks : List Key)
  /-- batches are ordered or a checkpoint is stable, and requests are dropped:
  plenum/server/consensus/message_request/message_req_service.py:111-127, `process_ordered` and the next ones -/
  | forget (ks : List Key)
  /-- plenum/server/consensus/ordering_service.py:2333-2350, `process_view_change_started`, with 2320-2331 -/
  | viewChange
  /-- a catchup starts (plenum/server/node.py:2600-2608, `_do_start_catchup`) and brings batches;
  plenum/server/consensus/ordering_service.py:2223-2259, `_caught_up_till_3pc`, leaves the last time alone -/
  | catchup (times : List Nat)
  /-- the process is started again; it begins with a catchup (plenum/server/node.py:919-950,
  `start`), whose batches are another event -/
  | restart

/-- One event. -/
def step (cfg : Cfg) (s : State) : Event → State
  | .recv now primary c pp sender => PpTime.recv cfg s now primary c pp sender
  | .prepare now primary c k time sender => enqueue cfg s now primary c k time sender
  | .create now stored => PpTime.create s now stored
  | .commit => PpTime.commit s
  | .missing ks => request s ks
  | .forget ks => { s with requested := s.requested.filter (fun k => !ks.contains k) }
  | .viewChange => { revert s with tss := [], requested := [] }
  | .catchup times => { revert s with committed := s.committed ++ times }
  | .restart => revert { committed := s.committed }

def run (cfg : Cfg) (s : State) (es : List Event) : State := es.foldl (step cfg) s

end Verif.PpTime
