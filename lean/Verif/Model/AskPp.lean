import Verif.Model.MsgReq
/-!
# Asking for a missing PRE-PREPARE

What a replica does with PREPAREs whose PRE-PREPARE it does not have, with the requests of Model/MsgReq.lean.
Names of replicas are numbers.
-/
namespace Verif.AskPp
open Verif Verif.MsgReq

/-- What a PREPARE finds when it comes: whether the PRE-PREPARE is among those whose time was not acceptable, whether the
replica may ask (it is of the master instance or has ordered something), whether the PRE-PREPARE waits for the one before
it, the state of the PRE-PREPAREs with the number that wait for requests, and the setting. -/
structure Ctx where
  stashedForTime : Bool := false
  may : Bool := true
  pendingPrev : Bool := false
  pendingReqs : List Stash := []
  enabled : Bool := true
deriving Repr, DecidableEq

/-- `preparesWaitingForPrePrepare`, plenum/server/consensus/ordering_service.py:147, with the digest and the roots of each
PREPARE; the requests; and the messages sent for them, by number. -/
structure State where
  waiting : Dict Key (List (Stash × Nat)) := []
  msgs : MsgReq.State
  sent : List Key := []

/-- The most frequent element, the first of them if there are several. Models plenum/common/util.py:90-121,
`mostCommonElement`. -/
def mostCommon (l : List Stash) : Option Stash :=
  l.foldl (fun b x => match b with
    | none => some x
    | some y => if l.count y < l.count x then some x else some y) none

/-- By sender; a later one replaces an earlier one.
Models plenum/server/consensus/ordering_service.py:409-410, `_get_acceptable_stashed_prepare_state`. -/
def bySender (q : List (Stash × Nat)) : Dict Nat Stash := q.foldl (fun d e => d.set e.2 e.1) []

/-- Models plenum/server/consensus/ordering_service.py:408-413, `_get_acceptable_stashed_prepare_state`. -/
def acceptable (q : List (Stash × Nat)) : Option Stash := mostCommon ((bySender q).map Prod.snd)

/-- A message is sent unless there is a request already. Models plenum/server/consensus/ordering_service.py:982-993,
`_request_pre_prepare`, and plenum/server/consensus/message_request/message_req_service.py:92-109,
`process_missing_message`. -/
def requestPp (s : State) (c : Ctx) (k : Key) (stash : Option Stash) : State :=
  if !c.enabled then s
  else
    { s with
      msgs := request3pc s.msgs .prePrepare k stash
      sent := if s.msgs.reqPP.has k then s.sent else s.sent ++ [k] }

/-- Models plenum/server/consensus/ordering_service.py:371-406, `_request_pre_prepare_for_prepare`. -/
def requestForPrepare (s : State) (c : Ctx) (k : Key) : State :=
  let q := (s.waiting.get? k).getD []
  if c.pendingPrev then s
  else if q.length < (Quorums.ofN s.msgs.data.n).prepare.value then s
  else
    match acceptable q with
    | none => s
    | some st => if c.pendingReqs.contains st then s else requestPp s c k (some st)

/-- Models plenum/server/consensus/ordering_service.py:329-341, `_enqueue_prepare`. Left out: what becomes of a
PRE-PREPARE whose time was not acceptable, for which see Model/PpTime.lean. -/
def enqueuePrepare (s : State) (c : Ctx) (k : Key) (st : Stash) (sender : Nat) : State :=
  let s := { s with waiting := s.waiting.set k (((s.waiting.get? k).getD []) ++ [(st, sender)]) }
  if c.stashedForTime then s
  else if c.may then requestForPrepare s c k
  else s

/-- What happens. -/
inductive Ev where
  /-- a PREPARE comes whose PRE-PREPARE is not there -/
  | prepare (k : Key) (st : Stash) (sender : Nat) (c : Ctx)
  /-- a later PRE-PREPARE comes, so that this one is missing:
  plenum/server/consensus/ordering_service.py:965-970, `_request_missing_three_phase_messages` -/
  | missing (k : Key) (c : Ctx)
  /-- the PRE-PREPARE is there: plenum/server/consensus/ordering_service.py:1294-1307, `_dequeue_prepares` -/
  | arrived (k : Key)
  | ordered (k : Key)
  | viewChangeStarted
  | stable (k : Key)
  /-- the shared data change; the number of nodes may -/
  | data (d : Data)

/-- One event. -/
def step (s : State) : Ev → State
  | .prepare k st x c => enqueuePrepare s c k st x
  | .missing k c => requestPp s c k none
  | .arrived k => { s with waiting := s.waiting.erase k }
  | .ordered k => { s with msgs := (MsgReq.step (Vc := Unit) (fun _ => 0) [] s.msgs (.ordered k)).1 }
  | .viewChangeStarted => { s with msgs := (MsgReq.step (Vc := Unit) (fun _ => 0) [] s.msgs .viewChangeStarted).1 }
  | .stable k => { s with msgs := (MsgReq.step (Vc := Unit) (fun _ => 0) [] s.msgs (.stable k)).1 }
  | .data d => { s with msgs := (MsgReq.step (Vc := Unit) (fun _ => 0) [] s.msgs (.data d)).1 }

/-- The state after a history. -/
def run (d : Data) (h : List Ev) : State := h.foldl step { msgs := { data := d } }

/-- Is a PRE-PREPARE from a reply of the primary taken? Models
plenum/server/consensus/message_request/message_handlers.py:120-146 and 164-171, `_validate_message_rep`, for a reply that
names the message it has. -/
def takes (s : State) (m : Msg) : Bool := valid3pc s.msgs .prePrepare m

end Verif.AskPp
