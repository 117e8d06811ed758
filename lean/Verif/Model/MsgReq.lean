import Verif.Model.PyVal
import Verif.Model.Dict
import Verif.Model.Quorums
import Verif.Model.Bls
/-!
# Requests for missing messages

`MessageReqService` (plenum/server/consensus/message_request/message_req_service.py) and its
handlers (plenum/server/consensus/message_request/message_handlers.py). Roots and digests are
numbers. VIEW_CHANGE messages are of any type `Vc`, with `digest` for `view_change_digest`.
Names are bytes; a reply comes from a node and is handled as from its replica, whose
name is the node's with a suffix. Sending is not modelled.
-/
namespace Verif.MsgReq
open Verif

/-- The view and sequence number of a batch. -/
abbrev Key := Nat × Nat

/-- The three kinds of three-phase messages. -/
inductive Kind where
  | prePrepare | prepare | commit
deriving Repr, DecidableEq

/-- A three-phase message. `body` is all that is not listed, as signatures. A COMMIT
has no digest and roots. -/
structure Msg where
  inst : Nat
  viewNo : Nat
  seqNo : Nat
  digest : Nat := 0
  stateRoot : Nat := 0
  txnRoot : Nat := 0
  body : Nat := 0
deriving Repr, DecidableEq

/-- The digest and the two roots. -/
abbrev Stash := Nat × Nat × Nat

/-- A NEW_VIEW. -/
structure Nv where
  viewNo : Nat
  body : Nat
deriving Repr, DecidableEq

/-- plenum/common/messages/node_messages.py:473-484, `MessageRep`: the parameters that the
handler reads, each possibly missing or of another type, and the message; `none` if it
is null or no message can be made of it. -/
inductive Rep (Vc : Type) where
  | threePc (kind : Kind) (inst viewNo seqNo : Option Nat) (msg : Option Msg)
  | viewChange (name : Option Bytes) (digest : Option Nat) (msg : Option Vc)
  | newView (viewNo : Option Nat) (msg : Option Nv)

/-- A message taken from a reply, with the name it is processed under. -/
inductive Out (Vc : Type) where
  | threePc (kind : Kind) (msg : Msg) (frm : Bytes)
  | viewChange (msg : Vc) (frm : Bytes)
  | newView (msg : Nv) (frm : Bytes)

/-- What is read of the shared data. -/
structure Data where
  n : Nat
  inst : Nat := 0
  viewNo : Nat := 0
  lastOrdered : Key := (0, 0)
  preprepared : List Key := []
  newView : Bool := false
deriving Repr

/-- plenum/server/consensus/message_request/message_handlers.py:19-27, `__init__`: what was
requested, by handler; and plenum/server/consensus/message_request/message_handlers.py:206-208,
`__init__`: who replied with a VIEW_CHANGE. -/
structure State where
  data : Data
  reqPP : Dict Key (Option Stash) := []
  reqP : Dict Key (Option Stash) := []
  reqC : Dict Key (Option Stash) := []
  reqVC : List (Bytes × Nat) := []
  reqNV : List Nat := []
  received : Dict (Bytes × Nat) (List Bytes) := []
deriving Repr

/-- The requests of a kind. -/
def State.req (s : State) : Kind → Dict Key (Option Stash)
  | .prePrepare => s.reqPP
  | .prepare => s.reqP
  | .commit => s.reqC

/-- A change of the requests of a kind. -/
def State.setReq (s : State) (k : Kind) (d : Dict Key (Option Stash)) : State :=
  match k with
  | .prePrepare => { s with reqPP := d }
  | .prepare => { s with reqP := d }
  | .commit => { s with reqC := d }

/-- A change of the requests of all three kinds. -/
def State.mapReq (s : State) (f : Dict Key (Option Stash) → Dict Key (Option Stash)) : State :=
  { s with reqPP := f s.reqPP, reqP := f s.reqP, reqC := f s.reqC }

/-- plenum/common/util.py:618-622, `compare_3PC_keys`: the second key is not less than the
first; views are not compared. -/
def notLess (a b : Key) : Bool := a.2 ≤ b.2

/-- plenum/server/consensus/message_request/message_handlers.py:120-146, `_validate_message_rep`,
and for PRE-PREPAREs plenum/server/consensus/message_request/message_handlers.py:164-171. -/
def valid3pc (s : State) (k : Kind) (m : Msg) : Bool :=
  match (s.req k).get? (m.viewNo, m.seqNo) with
  | none => false
  | some stash =>
    !notLess (m.viewNo, m.seqNo) s.data.lastOrdered &&
    (match stash with
     | none => true
     | some st => k ≠ .commit && decide ((m.digest, m.stateRoot, m.txnRoot) = st)) &&
    !(k = .prePrepare && s.data.preprepared.contains (m.viewNo, m.seqNo))

/-- plenum/server/replica.py:302-308, `generateName`; `sfx` is the number of the instance. -/
def replicaName (sfx : Bytes) (node : Bytes) : Bytes := node ++ 58 :: sfx

/-- plenum/server/consensus/message_request/message_handlers.py:243-245: the sender is added to
the set of those who replied. -/
def addReceived (s : State) (key : Bytes × Nat) (frm : Bytes) : State :=
  let l := (s.received.get? key).getD []
  { s with received := s.received.set key (if l.contains frm then l else l ++ [frm]) }

/-- plenum/server/consensus/message_request/message_handlers.py:229-250, `_validate_view_change`, and
plenum/server/consensus/message_request/message_handlers.py:251-267, `extract_message`, once the digest
of the message is that of the reply. -/
def extractVC {Vc : Type} (s : State) (name : Bytes) (d : Nat) (vc : Vc) (frm : Bytes) : State × Option (Out Vc) :=
  if !s.reqVC.contains (name, d) then (s, none)
  else
    let s := addReceived s (name, d) frm
    if !(Quorums.ofN s.data.n).weak.isReached ((s.received.get? (name, d)).getD []).length && frm ≠ name then (s, none)
    else ({ s with reqVC := s.reqVC.filter (· ≠ (name, d)) }, some (.viewChange vc name))

/-- plenum/server/consensus/message_request/message_handlers.py:305-323, `_validate_message_rep`. -/
def validNV (s : State) (nv : Nv) : Bool := !s.data.newView && s.reqNV.contains nv.viewNo && s.data.viewNo ≤ nv.viewNo

/-- plenum/server/consensus/message_request/message_req_service.py:72-89, `process_message_rep`, with
plenum/server/consensus/message_request/message_handlers.py:47-64, `extract_message`, and the `_create` of
each handler. -/
def reply {Vc : Type} (digest : Vc → Nat) (s : State) (frm : Bytes) : Rep Vc → State × Option (Out Vc)
  | .threePc k inst viewNo seqNo (some m) =>
    if some m.inst ≠ inst ∨ some m.viewNo ≠ viewNo ∨ some m.seqNo ≠ seqNo then (s, none)
    else if valid3pc s k m then (s, some (.threePc k m frm)) else (s, none)
  | .threePc _ _ _ _ none => (s, none)
  | .viewChange (some name) d (some vc) =>
    if some (digest vc) ≠ d then (s, none) else extractVC s name (digest vc) vc frm
  | .viewChange _ _ _ => (s, none)
  | .newView v (some nv) =>
    if some nv.viewNo ≠ v then (s, none) else if validNV s nv then (s, some (.newView nv frm)) else (s, none)
  | .newView _ none => (s, none)

/-- What happens: messages are found missing, replies arrive from nodes, a batch is
ordered, a view change starts, a checkpoint becomes stable, the shared data change. -/
inductive Ev (Vc : Type) where
  | missing3pc (kind : Kind) (key : Key) (stash : Option Stash)
  | missingVC (name : Bytes) (digest : Nat)
  | missingNV (viewNo : Nat)
  | reply (node : Bytes) (rep : Rep Vc)
  | ordered (key : Key)
  | viewChangeStarted
  | stable (key : Key)
  | data (d : Data)

/-- plenum/server/consensus/message_request/message_handlers.py:90-96, `prepare_msg_to_request`. -/
def request3pc (s : State) (k : Kind) (key : Key) (stash : Option Stash) : State :=
  if (s.req k).has key then s else s.setReq k ((s.req k).set key stash)

/-- One event. For `ordered`, `viewChangeStarted` and `stable` see
plenum/server/consensus/message_request/message_req_service.py:111-115, `process_ordered`, 117-119 and 121-127. -/
def step {Vc : Type} (digest : Vc → Nat) (sfx : Bytes) (s : State) : Ev Vc → State × Option (Out Vc)
  | .missing3pc k key stash => (request3pc s k key stash, none)
  | .missingVC name d => (if s.reqVC.contains (name, d) then s else { s with reqVC := s.reqVC ++ [(name, d)] }, none)
  | .missingNV v => (if s.reqNV.contains v then s else { s with reqNV := s.reqNV ++ [v] }, none)
  | .reply node rep => reply digest s (replicaName sfx node) rep
  | .ordered key => (s.mapReq (·.erase key), none)
  | .viewChangeStarted => ({ s with reqPP := [], reqP := [], reqC := [], reqVC := [], reqNV := [], received := [] }, none)
  | .stable key => (s.mapReq (fun d => d.filter (fun e => !notLess e.1 key)), none)
  | .data d => ({ s with data := d }, none)

/-- The state after a history. -/
def run {Vc : Type} (digest : Vc → Nat) (sfx : Bytes) (d : Data) (evs : List (Ev Vc)) : State :=
  evs.foldl (fun s e => (step digest sfx s e).1) { data := d }

/-- The messages taken from replies during a history from a given state. -/
def outputs {Vc : Type} (digest : Vc → Nat) (sfx : Bytes) (s : State) : List (Ev Vc) → List (Out Vc)
  | [] => []
  | e :: evs => (step digest sfx s e).2.toList ++ outputs digest sfx (step digest sfx s e).1 evs

/-! ## Answers to requests for COMMITs -/

/-- A COMMIT as it is stored and sent: its signatures by ledger. -/
structure Cm where
  viewNo : Nat
  seqNo : Nat
  sigs : Option (Dict Bls.LidKey Nat)
deriving Repr, DecidableEq

/-- `ThreePhaseVotes`, plenum/server/models.py:11-13. -/
structure Votes where
  voters : List Nat
  msg : Cm
deriving Repr, DecidableEq

/-- plenum/server/models.py:24-28, `_add_msg`: the first message is kept. -/
def addCommit (d : Dict Key Votes) (c : Cm) (voter : Nat) : Dict Key Votes :=
  match d.get? (c.viewNo, c.seqNo) with
  | none => d.set (c.viewNo, c.seqNo) ⟨[voter], c⟩
  | some v => d.set (c.viewNo, c.seqNo) { v with voters := if v.voters.contains voter then v.voters else v.voters ++ [voter] }

/-- plenum/server/consensus/message_request/message_handlers.py:189-195, `_get_reply` of the handler of
COMMITs, in the replica `me`. -/
def commitReply (d : Dict Key Votes) (me : Nat) (key : Key) : Option Cm :=
  match d.get? key with
  | none => none
  | some v => if v.voters.contains me then some v.msg else none

/-- The COMMITs taken in, with their senders, in order. -/
def commitsOf (l : List (Cm × Nat)) : Dict Key Votes := l.foldl (fun d e => addCommit d e.1 e.2) []

end Verif.MsgReq
