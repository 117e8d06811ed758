import Verif.Model.Schema
import Verif.Model.Asked
/-!
# What the messages of peers can raise in the handlers: VIEW_CHANGE, NEW_VIEW, MESSAGE_RESPONSE

These messages have passed the schemas, but some of what is in them is looked at only by the
handlers. `Node.sendToReplica` (plenum/server/node.py:1428-1443) puts them into the inboxes of
replicas, from where `Replica._handle_external_messages` hands them to the services; nothing on
this path catches exceptions. Putting into the inbox and taking from it is one step here.

Not modelled: what the services do with a message once its digest is known, or once the node is
found to have asked for it. `later` says whether that raises; it may be anything. The
serialisation of the digest is taken to raise nothing.
-/
namespace Verif.Entry

open Verif (Val ascii)
open Verif.Schema (Msg build asDict)

/-- What the services of the master replica look at. -/
structure Place where
  /-- the number of the view -/
  viewNo : Nat
  /-- a view change is going on -/
  waiting : Bool
  participating : Bool
  /-- The rest of the handler raises. -/
  later : Msg → Bool

/-- Python's `v < n` for what `NonNegativeNumberField` accepts. -/
def ltInt (v : Val) (n : Nat) : Bool :=
  match v with
  | .int m => decide (m < (n : Int))
  | .bool b => decide ((if b then 1 else 0) < n)
  | _ => false

/-- plenum/server/consensus/view_change_service.py:223-240, `_validate`, for the master instance:
whether the result is `PROCESS`. A message that is stashed is given to the handler again
later. -/
def taken (F : Facts) (P : Place) (m : Msg) : Bool :=
  !(ltInt (get m.fields (ascii "viewNo")) P.viewNo) &&
  !(eqInt F (get m.fields (ascii "viewNo")) P.viewNo && !P.waiting) && P.participating &&
  eqInt F (get m.fields (ascii "viewNo")) P.viewNo

/-- plenum/server/consensus/view_change_service.py:162-193, `process_view_change_message`, and
209-221, `process_new_view_message`: the digest,
plenum/server/consensus/view_change_storages.py:12-16, `view_change_digest`, and 188-190,
`_get_msg_digest`, needs `_asdict`. -/
def voteRaises (F : Facts) (P : Place) (m : Msg) : Bool :=
  taken F P m && (match asDict m with
    | .error _ => true
    | .ok _ => P.later m)

/-- The outcome of building a message that a peer sent as the answer to a question:
plenum/server/consensus/message_request/message_handlers.py:48-63, `extract_message`, and 253-270,
the one of `ViewChangeHandler`. `TypeError` and the exceptions for answers that do not fit are
caught, others are not. -/
def extractRaises (env : Schema.Env) (P : Place) (typ : Bytes) (v : Val) : Bool :=
  match v with
  | .dict d =>
    (match build env typ d with
     | .error .typeError => false
     | .error _ => true
     | .ok m =>
       if typ == ascii "VIEW_CHANGE" then
         (match asDict m with
          | .error .typeError => false
          | .error _ => true
          | .ok _ => P.later m)
       else P.later m)
  | _ => false

/-- plenum/server/consensus/message_request/message_req_service.py:39-45, in `__init__`. -/
def ANSWERS : List Bytes := [ascii "PREPREPARE", ascii "PREPARE", ascii "COMMIT", ascii "VIEW_CHANGE", ascii "NEW_VIEW"]

/-- plenum/server/node.py:1428-1443, `sendToReplica`: some replica gets the message. A `None`
stands for all of them. -/
def reaches (F : Facts) (v : Val) : Bool := v == .none || F.insts.any (eqInt F v)

/-- plenum/server/node.py:3237-3242, `route_message_rep`, with
plenum/server/consensus/message_request/message_req_service.py:74-89, `process_message_rep`. The
answers that the node handles itself, to questions for LEDGER_STATUS, CONSISTENCY_PROOF and
PROPAGATE, are not modelled. -/
def answerRaises (env : Schema.Env) (F : Facts) (P : Place) (m : NodeMsg) : Bool :=
  match get m.body (ascii "msg_type"), get m.body (ascii "params") with
  | .str typ, .dict p =>
    ANSWERS.contains typ && reaches F (get p (ascii "instId")) && !(get m.body (ascii "msg") == .none) &&
    extractRaises env P typ (get m.body (ascii "msg"))
  | _, _ => false

/-- The handlers, as far as they are modelled here. -/
def replicaRaises (env : Schema.Env) (F : Facts) (P : Place) (m : NodeMsg) : Bool :=
  if m.op == ascii "MESSAGE_RESPONSE" then answerRaises env F P m
  else if m.op == ascii "VIEW_CHANGE" || m.op == ascii "NEW_VIEW" then
    (match build env m.op m.body with
     | .ok x => voteRaises F P x
     | .error _ => false)
  else false

end Verif.Entry
