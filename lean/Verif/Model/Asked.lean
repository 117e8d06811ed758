import Verif.Model.Entry
/-!
# What a MESSAGE_REQUEST of a peer can raise

A node may ask its peers for messages it missed. Here is what the handlers do with the
parameters of such a request, as far as exceptions go: the reply itself is not modelled.
The parameters are any JSON object: `AnyMapField`,
plenum/common/messages/node_messages.py:460-470, `MessageReq`.
-/
namespace Verif.Entry

open Verif (Val ascii)

/-- What the handlers read of the node. -/
structure Facts where
  /-- The ledgers of the node and their sizes: plenum/server/node.py:142, `ledger_ids`. -/
  ledgers : List (Nat × Nat)
  /-- The protocol instances. -/
  insts : List Nat
  /-- A float equals an integer. -/
  floatEq : UInt64 → Nat → Bool

/-- Python's `v == n`. -/
def eqInt (F : Facts) (v : Val) (n : Nat) : Bool :=
  match v with
  | .int m => m == (n : Int)
  | .bool b => (if b then 1 else 0) == n
  | .float b => F.floatEq b n
  | _ => false

/-- `isinstance(v, int) and v > 0`, and the number. -/
def posInt (v : Val) : Option Nat :=
  match v with
  | .int m => if 0 < m then some m.toNat else none
  | .bool true => some 1
  | _ => none

/-- `hash(v)` raises. -/
def unhashable : Val → Bool
  | .list _ => true
  | .dict _ => true
  | _ => false

/-- plenum/common/messages/fields.py:341-347, `LedgerIdField`, accepts integers only: a
message with a float in that field raises `TypeError`. -/
def isFloat : Val → Bool
  | .float _ => true
  | _ => false

/-- plenum/server/message_handlers.py:91-108, `LedgerStatusHandler`, with
plenum/server/node.py:1920-1926, `getLedgerStatus`: a ledger id that equals one of the
node's but is a float passes `validate` and makes `LedgerStatus(...)` raise. -/
def ledgerStatusRaises (F : Facts) (p : Items) : Bool :=
  F.ledgers.any (fun l => eqInt F (get p (ascii "ledgerId")) l.1) && isFloat (get p (ascii "ledgerId"))

/-- plenum/server/message_handlers.py:112-141, `ConsistencyProofHandler`, with
plenum/server/catchup/seeder_service.py:107-147, `_build_consistency_proof`, which builds a
message only when `start ≤ end ≤ size`. -/
def consistencyProofRaises (F : Facts) (p : Items) : Bool :=
  match F.ledgers.find? (fun l => eqInt F (get p (ascii "ledgerId")) l.1) with
  | none => false
  | some l =>
    match posInt (get p (ascii "seqNoStart")), posInt (get p (ascii "seqNoEnd")) with
    | some a, some b => decide (a ≤ b) && decide (b ≤ l.2) && isFloat (get p (ascii "ledgerId"))
    | _, _ => false

/-- plenum/server/message_handlers.py:144-168, `PropagateHandler`: `req_key in
self.node.requests` hashes what the peer sent. -/
def propagateRaises (p : Items) : Bool := unhashable (get p (ascii "digest"))

/-- plenum/server/node.py:1428-1443, `sendToReplica`, and
plenum/server/consensus/message_request/message_handlers.py:198-274, `ViewChangeHandler`:
the name is looked up among the votes, plenum/server/consensus/view_change_storages.py:129-132,
`_get_vote`. Without an instance the message goes to every replica, and none of them takes
it. -/
def viewChangeRaises (F : Facts) (p : Items) : Bool :=
  F.insts.any (eqInt F (get p (ascii "instId"))) && unhashable (get p (ascii "name"))

/-- plenum/server/node.py:3230-3235, `route_message_req`, with
plenum/server/message_req_processor.py:23-40, `process_message_req`. The handlers of PRE-PREPARE,
PREPARE, COMMIT and NEW_VIEW compare what they are given with numbers before they use it, and
raise nothing. -/
def askedRaises (F : Facts) (m : NodeMsg) : Bool :=
  match get m.body (ascii "params") with
  | .dict p =>
    if get m.body (ascii "msg_type") == .str LEDGER_STATUS then ledgerStatusRaises F p
    else if get m.body (ascii "msg_type") == .str (ascii "CONSISTENCY_PROOF") then consistencyProofRaises F p
    else if get m.body (ascii "msg_type") == .str PROPAGATE then propagateRaises p
    else if get m.body (ascii "msg_type") == .str (ascii "VIEW_CHANGE") then viewChangeRaises F p
    else false
  | _ => false

/-- The handlers, as far as they are modelled here: of MESSAGE_REQUEST. -/
def handlerRaises (F : Facts) (m : NodeMsg) : Bool := m.op == MESSAGE_REQUEST && askedRaises F m

end Verif.Entry
