import Verif.Model.ClientAuth
/-!
# The transaction made from a request

`reqToTxn` and the functions it uses, the functions that read a transaction, of
plenum/common/txn_util.py, and the choice of the handlers that apply it, of
plenum/server/request_managers/write_request_manager.py. A request is given as an object, as
`apply_request` of the handlers gives it. Fields added by plugins are not modelled. A
transaction is a value, as it is written to the ledger.
-/
namespace Verif.TxnOf
open Verif Verif.Signing
open Verif.Auth (item? Obj)

/-- The entries of a dict of texts. -/
def sigDict (d : List (Bytes × Bytes)) : Val := .dict (d.map (fun e => (e.1, .str e.2)))

/-- plenum/common/request.py:54-74, `as_dict`. -/
def asDict (r : Request) : Obj :=
  [(ascii "reqId", .int r.reqId), (ascii "operation", r.operation)] ++
    field "identifier" (r.identifier.map .str) ++
    field "signatures" (r.signatures.map sigDict) ++
    field "signature" (r.signature.map .str) ++
    field "protocolVersion" (r.protocolVersion.map .int) ++
    field "taaAcceptance" r.taaAcceptance ++
    field "endorser" (r.endorser.map .str)

/-- `d.pop(k, None)`: what it returns; `None` and no entry are the same. -/
def popped (d : Obj) (k : Bytes) : Option Val :=
  match Dict.get? d k with
  | some .none => none
  | x => x

/-- plenum/common/constants.py:165-166, `CURRENT_TXN_PAYLOAD_VERSIONS`. -/
def currentPayloadVersion (typ : Option Val) : Bytes := if typ = some (.str (ascii "4")) then ascii "2" else ascii "1"

/-- The version written to the payload, plenum/common/txn_util.py:196-200: that of the
operation if it has one, otherwise the current one if it is above 1. -/
def payloadVersion (typ : Option Val) (given : Option Val) : Option Val :=
  match given with
  | some v => some v
  | none => if currentPayloadVersion typ = ascii "1" then none else some (.str (currentPayloadVersion typ))

/-- `protocol_version`, plenum/common/txn_util.py:193-194: only if it is not 0. -/
def payloadProtocol : Option Int → Option Val
  | some n => if n = 0 then none else some (.int n)
  | none => none

/-- The signatures, plenum/common/txn_util.py:298-301: the one signature under the
identifier, or all `signatures`, in the order of the identifiers. `None` as the identifier of
a signature is the outer `none` of an entry. -/
def txnSigs (r : Request) : List (Option Bytes × Bytes) :=
  match r.signature with
  | some s => [(r.identifier, s)]
  | none => (sortItems (r.signatures.getD [])).map (fun e => (some e.1, e.2))

/-- The part `reqSignature`, plenum/common/txn_util.py:295-303 and 320-331, `add_sigs_to_txn`. -/
def signaturePart (r : Request) : Val :=
  if r.signature = none ∧ r.signatures = none then .dict []
  else .dict [(ascii "type", .str (ascii "ED25519")),
    (ascii "values", .list ((txnSigs r).map (fun e => .dict [(ascii "from", optText e.1), (ascii "value", .str e.2)])))]

/-- plenum/common/txn_util.py:215-229, `append_payload_metadata`, on a transaction that has none. -/
def payloadMetadata (r : Request) (digest payloadDigest : Bytes) : Obj :=
  field "from" (r.identifier.map .str) ++ field "reqId" (some (.int r.reqId)) ++
    field "taaAcceptance" r.taaAcceptance ++ field "digest" (some (.str digest)) ++
    field "payloadDigest" (some (.str payloadDigest)) ++ field "endorser" (r.endorser.map .str)

/-- The operation without its type and version: the two `pop`s of plenum/common/txn_util.py:291-293. -/
def payloadData (op : Obj) : Obj := op.filter (fun e => e.1 ≠ ascii "type" ∧ e.1 ≠ ascii "ver")

/-- plenum/common/txn_util.py:289-314, `do_req_to_txn`, with `init_empty_txn` (lines 183-207)
and `set_payload_data` (210-212). -/
def doReqToTxn (r : Request) (op : Obj) (digest payloadDigest : Bytes) : Obj :=
  let typ := popped op (ascii "type")
  [(ascii "txn", .dict ([(ascii "type", typ.getD .none), (ascii "data", .dict (payloadData op))] ++
      field "protocolVersion" (payloadProtocol r.protocolVersion) ++
      [(ascii "metadata", .dict (payloadMetadata r digest payloadDigest))] ++
      field "ver" (payloadVersion typ (popped op (ascii "ver"))))),
   (ascii "txnMetadata", .dict []),
   (ascii "reqSignature", signaturePart r),
   (ascii "ver", .str (ascii "1"))]

/-- plenum/common/txn_util.py:242-273, `reqToTxn`. `none`: an exception. -/
def reqToTxn (H : Bytes → Bytes) (fl : UInt64 → Bytes) (r : Request) : Option Obj :=
  match r.operation, r.digest H fl, r.payloadDigest H fl with
  | .dict op, some d, some p => some (doReqToTxn r op d p)
  | _, _, _ => none

/-- plenum/common/txn_util.py:232-239, `append_txn_metadata`: the position, the time and the
id are put in. -/
def appendTxnMetadata (txn : Obj) (seqNo : Option Nat) (time : Option Int) (id : Option Bytes) : Obj :=
  let put (d : Obj) (k : String) (v : Option Val) : Obj := match v with
    | some v => Dict.set d (ascii k) v
    | none => d
  match Dict.get? txn (ascii "txnMetadata") with
  | some (.dict m) => Dict.set txn (ascii "txnMetadata")
      (.dict (put (put (put m "seqNo" (seqNo.map (fun n => .int n))) "txnTime" (time.map .int)) "txnId" (id.map .str)))
  | _ => txn

/-- What is written to the ledger for a request at a position and a time:
plenum/server/request_handlers/handler_interfaces/write_request_handler.py:47-57, `apply_request`,
with plenum/common/ledger.py:30-36, `append_txns_metadata`. `gen_txn_id` gives no id. -/
def ledgerTxn (H : Bytes → Bytes) (fl : UInt64 → Bytes) (r : Request) (seqNo : Nat) (time : Option Int) : Option Obj :=
  (reqToTxn H fl r).map (fun t => appendTxnMetadata (appendTxnMetadata (appendTxnMetadata t none none none) none time none) (some seqNo) none none)

/-! ## Reading a transaction -/

/-- `d[k1][k2]…`; `none`: `KeyError`. -/
def path : Val → List String → Option Val
  | v, [] => some v
  | v, k :: ks => match item? v (ascii k) with
    | some w => path w ks
    | none => none

/-- `d[k1]….get(k, None)`. The outer `none`: `KeyError`. -/
def getAt (txn : Obj) (ks : List String) (k : String) : Option Val :=
  (path (.dict txn) ks).map (fun v => (item? v (ascii k)).getD .none)

/-- plenum/common/txn_util.py:108-109, `get_type`. -/
def getType (txn : Obj) : Option Val := path (.dict txn) ["txn", "type"]
/-- plenum/common/txn_util.py:117-118, `get_payload_data`. -/
def getPayloadData (txn : Obj) : Option Val := path (.dict txn) ["txn", "data"]
/-- plenum/common/txn_util.py:121-122, `get_from`. -/
def getFrom (txn : Obj) : Option Val := getAt txn ["txn", "metadata"] "from"
/-- plenum/common/txn_util.py:125-126, `get_endorser`. -/
def getEndorser (txn : Obj) : Option Val := getAt txn ["txn", "metadata"] "endorser"
/-- plenum/common/txn_util.py:129-130, `get_req_id`. -/
def getReqId (txn : Obj) : Option Val := getAt txn ["txn", "metadata"] "reqId"
/-- plenum/common/txn_util.py:133-141, `get_digest`. -/
def getDigest (txn : Obj) : Option Val :=
  (path (.dict txn) ["txn", "metadata"]).map (fun m =>
    if (item? m (ascii "payloadDigest")).isSome then (item? m (ascii "digest")).getD .none else .none)
/-- plenum/common/txn_util.py:144-149, `get_payload_digest`. -/
def getPayloadDigest (txn : Obj) : Option Val :=
  (path (.dict txn) ["txn", "metadata"]).map (fun m =>
    match (item? m (ascii "payloadDigest")).getD .none with
    | .none => (item? m (ascii "digest")).getD .none
    | v => v)
/-- plenum/common/txn_util.py:152-153, `get_seq_no`. -/
def getSeqNo (txn : Obj) : Option Val := getAt txn ["txnMetadata"] "seqNo"
/-- plenum/common/txn_util.py:156-157, `get_txn_time`. -/
def getTxnTime (txn : Obj) : Option Val := getAt txn ["txnMetadata"] "txnTime"
/-- plenum/common/txn_util.py:168-169, `get_protocol_version`. -/
def getProtocolVersion (txn : Obj) : Option Val := getAt txn ["txn"] "protocolVersion"
/-- plenum/common/txn_util.py:172-173, `get_payload_txn_version`. -/
def getPayloadTxnVersion (txn : Obj) : Option Val := getAt txn ["txn"] "ver"

/-! ## The handlers of a transaction -/

/-- `request_handlers` and `_request_handlers_with_version` of
plenum/server/request_managers/write_request_manager.py:35-45, for types and versions of
any kind; `η` are the handlers. -/
structure Handlers (η : Type) where
  plain : Val → Option (List η)
  versioned : Val → Val → Option (List η)

/-- The handlers that apply a request when its batch is processed:
plenum/server/request_managers/write_request_manager.py:148-155, `apply_request`. `none`: an
exception. -/
def liveHandlers {η : Type} (h : Handlers η) (r : Request) : Option (List η) :=
  match item? r.operation (ascii "type") with
  | some t => h.plain t
  | none => none

/-- plenum/server/txn_version_controller.py:13-15, `get_txn_version`. -/
def txnVersion (txn : Obj) : Option Val :=
  (getPayloadTxnVersion txn).map (fun v => if v = .none then .str (ascii "1") else v)

/-- The handlers that apply a transaction of the ledger after a catchup or at a start:
plenum/server/request_managers/write_request_manager.py:113-126, `_get_handlers_by_version`, with
the version controller of plenum, which knows no versions of the pool (`get_pool_version` is
`None`, and no handler is registered for `None`). -/
def restoreHandlers {η : Type} (h : Handlers η) (txn : Obj) : Option (List η) :=
  match getType txn, txnVersion txn with
  | some t, some v =>
    match h.versioned t v with
    | some l => some l
    | none => h.plain t
  | _, _ => none

end Verif.TxnOf
