import Verif.Model.Entry
import Verif.Spec.Schema
/-!
# The schemas of messages

What the constructors of the message classes do with keyword arguments that come from JSON:
plenum/common/messages/fields.py, message_base.py, node_messages.py and client_request.py.
JSON has no tuples, so the tuples the code makes of lists stay lists here. The texts of error
messages are left out: a validator returns `ok false` where the code returns an error message.
`SCHEMA_IS_STRICT` and `OPERATION_SCHEMA_IS_STRICT` are false
(plenum/common/constants.py:281-282), so unknown fields are allowed. Plugins may add ledger
ids (`Env.plugins`), but no fields of requests.
-/
namespace Verif.Schema

open Verif (Val ascii)
open Verif.Entry (Bytes Items lookup get truthy OP withoutOp)

/-- The exceptions, by what the code catches: `TypeError` with its subclasses
`PlenumTypeError` (common/exceptions.py:16-31) and `MissingProtocolVersionError`
(plenum/common/exceptions.py:346-351), `ValueError`, `AttributeError`. -/
inductive Exc where
  | typeError
  | valueError
  | attributeError
deriving DecidableEq, Repr

/-- A validator: `ok true` when it returns `None`. -/
abbrev V := Val → Except Exc Bool

/-- `err = a(...); if err: return err; b(...)`. -/
def both (a b : Except Exc Bool) : Except Exc Bool :=
  match a with
  | .ok true => b
  | r => r

/-- The same over the items of a loop. -/
def allOk {α : Type} (f : α → Except Exc Bool) : List α → Except Exc Bool
  | [] => .ok true
  | x :: l => both (f x) (allOk f l)

/-- `isinstance(v, int)`, and the number: `bool` is a subclass of `int`. -/
def intVal : Val → Option Int
  | .int n => some n
  | .bool true => some 1
  | .bool false => some 0
  | _ => none

/-- `isinstance(v, str)`. -/
def isStr : Val → Bool
  | .str _ => true
  | _ => false

/-- `len(s)` of a text: every character has one byte that does not continue another. -/
def chars (s : Bytes) : Nat := (s.filter (fun b => !(128 ≤ b && b < 192))).length

/-- plenum/common/messages/fields.py:54-71, `validate`, with `nullable=True`. -/
def orNull (f : V) : V
  | .none => .ok true
  | v => f v

/-- plenum/common/messages/fields.py:100-104, `AnyField`, and 585-592, `AnyValueField`. -/
def anyF : V := fun _ => .ok true

/-- plenum/common/messages/fields.py:107-111, `BooleanField`. -/
def booleanF : V
  | .bool _ => .ok true
  | _ => .ok false

/-- An integer for which a condition holds. -/
def intF (p : Int → Bool) : V := fun v =>
  match intVal v with
  | some n => .ok (p n)
  | none => .ok false

/-- plenum/common/messages/fields.py:114-118, `IntegerField`. -/
def integerF : V := intF (fun _ => true)

/-- plenum/common/messages/fields.py:204-209, `NonNegativeNumberField`. -/
def nonNegF : V := intF (fun n => !(n < 0))

/-- plenum/common/messages/fields.py:289-294, `NetworkPortField`. -/
def portF : V := intF (fun n => !(n ≤ 0 || 65535 < n))

/-- plenum/common/messages/fields.py:565-570, `TxnSeqNoField`. -/
def txnSeqNoF : V := intF (fun n => !(n < 1))

/-- plenum/common/messages/fields.py:508-515, `TimestampField`. -/
def timestampF : V := intF (fun n => !(n < 1499906902))

/-- plenum/common/messages/fields.py:341-351, `LedgerIdField`, with
plenum/common/constants.py:277, `VALID_LEDGER_IDS`. -/
def ledgerIdF (env : Env) : V := intF (fun n => ([0, 1, 2, 3] ++ env.plugins).contains n)

/-- plenum/common/messages/fields.py:121-126, `NonEmptyStringField`. -/
def nonEmptyF : V
  | .str s => .ok (!s.isEmpty)
  | _ => .ok false

/-- plenum/common/messages/fields.py:129-144, `LimitedLengthStringField`. -/
def limitedF (max : Nat) (canBeEmpty : Bool := false) : V
  | .str s =>
    if s.isEmpty && !canBeEmpty then .ok false
    else if !s.isEmpty && max < chars s then .ok false
    else .ok true
  | _ => .ok false

/-- plenum/common/messages/fields.py:183-192, `SignatureField`. -/
def signatureF (max : Nat) : V
  | .none => .ok true
  | .str s => if s.length == 0 then .ok false else limitedF max false (.str s)
  | _ => .ok false

/-- plenum/common/messages/fields.py:195-201, `RoleField`. -/
def roleF : V
  | .none => .ok true
  | .str _ => .ok true
  | _ => .ok false

/-- plenum/common/messages/fields.py:212-221, `ConstantField`, whose constants are texts. -/
def constF (s : Bytes) : V := fun v => .ok (v == .str s)

/-- plenum/common/messages/fields.py:311-321, `ChooseField`, over a set of texts: looking up
a list or a dict raises. -/
def chooseSetF (l : List Bytes) : V
  | .list _ => .error .typeError
  | .dict _ => .error .typeError
  | v => .ok (l.any (fun s => v == .str s))

/-- plenum/common/messages/fields.py:311-321, `ChooseField`, over a tuple of texts. -/
def chooseTupleF (l : List Bytes) : V := fun v => .ok (l.any (fun s => v == .str s))

/-- plenum/common/messages/fields.py:224-258, `IterableField`; no schema gives it lengths. -/
def iterF (f : V) : V
  | .list l => allOk f l
  | _ => .ok false

/-- plenum/common/messages/fields.py:261-278, `MapField`; the keys of JSON objects are
texts. -/
def mapF (k v : V) : V
  | .dict d => allOk (fun e => both (k (.str e.1)) (v e.2)) d
  | _ => .ok false

/-- plenum/common/messages/fields.py:281-286, `AnyMapField`. -/
def anyMapF : V
  | .dict _ => .ok true
  | _ => .ok false

/-- plenum/common/messages/fields.py:297-308, `NetworkIpAddressField`. -/
def ipF (env : Env) : V
  | .str s => .ok (!(!env.isIp s || [ascii "0.0.0.0", ascii "0:0:0:0:0:0:0:0", ascii "::"].contains s))
  | _ => .ok false

/-- base58: `alphabet`. -/
def alphabet : Bytes := ascii "123456789ABCDEFGHJKLMNPQRSTUVWXYZabcdefghijkmnopqrstuvwxyz"

/-- base58: `b58decode_int`. -/
def b58int (s : Bytes) : Nat := s.foldl (fun n b => n * 58 + alphabet.idxOf b) 0

/-- base58: the loop of `b58decode` that takes the bytes off a number; how many it takes. -/
def byteLen (n : Nat) : Nat := if h : n = 0 then 0 else byteLen (n / 256) + 1
termination_by n
decreasing_by omega

/-- base58: `b58decode`, the length of what it returns: a zero byte for each leading `1`, and
the bytes of the number. -/
def b58len (s : Bytes) : Nat :=
  (s.takeWhile (· == 49)).length + byteLen (b58int (s.dropWhile (· == 49)))

/-- plenum/common/messages/fields.py:354-377, `Base58Field`; all schemas give it lengths. -/
def base58F (lens : List Nat) : V
  | .str s => if s.all (fun b => alphabet.contains b) then .ok (lens.contains (b58len s)) else .ok false
  | _ => .ok false

/-- plenum/common/messages/fields.py:380-387, `IdentifierField`, `DestNodeField` and
`DestNymField`. -/
def identifierF : V := base58F [16, 32]

/-- plenum/common/messages/fields.py:501-505, `MerkleRootField`. -/
def merkleF : V := base58F [32]

/-- plenum/common/messages/fields.py:459-467, `AbbreviatedVerkeyField`: a text that starts
with `~`. -/
def abbreviatedF : V
  | .str (b :: s) => if b == 126 then base58F [16] (.str s) else .ok false
  | _ => .ok false

/-- plenum/common/messages/fields.py:450-456, `FullVerkeyField`, and 471-482, `VerkeyField`. -/
def verkeyF : V
  | .str s =>
    match abbreviatedF (.str s), base58F [32] (.str s) with
    | .ok a, .ok b => .ok (a || b)
    | .error e, _ => .error e
    | _, .error e => .error e
  | _ => .ok false

/-- `[A-Fa-f0-9]`. -/
def isHex (b : UInt8) : Bool := (65 ≤ b && b ≤ 70) || (97 ≤ b && b ≤ 102) || (48 ≤ b && b ≤ 57)

/-- plenum/common/messages/fields.py:573-582, `Sha256HexField`: `$` also matches before a
newline at the end. -/
def sha256F : V
  | .str s => .ok ((s.take 64).all isHex && (s.length == 64 || (s.length == 65 && s.getLast? == some 10)))
  | _ => .ok false

/-- plenum/common/messages/fields.py:532-537, `SerializedValueField`. -/
def serializedF (nullable : Bool) : V
  | .none => .ok nullable
  | .str s => .ok (!(s.isEmpty && !nullable))
  | .bin s => .ok (!(s.isEmpty && !nullable))
  | _ => .ok false

/-- plenum/common/messages/fields.py:693-706, `ProtocolVersionField`, with
plenum/common/plenum_protocol_version.py. -/
def protocolF : V
  | .int n => .ok ([1, 2].contains n && n == 2)
  | _ => .ok false

/-- plenum/common/messages/fields.py:595-610, `StringifiedNonNegativeNumberField`. -/
def strNonNegF (env : Env) : V
  | .str s =>
    match env.intOf s with
    | some n => nonNegF (.int n)
    | none => .ok false
  | v => nonNegF v

/-- plenum/server/consensus/batch_id.py:12, `BatchID`: its fields. -/
def BID : List Bytes := [ascii "view_no", ascii "pp_view_no", ascii "pp_seq_no", ascii "pp_digest"]

/-- The fields of a batch id that is a dict, `BatchID(**val)`; `none`: a field is missing, a
`TypeError`. -/
def bidItems (d : Items) : Option (List Val) := BID.mapM (fun k => lookup d k)

/-- plenum/common/messages/fields.py:723-730, the loop of `BatchIDField._specific_validation`. -/
def bidCheck : List Val → Except Exc Bool
  | [a, b, c, e] => both (nonNegF a) (both (nonNegF b) (both (nonNegF c) (nonEmptyF e)))
  | _ => .ok false

/-- plenum/common/messages/fields.py:709-733, `BatchIDField`. -/
def batchIdF : V
  | .list l => bidCheck l
  | .dict d =>
    if d.length != 4 then .ok false
    else if d.any (fun e => !BID.contains e.1) then .ok false
    else match bidItems d with
      | some l => bidCheck l
      | none => .error .typeError
  | _ => .ok false

/-- plenum/common/messages/fields.py:736-748, `ViewChangeField`. -/
def viewChangeF : V
  | .list [frm, digest] => both (nonEmptyF frm) (limitedF 512 false digest)
  | _ => .ok false

/-- plenum/common/messages/fields.py:613-628, `LedgerInfoField`. -/
def ledgerInfoF (env : Env) : V
  | .list [id, size, root] => both (ledgerIdF env id) (both (nonNegF size) (merkleF root))
  | _ => .ok false

/-- plenum/common/messages/fields.py:631-665, `BlsMultiSignatureValueField`, with
crypto/bls/bls_multi_signature.py:15-44, `__init__`: `MultiSignatureValue(*val)` raises for any
other number of items and for items of the wrong types. -/
def multiSigValueF (env : Env) : V
  | .list [id, state, pool, txn, time] =>
    if (intVal id).isSome && isStr state && isStr pool && isStr txn && (intVal time).isSome then
      both (ledgerIdF env id) (both (merkleF state) (both (merkleF pool) (both (merkleF txn) (timestampF time))))
    else .error .typeError
  | .list _ => .error .typeError
  | _ => .ok false

/-- `len(participants) == 0`. -/
def someItem : V
  | .list [] => .ok false
  | _ => .ok true

/-- plenum/common/messages/fields.py:669-687, `BlsMultiSignatureField`:
`sig, participants, multi_sig_value = val` raises `ValueError` for any other number of items. -/
def multiSigF (env : Env) : V
  | .list [sig, parts, value] =>
    both (multiSigValueF env value) (both (limitedF 512 false sig) (both (iterF nonEmptyF parts) (someItem parts)))
  | .list _ => .error .valueError
  | _ => .ok false

/-- One line of a schema. -/
structure Line where
  name : Bytes
  optional : Bool
  field : V

abbrev Schema := List Line

/-- A field that must be there. -/
def req (name : String) (f : V) : Line := ⟨ascii name, false, f⟩

/-- `optional=True`. -/
def opt (name : String) (f : V) : Line := ⟨ascii name, true, f⟩

/-- `if validation_error: self._raise_invalid_fields(...)`:
plenum/common/messages/message_base.py:38-42. -/
def raiseIf : Except Exc Bool → Except Exc Unit
  | .ok true => .ok ()
  | .ok false => .error .typeError
  | .error x => .error x

/-- One item of the dict: plenum/common/messages/message_base.py:35-42. -/
def checkItem (s : Schema) (e : Bytes × Val) : Except Exc Unit :=
  match s.find? (fun l => l.name == e.1) with
  | none => .ok ()
  | some l => raiseIf (l.field e.2)

/-- A loop that an exception ends. -/
def forEach {α : Type} (f : α → Except Exc Unit) : List α → Except Exc Unit
  | [] => .ok ()
  | x :: l =>
    match f x with
    | .ok _ => forEach f l
    | .error e => .error e

/-- plenum/common/messages/message_base.py:28-44, `_validate_fields_with_schema`. -/
def validate (s : Schema) (d : Items) : Except Exc Unit :=
  if s.any (fun l => !l.optional && (lookup d l.name).isNone) then .error .typeError
  else forEach (checkItem s) d

/-- A `MessageValidator` as a field: plenum/common/messages/message_base.py:24-26, `validate`. It
raises what is wrong. `extra` is `_validate_message`. -/
def recordF (s : Schema) (extra : Items → Except Exc Unit := fun _ => .ok ()) : V
  | .dict d =>
    match validate s d with
    | .error e => .error e
    | .ok _ =>
      match extra d with
      | .error e => .error e
      | .ok _ => .ok true
  | _ => .error .typeError

/-! ### Requests of clients -/

/-- plenum/common/messages/client_request.py:26-36, `ClientNodeOperationData`. -/
def nodeData (env : Env) : Schema := [
  opt "node_ip" (ipF env), opt "node_port" portF, opt "client_ip" (ipF env), opt "client_port" portF,
  req "alias" (limitedF 256), opt "services" (iterF (chooseTupleF [ascii "VALIDATOR"])),
  opt "blskey" (base58F [128]), opt "blskey_pop" (base58F [128])]

/-- plenum/common/messages/client_request.py:38-43, `_validate_message`. -/
def nodeDataExtra (d : Items) : Except Exc Unit :=
  let have_ := [ascii "node_ip", ascii "node_port", ascii "client_ip", ascii "client_port"].filter
    (fun k => (lookup d k).isSome)
  if !have_.isEmpty && have_.length != 4 then .error .typeError else .ok ()

/-- plenum/common/messages/client_request.py:137-148, `operations`: the schema for each type of
transaction, with the classes of lines 46-129. -/
def operations (env : Env) : List (Bytes × Schema) := [
  (ascii "0", [req "type" (constF (ascii "0")), req "data" (recordF (nodeData env) nodeDataExtra),
    req "dest" identifierF, opt "verkey" verkeyF]),
  (ascii "1", [req "type" (constF (ascii "1")), opt "alias" (limitedF 256), opt "verkey" (orNull verkeyF),
    req "dest" identifierF, opt "role" roleF]),
  (ascii "3", [req "type" (constF (ascii "3")), opt "ledgerId" (ledgerIdF env), req "data" txnSeqNoF]),
  (ascii "4", [req "type" (constF (ascii "4")), opt "text" (limitedF 129024 true), req "version" (limitedF 256),
    opt "ratification_ts" nonNegF, opt "retirement_ts" nonNegF]),
  (ascii "8", [req "type" (constF (ascii "8"))]),
  (ascii "5", [req "type" (constF (ascii "5")), req "version" (limitedF 256), req "aml" anyMapF,
    opt "amlContext" (limitedF 129024)]),
  (ascii "6", [req "type" (constF (ascii "6")), opt "version" nonEmptyF, opt "digest" nonEmptyF,
    opt "timestamp" nonNegF]),
  (ascii "7", [req "type" (constF (ascii "7")), opt "version" nonEmptyF, opt "timestamp" nonNegF]),
  (ascii "9", [req "type" (constF (ascii "9")), req "ledgers_ids" (iterF integerF)]),
  (ascii "10", [req "type" (constF (ascii "10"))])]

/-- The schema of the type is used, if there is one: plenum/common/messages/client_request.py:162-166,
in `ClientOperationField.validate`. Looking up a list or a dict raises. -/
def operationOf (env : Env) (d : Items) : Val → Except Exc Bool
  | .none => .error .typeError
  | .list _ => .error .typeError
  | .dict _ => .error .typeError
  | .str t =>
    match (operations env).find? (fun e => e.1 == t) with
    | some e => recordF e.2 (fun _ => .ok ()) (.dict d)
    | none => .ok true
  | _ => .ok true

/-- plenum/common/messages/client_request.py:151-166, `validate`, of `ClientOperationField`. -/
def operationF (env : Env) : V
  | .dict d => operationOf env d (get d (ascii "type"))
  | _ => .error .typeError

/-- plenum/common/messages/client_request.py:170-178, `ClientTAAAcceptance`. -/
def taaAcceptance : Schema := [
  req "taaDigest" sha256F, req "mechanism" (limitedF 64), req "time" timestampF]

/-- plenum/common/messages/client_request.py:181-234, `ClientMessageValidator`. -/
def request (env : Env) : Schema := [
  opt "identifier" (orNull identifierF), req "reqId" nonNegF, req "operation" (operationF env),
  opt "signature" (signatureF 512), opt "digest" (limitedF 512), req "protocolVersion" protocolF,
  opt "taaAcceptance" (recordF taaAcceptance), opt "signatures" (orNull (mapF identifierF (signatureF 512))),
  opt "endorser" identifierF]

/-- `x in signatures`, where `signatures` is a dict that is not empty. -/
def signedBy (sigs x : Val) : Bool :=
  match sigs, x with
  | .dict d, .str s => (lookup d s).isSome
  | _, _ => false

/-- plenum/common/messages/client_request.py:213-234, the rest of
`ClientMessageValidator.validate`. -/
def requestExtra (d : Items) : Except Exc Unit :=
  let idr := get d (ascii "identifier")
  let sigs := get d (ascii "signatures")
  let sig := get d (ascii "signature")
  let endorser := get d (ascii "endorser")
  if truthy sigs && truthy sig then .error .typeError
  else if endorser != .none && (!truthy sigs || !signedBy sigs endorser) then .error .typeError
  else if endorser != .none && idr == .none then .error .typeError
  else if endorser != .none && (!truthy sigs || !signedBy sigs idr) then .error .typeError
  else if truthy idr && truthy sigs && !signedBy sigs idr then .error .typeError
  else if !(truthy idr || truthy sigs) then .error .typeError
  else .ok ()

/-- plenum/common/messages/client_request.py:181-234, `ClientMessageValidator`. -/
def requestF (env : Env) : V := recordF (request env) requestExtra

/-! ### Messages of nodes -/

/-- plenum/common/messages/node_messages.py:216-224, `Checkpoint`. -/
def checkpoint : Schema := [
  req "instId" nonNegF, req "viewNo" nonNegF, req "seqNoStart" nonNegF, req "seqNoEnd" nonNegF,
  req "digest" (orNull merkleF)]

/-- plenum/common/messages/node_messages.py:496-522, `BatchCommitted`. -/
def batchCommitted (env : Env) : Schema := [
  req "requests" (iterF (requestF env)), req "ledgerId" (ledgerIdF env), req "instId" nonNegF,
  req "viewNo" nonNegF, req "ppSeqNo" nonNegF, req "ppTime" timestampF, req "stateRootHash" merkleF,
  req "txnRootHash" merkleF, req "seqNoStart" nonNegF, req "seqNoEnd" nonNegF,
  req "auditTxnRootHash" (orNull merkleF), req "primaries" (iterF (limitedF 256)),
  req "nodeReg" (iterF (limitedF 256)), req "originalViewNo" nonNegF, req "digest" (limitedF 512)]

/-- plenum/common/messages/node_messages.py:118-145, `PrePrepare`. -/
def prePrepare (env : Env) : Schema := [
  req "instId" nonNegF, req "viewNo" nonNegF, req "ppSeqNo" nonNegF, req "ppTime" timestampF,
  req "reqIdr" (iterF (limitedF 512)), req "discarded" (serializedF true), req "digest" (limitedF 512),
  req "ledgerId" (ledgerIdF env), req "stateRootHash" (orNull merkleF), req "txnRootHash" (orNull merkleF),
  req "sub_seq_no" nonNegF, req "final" booleanF, opt "poolStateRootHash" (orNull merkleF),
  opt "auditTxnRootHash" (orNull merkleF), opt "blsMultiSig" (orNull (multiSigF env)),
  opt "blsMultiSigs" (iterF (orNull (multiSigF env))), opt "originalViewNo" (orNull nonNegF),
  opt "plugin_fields" (orNull anyMapF)]

/-- plenum/common/messages/node_messages.py:266-274, `ViewChange`. -/
def viewChange : Schema := [
  req "viewNo" nonNegF, req "stableCheckpoint" nonNegF, req "prepared" (iterF batchIdF),
  req "preprepared" (iterF batchIdF), req "checkpoints" (iterF anyF)]

/-- plenum/common/messages/node_messages.py:329-338, `NewView`; 256 is
plenum/common/constants.py:284, `GENERAL_LIMIT_SIZE`. -/
def newView : Schema := [
  req "viewNo" nonNegF, req "viewChanges" (iterF viewChangeF), req "checkpoint" anyF,
  req "batches" (iterF batchIdF), opt "primary" (limitedF 256)]

/-- plenum/common/messages/node_messages.py:464-465, `allowed_types`. -/
def requestable : List Bytes := [ascii "LEDGER_STATUS", ascii "CONSISTENCY_PROOF", ascii "PREPREPARE",
  ascii "PREPARE", ascii "COMMIT", ascii "PROPAGATE", ascii "VIEW_CHANGE", ascii "NEW_VIEW"]

/-- The classes of plenum/common/messages/node_messages.py by their type names, as
`MessageFactory` finds them (plenum/common/messages/node_message_factory.py:31-39,
`__get_message_classes`). -/
def classes (env : Env) : List (Bytes × Schema) := [
  (ascii "BATCH", [req "messages" (iterF (serializedF false)), req "signature" (signatureF 512)]),
  (ascii "BLACKLIST", [req "suspicionCode" anyF, req "nodeName" anyF]),
  (ascii "REQACK", [req "identifier" anyF, req "reqId" anyF]),
  (ascii "REQNACK", [req "identifier" anyF, req "reqId" anyF, req "reason" anyF, opt "code" integerF]),
  (ascii "REJECT", [req "identifier" anyF, req "reqId" anyF, req "reason" anyF, opt "code" (orNull integerF)]),
  (ascii "POOL_LEDGER_TXNS", [req "txn" anyF]),
  (ascii "ORDERED", [req "instId" nonNegF, req "viewNo" nonNegF, req "valid_reqIdr" (iterF (limitedF 512)),
    req "invalid_reqIdr" (iterF (limitedF 512)), req "ppSeqNo" nonNegF, req "ppTime" timestampF,
    req "ledgerId" (ledgerIdF env), req "stateRootHash" (orNull merkleF), req "txnRootHash" (orNull merkleF),
    req "auditTxnRootHash" (orNull merkleF), req "primaries" (iterF (limitedF 256)),
    req "nodeReg" (iterF (limitedF 256)), req "originalViewNo" nonNegF, req "digest" (limitedF 512),
    opt "plugin_fields" (orNull anyMapF)]),
  (ascii "PROPAGATE", [req "request" (requestF env), req "senderClient" (orNull (limitedF 256))]),
  (ascii "PREPREPARE", prePrepare env),
  (ascii "OLD_VIEW_PREPREPARE_REQ", [req "instId" nonNegF, req "batch_ids" (iterF batchIdF)]),
  (ascii "OLD_VIEW_PREPREPARE_REP", [req "instId" nonNegF, req "preprepares" (iterF anyF)]),
  (ascii "PREPARE", [req "instId" nonNegF, req "viewNo" nonNegF, req "ppSeqNo" nonNegF, req "ppTime" timestampF,
    req "digest" (limitedF 512), req "stateRootHash" (orNull merkleF), req "txnRootHash" (orNull merkleF),
    opt "auditTxnRootHash" (orNull merkleF), opt "plugin_fields" (orNull anyMapF)]),
  (ascii "COMMIT", [req "instId" nonNegF, req "viewNo" nonNegF, req "ppSeqNo" nonNegF,
    opt "blsSig" (limitedF 512), opt "blsSigs" (mapF (strNonNegF env) (limitedF 512)),
    opt "plugin_fields" (orNull anyMapF)]),
  (ascii "CHECKPOINT", checkpoint),
  (ascii "REPLY", [req "result" anyF]),
  (ascii "INSTANCE_CHANGE", [req "viewNo" nonNegF, req "reason" nonNegF]),
  (ascii "BACKUP_INSTANCE_FAULTY", [req "viewNo" nonNegF, req "instancesIdr" (iterF nonNegF), req "reason" nonNegF]),
  (ascii "VIEW_CHANGE", viewChange),
  (ascii "VIEW_CHANGE_ACK", [req "viewNo" nonNegF, req "name" (limitedF 256), req "digest" (limitedF 512)]),
  (ascii "NEW_VIEW", newView),
  (ascii "LEDGER_STATUS", [req "ledgerId" (ledgerIdF env), req "txnSeqNo" nonNegF, req "viewNo" (orNull nonNegF),
    req "ppSeqNo" (orNull nonNegF), req "merkleRoot" merkleF, req "protocolVersion" protocolF]),
  (ascii "CONSISTENCY_PROOF", [req "ledgerId" (ledgerIdF env), req "seqNoStart" nonNegF, req "seqNoEnd" nonNegF,
    req "viewNo" nonNegF, req "ppSeqNo" nonNegF, req "oldMerkleRoot" merkleF, req "newMerkleRoot" merkleF,
    req "hashes" (iterF (limitedF 256))]),
  (ascii "CATCHUP_REQ", [req "ledgerId" (ledgerIdF env), req "seqNoStart" nonNegF, req "seqNoEnd" nonNegF,
    req "catchupTill" nonNegF]),
  (ascii "CATCHUP_REP", [req "ledgerId" (ledgerIdF env), req "txns" anyF, req "consProof" (iterF (base58F [32]))]),
  (ascii "VIEW_CHANGE_DONE", [req "viewNo" nonNegF, req "name" (orNull (limitedF 256)),
    req "ledgerInfo" (iterF (ledgerInfoF env))]),
  (ascii "CURRENT_STATE", [req "viewNo" nonNegF, req "primary" (iterF anyF)]),
  (ascii "MESSAGE_REQUEST", [req "msg_type" (chooseSetF requestable), req "params" anyMapF]),
  (ascii "MESSAGE_RESPONSE", [req "msg_type" (chooseSetF requestable), req "params" anyMapF, req "msg" anyF]),
  (ascii "BATCH_COMMITTED", batchCommitted env),
  (ascii "OBSERVED_DATA", [req "msg_type" (chooseSetF [ascii "BATCH"]), req "msg" anyF]),
  (ascii "ViewChangeStart", [req "proposed_view_no" integerF]),
  (ascii "ViewChangeContinue", [req "proposed_view_no" integerF])]

/-- A message: its class and its fields, in the order of the schema. -/
structure Msg where
  op : Bytes
  fields : Items
deriving DecidableEq, Repr

/-- The fields that are kept: plenum/common/messages/message_base.py:105-108, in `__init__`. -/
def pick (s : Schema) (d : Items) : Items :=
  s.filterMap (fun l => (lookup d l.name).map (fun v => (l.name, v)))

/-- `cls(**d)` raises `TypeError` when `d` has a key `self`. -/
def hasSelf (d : Items) : Bool := (lookup d (ascii "self")).isSome

/-- plenum/common/messages/message_base.py:83-109, `__init__`, of a class that adds nothing to
it, with keyword arguments. The `op` field is dropped. -/
def construct (op : Bytes) (s : Schema) (d : Items) : Except Exc Msg :=
  if hasSelf d then .error .typeError
  else
    match validate s (withoutOp d) with
    | .error e => .error e
    | .ok _ => .ok ⟨op, pick s (withoutOp d)⟩

/-- plenum/common/messages/node_messages.py:538-549, `_validate_message`, of `ObservedData`. -/
def observedExtra (env : Env) (d : Items) : Except Exc Unit :=
  match get d (ascii "msg") with
  | .dict m =>
    match construct (ascii "BATCH_COMMITTED") (batchCommitted env) m with
    | .ok _ => .ok ()
    | .error e => .error e
  | _ => .error .typeError

/-- plenum/common/messages/node_messages.py:148-163, `_post_process`, of `PrePrepare`: `sig[0]`
raises for a `None` in `blsMultiSigs`. The items have been validated, so nothing else raises. -/
def prePrepareExtra (d : Items) : Except Exc Unit :=
  match get d (ascii "blsMultiSigs") with
  | .list l => if l.contains .none then .error .typeError else .ok ()
  | _ => .ok ()

/-- The checkpoint that a value of a message stands for, `Checkpoint(**chk)`; other values are
left alone. -/
def checkpointOf (v : Val) : Except Exc Unit :=
  match v with
  | .dict c =>
    match construct (ascii "CHECKPOINT") checkpoint c with
    | .ok _ => .ok ()
    | .error e => .error e
  | _ => .ok ()

/-- The items of a list, none for other values. -/
def itemsOf : Val → List Val
  | .list l => l
  | _ => []

/-- What the classes do beyond `MessageBase.__init__` that may raise:
plenum/common/messages/node_messages.py:276-284, in `ViewChange.__init__`, and 340-343, in
`NewView.__init__`. The batch ids that are made of dicts there were validated, and raise
nothing. -/
def extra (env : Env) (op : Bytes) (d : Items) : Except Exc Unit :=
  if op == ascii "OBSERVED_DATA" then observedExtra env d
  else if op == ascii "PREPREPARE" then prePrepareExtra d
  else if op == ascii "VIEW_CHANGE" then forEach checkpointOf (itemsOf (get d (ascii "checkpoints")))
  else if op == ascii "NEW_VIEW" then checkpointOf (get d (ascii "checkpoint"))
  else .ok ()

/-- The constructor of a class, with keyword arguments. -/
def build (env : Env) (op : Bytes) (d : Items) : Except Exc Msg :=
  match (classes env).find? (fun c => c.1 == op) with
  | none => .error .typeError
  | some c =>
    match construct op c.2 d with
    | .error e => .error e
    | .ok m =>
      match extra env op m.fields with
      | .error e => .error e
      | .ok _ => .ok m

/-! ### Messages as dicts -/

/-- `result[k] = v`. -/
def setItem (d : Items) (k : Bytes) (v : Val) : Items := d.map (fun e => if e.1 == k then (k, v) else e)

/-- plenum/common/messages/message_base.py:136-144, `__dict__`. -/
def baseDict (m : Msg) : Items := (OP, .str m.op) :: m.fields

/-- `Checkpoint(**chk)._asdict()`. -/
def checkpointDict (c : Items) : Val := .dict (baseDict ⟨ascii "CHECKPOINT", pick checkpoint (withoutOp c)⟩)

/-- `BatchID(**bid)._asdict()`. -/
def bidDict (d : Items) : Val := .dict (BID.map (fun k => (k, get d k)))

/-- The dicts in a list. -/
def dictsOf (l : List Val) : List Items :=
  l.filterMap (fun v => match v with | .dict d => some d | _ => none)

/-- A list of batch ids: when the first is a dict, the dicts are kept as batch ids and written
out again. plenum/common/messages/node_messages.py:286-297, in `ViewChange.__init__`, and
309-317, in its `_asdict`. -/
def bidsDict (v : Val) : Val :=
  match v with
  | .list (.dict d :: l) => .list ((d :: dictsOf l).map bidDict)
  | v => v

/-- plenum/common/messages/node_messages.py:278-284 and 301-307: the checkpoints of a VIEW_CHANGE.
When there are dicts among them, only those are kept; otherwise nothing is changed, and
`chk._asdict()` raises for each. -/
def checkpointsDict (v : Val) : Except Exc Val :=
  match v with
  | .list l =>
    if !(dictsOf l).isEmpty then .ok (.list ((dictsOf l).map checkpointDict))
    else if l.isEmpty then .ok v
    else .error .attributeError
  | v => .ok v

/-- plenum/common/messages/node_messages.py:298-317, `_asdict`, of `ViewChange`. -/
def viewChangeDict (m : Msg) : Except Exc Items :=
  match checkpointsDict (get m.fields (ascii "checkpoints")) with
  | .error e => .error e
  | .ok c =>
    let d := setItem (baseDict m) (ascii "checkpoints") c
    let d := setItem d (ascii "prepared") (bidsDict (get m.fields (ascii "prepared")))
    .ok (setItem d (ascii "preprepared") (bidsDict (get m.fields (ascii "preprepared"))))

/-- plenum/common/messages/node_messages.py:340-363, `_asdict`, of `NewView`, with the end of
`__init__`. -/
def newViewDict (m : Msg) : Except Exc Items :=
  match get m.fields (ascii "checkpoint") with
  | .dict c =>
    let d := setItem (baseDict m) (ascii "checkpoint") (checkpointDict c)
    .ok (setItem d (ascii "batches") (bidsDict (get m.fields (ascii "batches"))))
  | _ => .error .attributeError

/-- `_asdict`. -/
def asDict (m : Msg) : Except Exc Items :=
  if m.op == ascii "VIEW_CHANGE" then viewChangeDict m
  else if m.op == ascii "NEW_VIEW" then newViewDict m
  else .ok (baseDict m)

end Verif.Schema
