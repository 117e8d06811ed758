import Verif.Model.PruningState
import Verif.Model.PyVal
/-!
# Replies to read requests, with their proofs

`plenum/server/request_handlers/handler_interfaces/read_request_handler.py`, the handlers of
GET_TXN_AUTHOR_AGREEMENT, GET_TXN_AUTHOR_AGREEMENT_AML, GET_FROZEN_LEDGERS and GET_TXN, and the
store of multi-signatures `plenum/bls/bls_store.py`.

Simplified: a reply holds the bytes found in the state instead of the value, sequence number and
time that `decode_state_value` reads from them. A root is its bytes; the code uses their base58
form as the key of the multi-signatures.
-/
namespace Verif.Read
open Verif.Rlp Verif.Trie

variable (H : Bytes → Bytes)

/-- What a multi-signature signs, with the rest of it.
Models crypto/bls/bls_multi_signature.py:10-33, `MultiSignatureValue`. -/
structure Sig where
  ledgerId : Nat
  stateRoot : Bytes
  txnRoot : Bytes
  signature : Bytes
deriving DecidableEq, Repr

/-- The store. -/
abbrev Store := Dict Bytes Sig

/-- plenum/bls/bls_store.py:22-27, `put`. -/
def Store.put (st : Store) (sig : Sig) : Store := st.set sig.stateRoot sig

/-- plenum/bls/bls_store.py:29-36, `get`. -/
def Store.sig (st : Store) (root : Bytes) : Option Sig := st.get? root

/-- `proof` in plenum/server/request_handlers/handler_interfaces/read_request_handler.py:54-58. -/
structure Proof where
  root : Bytes
  sig : Sig
  nodes : Bytes
deriving DecidableEq, Repr

/-- `except KeyError`. -/
def catchKey {α : Type} (m : M α) (x : α) : M α := fun w =>
  match m w with
  | (.error .key, w') => (.ok x, w')
  | r => r

/-- `value = self.state.get_decoded(value) if value else value`. -/
def decodeFound : Option Item → M (Option Bytes)
  | none => pure none
  | some v => decodeValue v

/-- `head_hash if head_hash else self.state.committedHeadHash`. -/
def rootFor : Option Bytes → M Bytes
  | some (b :: l) => pure (b :: l)
  | _ => committedHeadHash

/-- The `else` branch of `_get_value_from_state`: the value with its proof.
Models plenum/server/request_handlers/handler_interfaces/read_request_handler.py:47-60. -/
def proveValue (path rootHash : Bytes) (sig : Sig) : M (Option Bytes × Option Proof) := do
  let node ← hashToNode H rootHash
  let (ns, v) ← generateStateProof node path
  let bytes ← lift (serializeProof ns)
  let value ← decodeFound v
  pure (value, some ⟨rootHash, sig, bytes⟩)

/-- Models plenum/server/request_handlers/handler_interfaces/read_request_handler.py:24-61,
`_get_value_from_state`, with `with_proof`. -/
def getValue (st : Store) (path : Bytes) (head : Option Bytes) : M (Option Bytes × Option Proof) := do
  let root ← rootFor head
  match st.sig root with
  | none => catchKey (do pure (← getForRootHash H root path, none)) (none, none)
  | some sig => catchKey (proveValue H path root sig) (none, none)

/-- What a client gets. -/
structure Reply where
  data : Option Bytes
  proof : Option Proof
deriving DecidableEq, Repr

/-- Models plenum/server/request_handlers/handler_interfaces/read_request_handler.py:80-95,
`make_result`: `support` says whether the request has a protocol version, at least 1. -/
def makeResult (support : Bool) (data : Option Bytes) (proof : Option Proof) : Reply :=
  ⟨data, if support then proof else none⟩

/-! ## The acceptance mechanisms -/

/-- plenum/server/request_handlers/static_taa_helper.py:33-35, `state_path_taa_aml_latest`. -/
def amlLatest : Bytes := ascii "3:latest"

/-- plenum/server/request_handlers/static_taa_helper.py:37-39, `state_path_taa_aml_version`. -/
def amlVersion (v : Bytes) : Bytes := ascii "3:v:" ++ v

/-- The parameters of the two requests about author agreements. -/
structure Query where
  version : Option Bytes := none
  digest : Option Bytes := none
  timestamp : Option Int := none

/-- Models plenum/server/request_handlers/get_txn_author_agreement_aml_handler.py:26-45,
`get_result`; `ts` is `get_equal_or_prev` for the config ledger. -/
def getAml (st : Store) (ts : Int → Option Bytes) (support : Bool) (q : Query) : M Reply :=
  match q.version, q.timestamp with
  | some v, _ => do
    let (data, proof) ← getValue H st (amlVersion v) none
    pure (makeResult support data proof)
  | none, some t =>
    match ts t with
    | none => pure (makeResult support none none)
    | some h => do
      let (data, proof) ← getValue H st amlLatest (some h)
      pure (makeResult support data proof)
  | none, none => do
    let (data, proof) ← getValue H st amlLatest none
    pure (makeResult support data proof)

/-! ## The frozen ledgers -/

/-- plenum/server/request_handlers/ledgers_freeze/ledger_freeze_helper.py:14-15,
`make_state_path_for_frozen_ledgers`. -/
def frozenPath : Bytes := ascii "4:FROZEN_LEDGERS"

/-- Models plenum/server/request_handlers/ledgers_freeze/get_frozen_ledgers_handler.py:16-28,
`get_result`, with plenum/server/request_handlers/handler_interfaces/read_request_handler.py:63-78,
`lookup`: bytes that are empty count as no data. -/
def getFrozen (st : Store) (support : Bool) : M Reply :=
  catchKey (do
    let head ← committedHeadHash
    let (enc, proof) ← getValue H st frozenPath (some head)
    pure (makeResult support (if enc = some [] then none else enc) proof))
    (makeResult support none none)

/-! ## The author agreement -/

/-- plenum/server/request_handlers/static_taa_helper.py:15-17, `state_path_taa_latest`. -/
def taaLatest : Bytes := ascii "2:latest"

/-- plenum/server/request_handlers/static_taa_helper.py:20-22, `state_path_taa_version`. -/
def taaVersion (v : Bytes) : Bytes := ascii "2:v:" ++ v

/-- plenum/server/request_handlers/static_taa_helper.py:25-27, `state_path_taa_digest`. -/
def taaDigest (d : Bytes) : Bytes := ascii "2:d:" ++ d

/-- Models plenum/server/request_handlers/get_txn_author_agreement_handler.py:57-66,
`_return_txn_author_agreement`, for a digest. -/
def returnByDigest (support : Bool) (proof : Option Proof) (head : Option Bytes) (digest : Option Bytes) : M Reply :=
  match digest with
  | none => pure (makeResult support none proof)
  | some d => do
    let root ← rootFor head
    let data ← getForRootHash H root (taaDigest d)
    pure (makeResult support data proof)

/-- Models plenum/server/request_handlers/get_txn_author_agreement_handler.py:30-55,
`get_result`. -/
def getTaa (st : Store) (ts : Int → Option Bytes) (support : Bool) (q : Query) : M Reply :=
  match q.version, q.digest, q.timestamp with
  | some v, _, _ => do
    let (digest, proof) ← getValue H st (taaVersion v) none
    returnByDigest H support proof none digest
  | none, some d, _ => do
    let (data, proof) ← getValue H st (taaDigest d) none
    pure (makeResult support data proof)
  | none, none, some t =>
    match ts t with
    | none => pure (makeResult support none none)
    | some h => do
      let (digest, proof) ← getValue H st taaLatest (some h)
      returnByDigest H support proof (some h) digest
  | none, none, none => do
    let (digest, proof) ← getValue H st taaLatest none
    returnByDigest H support proof none digest

/-! ## Transactions -/

/-- What GET_TXN finds: the transaction with its audit path, and the multi-signature put beside it. -/
structure TxnReply where
  txn : Option Bytes
  sig : Option Sig
deriving DecidableEq, Repr

/-- The loop over the audit ledger, from the end: the first state root of the ledger.
Models plenum/server/request_handlers/get_txn_handler.py:47-53. -/
def lastRoot (ledgerId : Nat) : List (Dict Nat Bytes) → Option Bytes
  | [] => none
  | t :: ts => match lastRoot ledgerId ts with
    | some r => some r
    | none => match t.get? ledgerId with
      | some [] => none
      | r => r

/-- Models plenum/server/request_handlers/get_txn_handler.py:35-78, `get_result`, for a ledger the
node has: `txns` are its transactions, `audit` the state roots in the audit transactions. -/
def getTxn (st : Store) (txns : List Bytes) (audit : List (Dict Nat Bytes)) (ledgerId seqNo : Nat) : TxnReply :=
  match seqNo with
  | 0 => ⟨none, none⟩
  | n + 1 => match txns[n]? with
    | none => ⟨none, none⟩
    | some t => ⟨some t, (lastRoot ledgerId audit).bind st.sig⟩

/-! ## The order of answers -/

/-- At most one parameter. A parameter that is null counts as absent here.
Models plenum/server/request_handlers/get_txn_author_agreement_handler.py:18-28,
`static_validation`. -/
def taaValid (q : Query) : Bool :=
  decide ((if q.version.isSome then 1 else 0) + (if q.digest.isSome then 1 else 0) +
    (if q.timestamp.isSome then 1 else 0) ≤ 1)

/-- What is sent to a client. -/
inductive Answer where
  | ack
  | nack
  | reply (r : Reply)
deriving DecidableEq, Repr

/-- Models plenum/server/node.py:2074-2083, `process_query`, for GET_TXN_AUTHOR_AGREEMENT. -/
def processQuery (st : Store) (ts : Int → Option Bytes) (support : Bool) (q : Query) : M (List Answer) := do
  let first := if taaValid q then Answer.ack else .nack
  let r ← getTaa H st ts support q
  pure [first, .reply r]

end Verif.Read
