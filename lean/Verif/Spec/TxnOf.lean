import Verif.Model.TxnOf
import Verif.Spec.ClientAuth
/-!
# What a reader of the ledger takes from a transaction

Written from the format of transactions, not from the code that makes them: who has a
transaction, and nothing else, puts the request together again.
-/
namespace Verif.Spec.TxnOf
open Verif Verif.Signing
open Verif.Auth (Obj)

/-- What is found in a value at some keys. -/
def look : Val → List String → Option Val
  | v, [] => some v
  | .dict d, k :: ks => match Dict.get? d (ascii k) with
    | some w => look w ks
    | none => none
  | _, _ :: _ => none

/-- The entry at a place in a transaction; a missing one and `None` are the same. -/
def entry (txn : Obj) (ks : List String) : Option Val :=
  match look (.dict txn) ks with
  | some .none => none
  | x => x

/-- A text, if it is one. -/
def text : Option Val → Option Bytes
  | some (.str s) => some s
  | _ => none
/-- A number, if it is one. -/
def number : Option Val → Option Int
  | some (.int n) => some n
  | _ => none

/-- A signature of a transaction: who signed, if it says so, and the signature. -/
def signatureOf : Val → Option (Option Bytes × Bytes)
  | .dict d => match Dict.get? d (ascii "from"), Dict.get? d (ascii "value") with
    | f, some (.str s) => some (text f, s)
    | _, _ => none
  | _ => none

/-- All signatures of a transaction. -/
def signatures (txn : Obj) : List (Option Bytes × Bytes) :=
  match entry txn ["reqSignature", "values"] with
  | some (.list l) => l.filterMap signatureOf
  | _ => []

/-- The signatures that say who signed. -/
def named (l : List (Option Bytes × Bytes)) : List (Bytes × Bytes) :=
  l.filterMap (fun e => e.1.map (fun i => (i, e.2)))

/-- The request of a transaction. Its operation is the type, the version if there is
one, and the data. -/
def recover (txn : Obj) : Option Request :=
  match entry txn ["txn", "type"], entry txn ["txn", "data"], entry txn ["txn", "metadata", "reqId"] with
  | some typ, some (.dict data), some (.int n) => some {
      identifier := text (entry txn ["txn", "metadata", "from"])
      reqId := n
      operation := .dict ((ascii "type", typ) :: (field "ver" (entry txn ["txn", "ver"]) ++ data))
      signatures := some (named (signatures txn))
      protocolVersion := number (entry txn ["txn", "protocolVersion"])
      taaAcceptance := entry txn ["txn", "metadata", "taaAcceptance"]
      endorser := text (entry txn ["txn", "metadata", "endorser"]) }
  | _, _, _ => none

/-- A request as the schema lets it through: its operation has a type, no key is given
twice, `None` is not given for what may be left out, the protocol version is not 0, the
identifier is not empty, and there is one signature, with an identifier, or `signatures`. -/
structure Proper (r : Request) (op : Obj) (typ : Val) : Prop where
  operation : r.operation = .dict op
  keys : op.keys.Nodup
  type : Dict.get? op (ascii "type") = some typ
  typed : typ ≠ .none
  acceptance : r.taaAcceptance ≠ some .none
  protocol : r.protocolVersion ≠ some 0
  nonempty : r.identifier ≠ some []
  signer : r.identifier = none → r.signature = none
  oneKind : r.signature = none ∨ r.signatures = none
  signers : ∀ d, r.signatures = some d → (d.map Prod.fst).Nodup

/-- The version of the payload is said by the request itself, or is the first one. -/
def VersionSaid (op : Obj) (typ : Val) : Prop :=
  (∃ v, Dict.get? op (ascii "ver") = some v ∧ v ≠ .none) ∨
  (Dict.get? op (ascii "ver") = none ∧ typ ≠ .str (ascii "4"))

end Verif.Spec.TxnOf
