import Verif.Model.ClientAuth
/-!
# What it means that a request is properly signed
-/
namespace Verif.Spec.Auth
open Verif Verif.Auth Verif.Signing

/-- The key by which signatures of `idr` on `msg` are checked: that of the known
client, that recorded in the state, or, for an unknown identifier, the key in a
request (of type `NYM`) that creates the identity of its own sender. -/
inductive KeyOf (env : Env) (msg : Obj) (idr : Bytes) (key : Val) : Prop
  | client : env.clients.get? idr = some key → KeyOf env msg idr key
  | ledger : env.clients.get? idr = none → env.nym idr = some key → KeyOf env msg idr key
  | self (op : Obj) (sender : Val) : env.clients.get? idr = none → env.nym idr = none →
      Dict.get? msg (ascii "operation") = some (.dict op) → Dict.get? op (ascii "type") = some (.str (ascii "1")) →
      Dict.get? msg (ascii "identifier") = some sender → (Dict.get? op (ascii "dest")).getD .none = sender →
      Dict.get? op (ascii "verkey") = some key → KeyOf env msg idr key

/-- The signature text of an identifier is correct for a message: it decodes, the
identifier has a key, and the key verifies it over the signing form of the message. -/
def Good (env : Env) (msg : Obj) (idr : Bytes) (sig : Val) : Prop :=
  ∃ raw bytes key, env.b58decode sig = some raw ∧ ser env.floatStr (.dict msg) = some bytes ∧
    KeyOf env msg idr key ∧ key ≠ .none ∧ env.verify key idr raw bytes = some true

/-- What of a request is signed: all but the signatures and fees. -/
def signedPart (req : Obj) : Obj :=
  req.filter (fun e => decide (e.1 ≠ ascii "signature" ∧ e.1 ≠ ascii "signatures" ∧ e.1 ≠ ascii "fees"))

/-- The request has an identifier and a signature that are not empty. -/
def SingleSigned (req : Obj) : Prop :=
  truthy (Dict.get? req (ascii "identifier")) = true ∧ truthy (Dict.get? req (ascii "signature")) = true

/-- The signatures a request carries: its one signature by its identifier if it has both,
otherwise all its `signatures`. -/
inductive Carries (req : Obj) : List (Bytes × Val) → Prop
  | one (i : Bytes) (s : Val) : SingleSigned req → Dict.get? req (ascii "identifier") = some (.str i) →
      Dict.get? req (ascii "signature") = some s → Carries req [(i, s)]
  | many (d : Obj) : ¬ SingleSigned req → Dict.get? req (ascii "signatures") = some (.dict d) → Carries req d

/-- A request was accepted by the authenticators `as` on its own signatures, with the
signers `ids`: each of them that deals with such requests gave part of `ids`. -/
def Accepted (as : List Authnr) (req : Obj) (ids : List Bytes) : Prop :=
  ids ≠ [] ∧ ∃ rvs : List (List Bytes), ids = rvs.flatten ∧
    (as.filter (fun a => a.isWrite (reqType req) || a.isAction (reqType req))).map (fun a => a.authenticate req) =
      rvs.map Except.ok

/-- Some authenticator takes the request for a query. -/
def Query (as : List Authnr) (req : Obj) : Prop := ∃ a ∈ as, a.isQuery (reqType req) = true

end Verif.Spec.Auth
