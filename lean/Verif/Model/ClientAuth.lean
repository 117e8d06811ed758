import Verif.Model.Signing
import Verif.Model.Dict
/-!
# Authentication of client requests

`NaclAuthNr`, `SimpleAuthNr` and `CoreAuthMixin` of plenum/server/client_authn.py and
`ReqAuthenticator` of plenum/server/req_authenticator.py. Base58, the signature check
and the records of identities in the domain state are parameters. Identifiers are
texts, as the schema of client requests demands.
-/
namespace Verif.Auth
open Verif Verif.Signing

/-- The exceptions. -/
inductive Err where
  | insufficientSignatures
  | invalidSignatureFormat
  | couldNotAuthenticate
  | insufficientCorrectSignatures
  | missingSignature
  | noAuthenticatorFound
  /-- `serialize_msg_for_signing` refuses the message -/
  | notSerializable
  /-- the constructor of the verifier raises -/
  | invalidKey
  /-- `KeyError`, `TypeError` -/
  | malformed
deriving Repr, DecidableEq

/-- What the code uses from elsewhere. -/
structure Env where
  /-- `base58.b58decode`; `none`: it raises -/
  b58decode : Val → Option Bytes
  floatStr : UInt64 → Bytes
  /-- `self.clients`, only the verification keys -/
  clients : Dict Bytes Val
  /-- plenum/server/request_handlers/utils.py:30-35, `get_nym_details` on the
  uncommitted domain state, only the verification key; `none`: no record -/
  nym : Bytes → Option Val
  /-- `verifier(verkey, identifier).verify(signature, message)`; `none`: the
  constructor raises -/
  verify : Val → Bytes → Bytes → Bytes → Option Bool

/-- A dict with text keys. -/
abbrev Obj := Dict Bytes Val

/-- `d[k]` where `d` should be a dict. -/
def item? (v : Val) (k : Bytes) : Option Val :=
  match v with
  | .dict d => Dict.get? d k
  | _ => none

/-- plenum/server/client_authn.py:186-192, `nym_specific_auth`, with
plenum/server/request_handlers/utils.py:62-63, `nym_ident_is_dest`, and
plenum/server/request_handlers/utils.py:66-67, `get_target_verkey`. -/
def nymSpecificAuth (msg : Obj) : Except Err Val :=
  match Dict.get? msg (ascii "identifier"), Dict.get? msg (ascii "operation") with
  | some idr, some (.dict op) =>
    if idr = (Dict.get? op (ascii "dest")).getD .none then .ok ((Dict.get? op (ascii "verkey")).getD .none)
    else .ok .none
  | _, _ => .error .malformed

/-- plenum/server/client_authn.py:178-184, `get_verkey_specific`. Only `NYM` has its own
rule. -/
def getVerkeySpecific (msg : Obj) : Except Err Val :=
  match Dict.get? msg (ascii "operation") with
  | some (.dict op) =>
    match Dict.get? op (ascii "type") with
    | some t => if t = .str (ascii "1") then nymSpecificAuth msg else .ok .none
    | none => .error .malformed
  | _ => .error .malformed

/-- plenum/server/client_authn.py:154-168, `getVerkey`. -/
def getVerkey (env : Env) (ident : Bytes) (msg : Obj) : Except Err Val :=
  match env.clients.get? ident with
  | some k => .ok k
  | none => match env.nym ident with
    | some k => .ok k
    | none => getVerkeySpecific msg

/-- One signature, plenum/server/client_authn.py:98-111: is it correct? -/
def checkOne (env : Env) (msg : Obj) (idr : Bytes) (sig : Val) : Except Err Bool :=
  match env.b58decode sig with
  | none => .error .invalidSignatureFormat
  | some raw =>
    match serializeMsgForSigning env.floatStr (.dict msg) [] with
    | none => .error .notSerializable
    | some ser =>
      match getVerkey env idr msg with
      | .error e => .error e
      | .ok .none => .error .couldNotAuthenticate
      | .ok key =>
        match env.verify key idr raw ser with
        | none => .error .invalidKey
        | some b => .ok b

/-- The loop, plenum/server/client_authn.py:97-117, with the correct signers so far. -/
def authLoop (env : Env) (msg : Obj) (threshold : Nat) : List (Bytes × Val) → List Bytes → Except Err (List Bytes)
  | [], _ => .error .insufficientCorrectSignatures
  | (idr, sig) :: rest, ok =>
    match checkOne env msg idr sig with
    | .error e => .error e
    | .ok true =>
      if (ok ++ [idr]).length = threshold then .ok (ok ++ [idr]) else authLoop env msg threshold rest (ok ++ [idr])
    | .ok false => authLoop env msg threshold rest ok

/-- plenum/server/client_authn.py:84-118, `authenticate_multi`. -/
def authenticateMulti (env : Env) (msg : Obj) (sigs : List (Bytes × Val)) (threshold : Option Nat) :
    Except Err (List Bytes) :=
  match threshold with
  | some t => if sigs.length < t then .error .insufficientSignatures else authLoop env msg t sigs []
  | none => authLoop env msg sigs.length sigs []

/-- `bool(d.get(k))` for a text. -/
def truthy : Option Val → Bool
  | none => false
  | some .none => false
  | some (.str s) => !s.isEmpty
  | some (.bool b) => b
  | some (.int n) => n ≠ 0
  | some (.list l) => !l.isEmpty
  | some (.dict d) => !d.isEmpty
  | some (.bin s) => !s.isEmpty
  | some (.float f) => f ≠ 0

/-- `d.get(k) is None`. -/
def absent (v : Option Val) : Bool := v = none || v = some .none

/-- plenum/server/client_authn.py:201. -/
def excluded : List Bytes := [ascii "signature", ascii "signatures", ascii "fees"]

/-- `to_serialize`, plenum/server/client_authn.py:243-244. -/
def toSerialize (req : Obj) : Obj := req.filter (fun e => !excluded.contains e.1)

/-- The signatures to check, plenum/server/client_authn.py:249-267. -/
def signaturesOf (req : Obj) : Except Err (List (Bytes × Val)) :=
  if truthy (Dict.get? req (ascii "identifier")) && truthy (Dict.get? req (ascii "signature")) then
    match Dict.get? req (ascii "identifier"), Dict.get? req (ascii "signature") with
    | some (.str i), some s => .ok [(i, s)]
    | _, _ => .error .malformed
  else
    match Dict.get? req (ascii "signatures") with
    | some (.dict d) => .ok d
    | _ => .error .malformed

/-- plenum/server/client_authn.py:230-266, `authenticate`, called with the request
only. -/
def coreAuthenticate (env : Env) (req : Obj) : Except Err (List Bytes) :=
  if absent (Dict.get? req (ascii "signature")) && absent (Dict.get? req (ascii "signatures")) then
    .error .missingSignature
  else
    match signaturesOf req with
    | .error e => .error e
    | .ok sigs => authenticateMulti env (toSerialize req) sigs none

/-! ## All registered authenticators -/

/-- A registered authenticator: `is_query`, `is_write`, `is_action` and `authenticate`. -/
structure Authnr where
  isQuery : Val → Bool
  isWrite : Val → Bool
  isAction : Val → Bool
  authenticate : Obj → Except Err (List Bytes)

/-- `CoreAuthNr`, plenum/server/client_authn.py:276-279. -/
def coreAuthnr (env : Env) (writes queries actions : List Val) : Authnr :=
  ⟨fun t => t ∈ queries, fun t => t ∈ writes, fun t => t ∈ actions, coreAuthenticate env⟩

/-- `typ`, plenum/server/req_authenticator.py:33. -/
def reqType (req : Obj) : Val :=
  match Dict.get? req (ascii "operation") with
  | some v => (item? v (ascii "type")).getD .none
  | none => .none

/-- The loop, plenum/server/req_authenticator.py:37-43. `none`: a query. -/
def allAuth (typ : Val) (req : Obj) : List Authnr → List Bytes → Except Err (Option (List Bytes))
  | [], ids => .ok (some ids)
  | a :: rest, ids =>
    if a.isQuery typ then .ok none
    else if !(a.isWrite typ || a.isAction typ) then allAuth typ req rest ids
    else match a.authenticate req with
      | .error e => .error e
      | .ok rv => allAuth typ req rest (ids ++ rv)

/-- An entry of `_verified_reqs`. -/
structure Verified where
  signature : Val
  identifiers : List Bytes
deriving Repr, DecidableEq

/-- `req_data.get(f.SIG.nm)`. -/
def sigField (req : Obj) : Val := (Dict.get? req (ascii "signature")).getD .none

/-- plenum/server/req_authenticator.py:53-57, `_check_and_verify_existing_req`, giving
the entry. -/
def existing (cache : Dict Bytes Verified) (req : Obj) (key : Bytes) : Option Verified :=
  match cache.get? key with
  | some v => if sigField req = v.signature then some v else none
  | none => none

/-- `self._verified_reqs[key] = …`, plenum/server/req_authenticator.py:48-50. -/
def store (cache : Dict Bytes Verified) (req : Obj) (key : Option Bytes) (ids : List Bytes) : Dict Bytes Verified :=
  match key with
  | some k => cache.set k ⟨sigField req, ids⟩
  | none => cache

/-- The end of the method, plenum/server/req_authenticator.py:46-51, given the outcome
of the loop. The set of identifiers is a list, maybe with repetitions. -/
def finish (cache : Dict Bytes Verified) (req : Obj) (key : Option Bytes) :
    Except Err (Option (List Bytes)) → Except Err (List Bytes) × Dict Bytes Verified
  | .error e => (.error e, cache)
  | .ok none => (.ok [], cache)
  | .ok (some []) => (.error .noAuthenticatorFound, cache)
  | .ok (some (i :: r)) => (.ok (i :: r), store cache req key (i :: r))

/-- The part after the lookup, plenum/server/req_authenticator.py:37-51. -/
def fresh (authnrs : List Authnr) (cache : Dict Bytes Verified) (req : Obj) (key : Option Bytes) :
    Except Err (List Bytes) × Dict Bytes Verified :=
  finish cache req key (allAuth (reqType req) req authnrs [])

/-- plenum/server/req_authenticator.py:23-51, `authenticate`. An empty key counts as
none. -/
def authenticate (authnrs : List Authnr) (cache : Dict Bytes Verified) (req : Obj) (key : Option Bytes) :
    Except Err (List Bytes) × Dict Bytes Verified :=
  match key with
  | some (c :: k) =>
    match existing cache req (c :: k) with
    | some v => (.ok v.identifiers, cache)
    | none => fresh authnrs cache req (some (c :: k))
  | _ => fresh authnrs cache req none

/-- What happens to a `ReqAuthenticator`. The authenticators are given anew with each
call, since the identities they know change over time. -/
inductive Event where
  | authenticate (authnrs : List Authnr) (req : Obj) (key : Option Bytes)
  /-- plenum/server/req_authenticator.py:70-72, `clean_from_verified` -/
  | clean (key : Bytes)

/-- One event on the cache. -/
def step (cache : Dict Bytes Verified) : Event → Dict Bytes Verified
  | .authenticate as req key => (authenticate as cache req key).2
  | .clean key => cache.erase key

/-- The cache after a history. -/
def run (h : List Event) : Dict Bytes Verified := h.foldl step []

end Verif.Auth
