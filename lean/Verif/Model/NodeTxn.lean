import Verif.Model.PyVal
import Verif.Model.Dict
/-!
# NODE transactions

`NodeHandler` (plenum/server/request_handlers/node_handler.py) and the schema of its
requests (plenum/common/messages/client_request.py). The pool state maps the node's
nym to its record, a dictionary from field names to values. All reads of the handler
while it validates and applies requests are of the uncommitted state, so one state is
modelled, and going back to an earlier one when batches are reverted. `as_dict` of the
trie is modelled as all entries. Strings are given by their bytes.
-/
namespace Verif.NodeTxn
open Verif

/-- The names of the fields of a record that the code mentions, and any other. -/
inductive Field where
  | nodeIp | nodePort | clientIp | clientPort | alias | services | blsKey | blsKeyProof | identifier
  | other (name : Bytes)
deriving Repr, DecidableEq

/-- Values of fields. Simplified: no nested dictionaries and no floats. -/
inductive Fv where
  | null
  | str (s : Bytes)
  | int (i : Int)
  | list (l : List Bytes)
deriving Repr, DecidableEq

/-- What is stored for a node, and the `data` of a request. -/
abbrev Rec := Dict Field Fv
/-- The pool state. -/
abbrev Pool := Dict Bytes Rec

/-- A NODE request: its sender and operation. The sender is `request.identifier`
(plenum/common/request.py:144-146): the field `identifier` of the request, or, if the request
does not have the field, the names of those that signed it. `named`: it has the field. -/
structure Req where
  sender : Bytes
  dest : Bytes
  verkey : Option Bytes := none
  data : Rec
  named : Bool := true
deriving Repr, DecidableEq

/-- What the code takes from libraries: correct Ed25519 keys, IP addresses, 128 bytes
in base 58, limited aliases, and, if there is a verifier, proofs of possession
(proof, key). -/
structure Env where
  isKey : Bytes → Bool
  isIp : Bytes → Bool
  isBls : Bytes → Bool
  isAlias : Bytes → Bool
  verifyPop : Option (Bytes → Bytes → Bool)

/-- Reasons of refusal. -/
inductive Err where
  | schema
  | dest
  | verkey
  | proofWithoutKey
  | keyWithoutProof
  | badProof
  | missing
  | sameHa
  | hasNode
  | sameData
  | aliasChanged
  | aliasTaken
  | nodeHaTaken
  | clientHaTaken
deriving Repr, DecidableEq

/-- plenum/common/messages/client_request.py:26-36, `ClientNodeOperationData`: the
schema of one field. Fields not listed are allowed, since SCHEMA_IS_STRICT is false
(plenum/common/constants.py:282). -/
def fieldOk (env : Env) : Field × Fv → Bool
  | (.nodeIp, .str s) => env.isIp s
  | (.clientIp, .str s) => env.isIp s
  | (.nodePort, .int i) => 0 < i && i ≤ 65535
  | (.clientPort, .int i) => 0 < i && i ≤ 65535
  | (.alias, .str s) => env.isAlias s
  | (.services, .list l) => l.all (· = ascii "VALIDATOR")
  | (.blsKey, .str s) => env.isBls s
  | (.blsKeyProof, .str s) => env.isBls s
  | (.identifier, _) => true
  | (.other _, _) => true
  | _ => false

/-- The four fields that make up the two addresses. -/
def haFields : List Field := [.nodeIp, .nodePort, .clientIp, .clientPort]

/-- plenum/common/messages/client_request.py:38-43, `_validate_message`, after
plenum/common/messages/message_base.py:26-44, `_validate_fields_with_schema`. -/
def schemaOk (env : Env) (data : Rec) : Bool :=
  data.has .alias && data.all (fieldOk env) &&
    (!haFields.any (fun f => data.has f) || haFields.all (fun f => data.has f))

/-- plenum/server/request_handlers/node_handler.py:207-213, `_verify_bls_key_proof_of_possession`. -/
def verifyProof (env : Env) (proof key : Bytes) : Bool :=
  match env.verifyPop with
  | none => true
  | some v => v proof key

/-- plenum/server/request_handlers/node_handler.py:41-59, the part of `static_validation`
on the BLS key. Values that are not strings do not pass the schema; they are refused
here. -/
def blsError (env : Env) : Option Fv → Option Fv → Option Err
  | none, none => none
  | none, some _ => some .proofWithoutKey
  | some _, none => some .keyWithoutProof
  | some (.str key), some (.str proof) => if verifyProof env proof key then none else some .badProof
  | some _, some _ => some .badProof

/-- plenum/server/request_handlers/node_handler.py:34-39, the part of `static_validation`
on the verification key. -/
def verkeyOk (env : Env) : Option Bytes → Bool
  | none => true
  | some v => v.isEmpty || env.isKey v

/-- plenum/server/request_handlers/node_handler.py:28-59, `static_validation`. -/
def staticValidation (env : Env) (r : Req) : Option Err :=
  if !env.isKey r.dest then some .dest
  else if !verkeyOk env r.verkey then some .verkey
  else blsError env (r.data.get? .blsKey) (r.data.get? .blsKeyProof)

/-- plenum/server/request_handlers/handler_interfaces/write_request_handler.py:71-86, `get_from_state`,
with plenum/server/request_handlers/node_handler.py:116-119, `_decode_state_value`. -/
def getRec (p : Pool) (nym : Bytes) : Rec := (p.get? nym).getD []

/-- plenum/server/request_handlers/node_handler.py:137-145, `_steward_has_node`. -/
def stewardHasNode (p : Pool) (steward : Bytes) : Bool :=
  p.any (fun e => e.2.get? .identifier = some (.str steward))

/-- plenum/server/request_handlers/node_handler.py:148-158, `_data_error_while_validating`.
The default values of the four fields are strings that differ from each other. -/
def dataError (data : Rec) (skipKeys : Bool) : Option Err :=
  if !skipKeys && !(haFields ++ [Field.alias]).all (fun f => data.has f) then some .missing
  else if ((data.get? .nodeIp).getD (.str (ascii "nip")), (data.get? .nodePort).getD (.str (ascii "np")))
      = ((data.get? .clientIp).getD (.str (ascii "cip")), (data.get? .clientPort).getD (.str (ascii "cp"))) then
    some .sameHa
  else none

/-- The comparison of two dictionaries, in any order. -/
def dictEq (a b : Rec) : Bool := (a.keys ++ b.keys).all (fun k => a.get? k = b.get? k)

/-- plenum/server/request_handlers/node_handler.py:160-163, `_is_node_data_same`. -/
def nodeDataSame (p : Pool) (nym : Bytes) (data : Rec) : Bool := dictEq ((getRec p nym).erase .identifier) data

/-- plenum/server/request_handlers/node_handler.py:180-192, the body of the loop in
`_is_node_data_conflicting`. -/
def conflictWith (data other : Rec) : Option Err :=
  if data.get? .alias = other.get? .alias then some .aliasTaken
  else if (data.get? .nodeIp, data.get? .nodePort) = (other.get? .nodeIp, other.get? .nodePort) then some .nodeHaTaken
  else if (data.get? .clientIp, data.get? .clientPort) = (other.get? .clientIp, other.get? .clientPort) then
    some .clientHaTaken
  else none

/-- plenum/server/request_handlers/node_handler.py:176-192, the loop in `_is_node_data_conflicting`. -/
def conflictLoop (data : Rec) (updating : Option Bytes) : List (Bytes × Rec) → Option Err
  | [] => none
  | e :: es =>
    if updating = some e.1 then conflictLoop data updating es
    else match conflictWith data e.2 with
      | some err => some err
      | none => conflictLoop data updating es

/-- plenum/server/request_handlers/node_handler.py:165-192, `_is_node_data_conflicting`.
The nym is not empty, being a correct key. -/
def conflicting (p : Pool) (data : Rec) : Option Bytes → Option Err
  | none => conflictLoop data none p
  | some nym =>
    if (getRec p nym).get? .alias ≠ data.get? .alias then some .aliasChanged
    else conflictLoop data (some nym) p

/-- plenum/server/request_handlers/node_handler.py:92-105, `_auth_error_while_adding_node`. -/
def addError (p : Pool) (r : Req) : Option Err :=
  match dataError r.data false with
  | some e => some e
  | none => if stewardHasNode p r.sender then some .hasNode else conflicting p r.data none

/-- plenum/server/request_handlers/node_handler.py:107-114, `_auth_error_while_updating_node`, with
plenum/server/request_handlers/node_handler.py:194-205, `_data_error_while_validating_update`. -/
def updateError (p : Pool) (r : Req) : Option Err :=
  match dataError r.data true with
  | some e => some e
  | none => if nodeDataSame p r.dest r.data then some .sameData else conflicting p r.data (some r.dest)

/-- plenum/server/request_handlers/node_handler.py:65-73, `additional_dynamic_validation`.
`authorize` does nothing. -/
def dynamicValidation (p : Pool) (r : Req) : Option Err :=
  if getRec p r.dest ≠ [] then updateError p r else addError p r

/-- `existing.update(data)`. -/
def merge (d data : Rec) : Rec := data.foldr (fun e d => d.set e.1 e.2) d

/-- plenum/common/txn_util.py:121-122, `get_from`, of the transaction of a request: the field
`identifier`, `None` if the request does not have it. -/
def recorded (r : Req) : Fv := if r.named then .str r.sender else .null

/-- plenum/server/request_handlers/node_handler.py:83-88, the part of `update_state` that
makes the new record. -/
def newRec (p : Pool) (r : Req) : Rec :=
  merge (if getRec p r.dest = [] then [(.identifier, recorded r)] else getRec p r.dest) r.data

/-- plenum/server/request_handlers/node_handler.py:78-90, `update_state`. -/
def updateState (p : Pool) (r : Req) : Pool := p.set r.dest (newRec p r)

/-- All checks of a request on its way to a batch: the schema and `static_validation`
when it is received, plenum/server/request_handlers/handler_interfaces/write_request_handler.py:34-38, `dynamic_validation`,
when it is applied. -/
def check (env : Env) (p : Pool) (r : Req) : Option Err :=
  if !schemaOk env r.data then some .schema
  else match staticValidation env r with
    | some e => some e
    | none => dynamicValidation p r

/-- What happens to the pool state. Transactions that arrive by catch-up were checked
by the nodes that ordered them, on the same states. -/
inductive Ev where
  | request (r : Req)
  | revert (n : Nat)
deriving Repr

/-- The successive states, the current one first. -/
structure State where
  cur : Pool
  past : List Pool := []
deriving Repr

/-- Going back `n` states. -/
def back : Nat → Pool → List Pool → State
  | 0, p, l => ⟨p, l⟩
  | _ + 1, p, [] => ⟨p, []⟩
  | n + 1, _, p :: l => back n p l

/-- One event. -/
def step (env : Env) (s : State) : Ev → State
  | .request r => if check env s.cur r = none then ⟨updateState s.cur r, s.cur :: s.past⟩ else s
  | .revert n => back n s.cur s.past

/-- A history from a given state. -/
def run (env : Env) (s : State) (evs : List Ev) : State := evs.foldl (step env) s

end Verif.NodeTxn
