import Verif.Model.PyVal
import Verif.Model.PyInt
/-!
# Serialization for signing, request and batch digests

`SigningSerializer` of common/serializers/signing_serializer.py, the digests of
plenum/common/request.py and the batch digest of
plenum/server/consensus/ordering_service.py. Texts are UTF-8 bytes, so the final
`encode` does nothing here. `str` of a float is a parameter.
-/
namespace Verif.Signing
open Verif

/-- `sep.join(strs)`. -/
def join (sep : UInt8) : List Bytes → Bytes
  | [] => []
  | [x] => x
  | x :: y :: r => x ++ sep :: join sep (y :: r)

/-- `,` -/
def comma : UInt8 := 44
/-- `:` -/
def colon : UInt8 := 58
/-- `|` -/
def bar : UInt8 := 124

/-- `str(obj)` of an integer. -/
def intText (n : Int) : Bytes := (Py.str n).map (fun c => UInt8.ofNat c.toNat)

/-- `str(k) + ":" + …`, common/serializers/signing_serializer.py:73-74. -/
def item (e : Bytes × Bytes) : Bytes := e.1 ++ colon :: e.2

mutual
/-- common/serializers/signing_serializer.py:35-92, `serialize`, below the top level.
`none`: `error(…)` raised on a type that is not accepted. The values of a dict are
serialized before the items are put in order of their keys; the order of the two
makes no difference, since the keys do not change. -/
def ser (floatStr : UInt64 → Bytes) : Val → Option Bytes
  | .none => some []
  | .bool true => some (ascii "True")
  | .bool false => some (ascii "False")
  | .int n => some (intText n)
  | .float f => some (floatStr f)
  | .str s => some s
  | .bin _ => none
  | .list l => (serAll floatStr l).map (join comma)
  | .dict d => (serItems floatStr d).map (fun l => join bar ((sortItems l).map item))
/-- The loop over the items of a list, common/serializers/signing_serializer.py:77-80. -/
def serAll (floatStr : UInt64 → Bytes) : List Val → Option (List Bytes)
  | [] => some []
  | v :: r => match ser floatStr v, serAll floatStr r with
    | some x, some y => some (x :: y)
    | _, _ => none
/-- The loop over the keys of a dict, common/serializers/signing_serializer.py:71-74. -/
def serItems (floatStr : UInt64 → Bytes) : List (Bytes × Val) → Option (List (Bytes × Bytes))
  | [] => some []
  | (k, v) :: r => match ser floatStr v, serItems floatStr r with
    | some x, some y => some ((k, x) :: y)
    | _, _ => none
end

/-- common/serializers/signing_serializer.py:35-92, `serialize` at the top level, where
`topLevelKeysToIgnore` are left out (lines 66-68). -/
def serialize (floatStr : UInt64 → Bytes) (ignore : List Bytes) : Val → Option Bytes
  | .dict d => ser floatStr (.dict (d.filter (fun e => !ignore.contains e.1)))
  | v => ser floatStr v

/-- common/serializers/serialization.py:27-36, `serialize_msg_for_signing`. -/
def serializeMsgForSigning (floatStr : UInt64 → Bytes) (msg : Val) (ignore : List Bytes) : Option Bytes :=
  serialize floatStr ignore msg

/-- A client request: plenum/common/request.py:16-39, `Request.__init__`. Fields added
by plugins are not modelled. -/
structure Request where
  identifier : Option Bytes := none
  reqId : Int
  operation : Val
  signature : Option Bytes := none
  signatures : Option (List (Bytes × Bytes)) := none
  protocolVersion : Option Int := none
  taaAcceptance : Option Val := none
  endorser : Option Bytes := none
deriving Inhabited

/-- plenum/common/request.py:158-160, `gen_idr_from_sigs`. -/
def genIdrFromSigs : Option (List (Bytes × Bytes)) → Option Bytes
  | some (e :: r) => some (join comma ((sortItems (e :: r)).map Prod.fst))
  | _ => none

/-- plenum/common/request.py:144-146, `identifier`: an empty identifier counts as none. -/
def Request.idr (r : Request) : Option Bytes :=
  match r.identifier with
  | some (c :: s) => some (c :: s)
  | _ => genIdrFromSigs r.signatures

/-- `None` or a text. -/
def optText : Option Bytes → Val
  | some s => .str s
  | none => .none

/-- `if field is not None: dct[name] = …`. -/
def field (name : String) : Option Val → List (Bytes × Val)
  | some v => [(ascii name, v)]
  | none => []

/-- plenum/common/request.py:107-121, `signingPayloadState`. -/
def Request.signingPayloadState (r : Request) : List (Bytes × Val) :=
  [(ascii "identifier", optText r.idr), (ascii "reqId", .int r.reqId), (ascii "operation", r.operation)] ++
    field "protocolVersion" (r.protocolVersion.map .int) ++
    field "taaAcceptance" r.taaAcceptance ++
    field "endorser" (r.endorser.map .str)

/-- plenum/common/request.py:95-105, `signingState`. -/
def Request.signingState (r : Request) : List (Bytes × Val) :=
  r.signingPayloadState ++
    field "signatures" (r.signatures.map (fun d => .dict (d.map (fun e => (e.1, .str e.2))))) ++
    field "signature" (r.signature.map .str)

/-- The bytes hashed by plenum/common/request.py:86-87, `getDigest`. -/
def Request.digestBytes (floatStr : UInt64 → Bytes) (r : Request) : Option Bytes :=
  serializeMsgForSigning floatStr (.dict r.signingState) []

/-- The bytes hashed by plenum/common/request.py:89-90, `getPayloadDigest`. -/
def Request.payloadBytes (floatStr : UInt64 → Bytes) (r : Request) : Option Bytes :=
  serializeMsgForSigning floatStr (.dict r.signingPayloadState) []

/-- plenum/common/request.py:86-87, `getDigest`. `H` is the hexadecimal SHA-256. -/
def Request.digest (H : Bytes → Bytes) (floatStr : UInt64 → Bytes) (r : Request) : Option Bytes :=
  (r.digestBytes floatStr).map H

/-- plenum/common/request.py:89-90, `getPayloadDigest`. -/
def Request.payloadDigest (H : Bytes → Bytes) (floatStr : UInt64 → Bytes) (r : Request) : Option Bytes :=
  (r.payloadBytes floatStr).map H

/-- The bytes hashed by plenum/server/consensus/ordering_service.py:2313-2315,
`generate_pp_digest`. -/
def ppBytes (floatStr : UInt64 → Bytes) (reqDigests : List Bytes) (originalViewNo ppTime : Int) : Option Bytes :=
  serializeMsgForSigning floatStr (.list (.int originalViewNo :: .int ppTime :: reqDigests.map .str)) []

/-- plenum/server/consensus/ordering_service.py:2313-2315, `generate_pp_digest`. -/
def generatePpDigest (H : Bytes → Bytes) (floatStr : UInt64 → Bytes) (reqDigests : List Bytes)
    (originalViewNo ppTime : Int) : Option Bytes :=
  (ppBytes floatStr reqDigests originalViewNo ppTime).map H

end Verif.Signing
