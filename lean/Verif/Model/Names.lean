import Verif.Model.NodeTxn
/-!
# Names of nodes and replicas

Messages of other nodes are counted by the name of the sender's replica. The
name a message comes with is the alias of the node in the pool ledger. Strings
are given by their bytes.
-/
namespace Verif.Names
open Verif

/-- `:` -/
def colon : UInt8 := 58

/-- A number as `format` writes it. -/
def digits (n : Nat) : Bytes := (Nat.toDigits 10 n).map (fun c => UInt8.ofNat c.toNat)

/-- replica.py:302-315, `generateName`, and replica_helper.py:27-40, `generateName`.
replica.py:534-550, `_handle_external_messages`, applies it to the sender of
every message. -/
def replicaName (nodeName : Bytes) (instId : Nat) : Bytes :=
  if nodeName.contains colon then nodeName else nodeName ++ colon :: digits instId

/-- consensus/utils.py:8-11, `replica_name_to_node_name`: `name.rsplit(':', maxsplit=1)[0]`. -/
def nodeName (name : Bytes) : Bytes :=
  if name.contains colon then (name.reverse.dropWhile (fun c => c ≠ colon)).tail.reverse else name

/-- messages/fields.py:129-144, `LimitedLengthStringField`, with config.py:309,
`ALIAS_FIELD_LIMIT`: the only check of an alias but that it is not taken.
Simplified: bytes are counted, not characters. -/
def isAlias (a : Bytes) : Bool := !a.isEmpty && a.length ≤ 256

/-- The name under which the votes of node `a` are counted by instance `i`:
ordering_service.py, the senders of `prepares` and `commits`. -/
abbrev voter (i : Nat) (a : Bytes) : Bytes := replicaName a i

end Verif.Names
