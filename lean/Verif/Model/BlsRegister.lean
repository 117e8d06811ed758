import Verif.Model.Listing
import Verif.Spec.BlsRegister
/-!
# The register of BLS keys

`BlsKeyRegisterPoolManager` of plenum/bls/bls_key_register_pool_manager.py on the pool state of Model/PruningState.lean.
Names, aliases and the keys read are numbers.
-/
namespace Verif.BlsRegister
open Verif Verif.Rlp Verif.Trie Verif.Spec.State Verif.Spec.BlsRegister

/-- The keys and the root hash they are for. Models plenum/bls/bls_key_register_pool_manager.py:13-18, `__init__`. -/
structure Register where
  keys : Dict Nat (Option Nat) := []
  root : Option Bytes := none
deriving Repr, DecidableEq

/-- `self.state_serializer.deserialize` of all values.
Models plenum/server/request_managers/write_request_manager.py:215-216, `get_all_node_data_for_root_hash`. -/
def parseAll (R : Reader) : List Bytes → Except Err (List NodeData)
  | [] => .ok []
  | v :: rest =>
    match R.parse v, parseAll R rest with
    | .ok d, .ok ds => .ok (d :: ds)
    | .error e, _ => .error e
    | _, .error e => .error e

/-- Models plenum/server/request_managers/write_request_manager.py:212-217, `get_all_node_data_for_root_hash`.
Simplified: all values are decoded before the first is deserialized. -/
def nodeDataFor (H : Bytes → Bytes) (R : Reader) (f : Nat) (root : Item) (rootHash : Bytes) : M (List NodeData) := do
  let leaves ← allLeaves H f root rootHash
  let values ← lift (decodeValues leaves)
  lift (parseAll R (values.map Prod.snd))

/-- What is noted for one node; `none`: nothing. Models plenum/bls/bls_key_register_pool_manager.py:37-52,
`_load_keys_for_root`. -/
def entry (R : Reader) (d : NodeData) : Except Err (Option (Nat × Option Nat)) :=
  match d.alias with
  | none => .error .key
  | some name =>
    match d.blsKey with
    | none => .ok none
    | some k =>
      if !R.noProof && d.proof.isNone then .ok (some (name, none))
      else
        match k with
        | none => .ok (some (name, none))
        | some b =>
          match R.verKey b with
          | .ok x => .ok (some (name, some x))
          | .error e => .error e

/-- The loop: an exception leaves the keys noted so far. Models plenum/bls/bls_key_register_pool_manager.py:35-52,
`_load_keys_for_root`. -/
def loadAll (R : Reader) : List NodeData → Dict Nat (Option Nat) → Except Err Unit × Dict Nat (Option Nat)
  | [], keys => (.ok (), keys)
  | d :: rest, keys =>
    match entry R d with
    | .error e => (.error e, keys)
    | .ok none => loadAll R rest keys
    | .ok (some (name, k)) => loadAll R rest (keys.set name k)

/-- Models plenum/bls/bls_key_register_pool_manager.py:33-52, `_load_keys_for_root`. -/
def loadKeys (H : Bytes → Bytes) (R : Reader) (f : Nat) (root : Item) (rootHash : Bytes) (w : World) :
    (Except Err Unit × Dict Nat (Option Nat)) × World :=
  match nodeDataFor H R f root rootHash w with
  | (.error e, w') => ((.error e, []), w')
  | (.ok ds, w') => (loadAll R ds [], w')

/-- `if not pool_state_root_hash`. Models plenum/bls/bls_key_register_pool_manager.py:20-25,
`get_pool_root_hash_committed` and `get_key_by_name`. -/
def orCommitted : Option Bytes → M Bytes
  | some (b :: bs) => pure (b :: bs)
  | _ => committedHeadHash

/-- The answer, the register and the store after it. Models plenum/bls/bls_key_register_pool_manager.py:23-31,
`get_key_by_name`. -/
def getKey (H : Bytes → Bytes) (R : Reader) (f : Nat) (g : Register) (root : Item) (rootHash : Option Bytes) (name : Nat)
    (w : World) : Except Err (Option Nat) × Register × World :=
  match orCommitted rootHash w with
  | (.error e, w') => (.error e, g, w')
  | (.ok r, w') =>
    if g.root ≠ some r then
      match loadKeys H R f root r w' with
      | ((.error e, keys), w'') => (.error e, ⟨keys, some r⟩, w'')
      | ((.ok (), keys), w'') => (.ok ((keys.get? name).join), ⟨keys, some r⟩, w'')
    else (.ok ((g.keys.get? name).join), g, w')

/-- A history of the pool state with lookups in it. A lookup names no root hash or one noted before; the process ends
with a lookup that raises, so those are not in it. When the process starts again the register is empty. `deep` and
`here`: the recursion is deep enough for the content named and for the current one. That lookups leave the store as it
is is no restriction: C104_key_partial proves it. -/
inductive History (H : Bytes → Bytes) (R : Reader) (f : Nat) : List Op → Session → Register → Prop
  | start {s : Session} (h : Session.init H = .ok s) : History H R f [] s {}
  | op {ops : List Op} {s s' : Session} {g : Register} (o : Op) (p : History H R f ops s g) (h : s.step H o = .ok s') :
      History H R f (ops ++ [o]) s' g
  | restart {ops : List Op} {s s' : Session} {g : Register} (p : History H R f ops s g) (h : s.step H .reopen = .ok s') :
      History H R f (ops ++ [.reopen]) s' {}
  | look {ops : List Op} {s : Session} {g g' : Register} {o : Option Nat} (i : Nat) (r : Bytes) (m : Content)
      (name : Nat) (p : History H R f ops s g) (hi : s.hashes[i]? = some r) (hm : (Abs.run ops).past[i]? = some m)
      (deep : Deep f m) (here : Deep f (Abs.run ops).current) (h : getKey H R f g s.root (some r) name s.world = (.ok o, g', s.world)) :
      History H R f ops s g'
  | lookCommitted {ops : List Op} {s : Session} {g g' : Register} {o : Option Nat} (name : Nat)
      (p : History H R f ops s g) (deep : Deep f (Abs.run ops).committed) (here : Deep f (Abs.run ops).current)
      (h : getKey H R f g s.root none name s.world = (.ok o, g', s.world)) :
      History H R f ops s g'

end Verif.BlsRegister
