import Verif.Model.PruningState
/-!
# Listing the state

`to_dict` of `state/trie/pruning_trie.py`, the proofs for all keys with a prefix, and what `state/pruning_state.py`
makes of them. On the way the code keeps paths as byte strings, the numbers in decimal joined with `+`; here they are
lists of numbers. The terminator ends each of them, so none is empty, and `strip` takes away only the `+` before or
after an empty path.

The first argument of the recursive functions bounds the depth of the recursion; Python has such a bound too.
-/
namespace Verif.Trie
open Verif.Rlp

variable (H : Bytes → Bytes)

/-- Models state/trie/pruning_trie.py:36-46, `nibbles_to_bin`. -/
def nibblesToBin (nibbles : List Nat) : Except Err Bytes :=
  if nibbles.any (fun x => decide (15 < x)) then .error .type
  else if nibbles.length % 2 = 1 then .error .type
  else .ok (pairs nibbles)

/-- Models state/trie/pruning_trie.py:130-136, `without_terminator_and_flags`. -/
def withoutTerminatorAndFlags (nibbles : List Nat) : List Nat :=
  let n := withoutTerminator nibbles
  if n.length % 2 = 1 then n.drop 1 else n

/-- What `_to_dict` returns: paths with the terminator, and values. -/
abbrev Flat := Dict (List Nat) Item

/-- `full_key = (key + b'+' + sub_key).strip(b'+'); res[full_key] = sub_value` for each entry. Models
state/trie/pruning_trie.py:916-920 and 925-930, `_to_dict`. -/
def addBelow (key : List Nat) (sub : Flat) (res : Flat) : Flat :=
  sub.foldl (fun r p => r.set (key ++ p.1) p.2) res

/-- The loop over the children of a branch; `sub` lists a child. Models state/trie/pruning_trie.py:924-930, `_to_dict`. -/
def listChildren (sub : Item → M Flat) (node : Item) : List Nat → Flat → M Flat
  | [], res => pure res
  | i :: is, res => do
    let child ← decodeToNode (← lift (slot node i))
    let d ← sub child
    listChildren sub node is (addBelow [i] d res)

/-- Models state/trie/pruning_trie.py:892-934, `_to_dict`. -/
def toDictNode : Nat → Item → M Flat
  | 0, _ => raise .loop
  | f + 1, node => do
    match ← lift (getNodeType node) with
    | .blank => pure []
    | .leaf => do
      let nibbles ← lift (keyNibbles node)
      let value ← lift (slot node 1)
      pure (addBelow nibbles [([terminator], value)] [])
    | .extension => do
      let nibbles ← lift (keyNibbles node)
      let inner ← decodeToNode (← lift (slot node 1))
      let sub ← toDictNode f inner
      pure (addBelow nibbles sub [])
    | .branch => do
      let res ← listChildren (toDictNode f) node (List.range 16) []
      let value ← lift (slot node 16)
      pure (if truthy value then res.set [terminator] value else res)

/-- The loop over the children of a branch. Models state/trie/pruning_trie.py:887-888, `_get_size`. -/
def sizeChildren (sub : Item → M Nat) (node : Item) : List Nat → M Nat
  | [] => pure 0
  | i :: is => do
    let child ← decodeToNode (← lift (slot node i))
    let n ← sub child
    let m ← sizeChildren sub node is
    pure (n + m)

/-- Models state/trie/pruning_trie.py:869-890, `_get_size`, and 988-989, `__len__`. -/
def getSize : Nat → Item → M Nat
  | 0, _ => raise .loop
  | f + 1, node => do
    match ← lift (getNodeType node) with
    | .blank => pure 0
    | .leaf => pure 1
    | .extension => do
      let inner ← decodeToNode (← lift (slot node 1))
      getSize f inner
    | .branch => do
      let n ← sizeChildren (getSize f) node (List.range 16)
      let value ← lift (slot node 16)
      pure (n + if truthy value then 1 else 0)

/-- The keys as bytes; `seen` is a path above the node. Models state/trie/pruning_trie.py:940-942, `to_dict`, with
1173-1178, `nibble_key_str_to_bin`; and 1066-1069, `produce_spv_proof_for_keys_with_prefix`. -/
def toBin (seen : List Nat) : Flat → Dict Bytes Item → Except Err (Dict Bytes Item)
  | [], res => .ok res
  | (k, v) :: rest, res =>
    match nibblesToBin (withoutTerminatorAndFlags (seen ++ k)) with
    | .ok b => toBin seen rest (res.set b v)
    | .error e => .error e

/-- `node or self.root_node`. Models state/trie/pruning_trie.py:937, `to_dict`. -/
def orRoot (root : Item) : Option Item → Item
  | some node => if truthy node then node else root
  | none => root

/-- Models state/trie/pruning_trie.py:936-943, `to_dict`. -/
def toDict (f : Nat) (root : Item) (node : Option Item) : M (Dict Bytes Item) := do
  let d ← toDictNode f (orRoot root node)
  lift (toBin [] d [])

/-- The values as the trie has them. Models state/pruning_state.py:79-82, `get_all_leaves_for_root_hash`. -/
def allLeaves (f : Nat) (root : Item) (rootHash : Bytes) : M (Dict Bytes Item) := do
  let node ← hashToNode H rootHash
  toDict f root (some node)

/-- `{k: self.get_decoded(v) for k, v in d.items()}`. Models state/pruning_state.py:133, `as_dict`. -/
def decodeValues : Dict Bytes Item → Except Err (Dict Bytes Bytes)
  | [] => .ok []
  | (k, .str v) :: rest =>
    match getDecoded v, decodeValues rest with
    | .ok x, .ok xs => .ok ((k, x) :: xs)
    | .error e, _ => .error e
    | _, .error e => .error e
  | (_, .list _) :: _ => .error .type

/-- Models state/pruning_state.py:130-133, `as_dict`. -/
def asDict (f : Nat) (root : Item) : M (Dict Bytes Bytes) := do
  let d ← toDict f root none
  lift (decodeValues d)

/-! ## All keys with a prefix -/

/-- The last node on the way along the prefix, and the path seen. Models state/trie/pruning_trie.py:409-458,
`_get_last_node_for_prfx`. -/
def lastNode : Nat → Item → List Nat → List Nat → M (Item × List Nat)
  | 0, _, _, _ => raise .loop
  | f + 1, node, prfx, seen => do
    match ← lift (getNodeType node) with
    | .blank => pure (blank, seen)
    | .branch =>
      match prfx with
      | [] => pure (node, seen)
      | n :: rest => do
        let sub ← decodeToNode (← lift (slot node n))
        lastNode f sub rest (seen ++ [n])
    | .leaf => do
      let curr ← lift (keyNibbles node)
      if startsWith curr prfx then pure (node, seen) else pure (blank, seen)
    | .extension => do
      let curr ← lift (keyNibbles node)
      if prfx.length > curr.length then
        if startsWith prfx curr then do
          let sub ← decodeToNode (← lift (slot node 1))
          lastNode f sub (prfx.drop curr.length) (seen ++ curr)
        else pure (blank, seen)
      else
        if startsWith curr prfx then pure (node, seen) else pure (blank, seen)

/-- With `get_value=True`. Models state/trie/pruning_trie.py:1052-1073, `produce_spv_proof_for_keys_with_prefix`. -/
def producePrefixProof (f : Nat) (root : Item) (prfx : Bytes) : M (List Item × Dict Bytes Item) := do
  pushRecording
  let (node, seen) ← lastNode ((binToNibbles prfx).length + 1) root (binToNibbles prfx) []
  let rv ← toDictNode f node
  let new ← lift (toBin seen rv [])
  let o ← getNodelist
  popRecorder
  pure (o, new)

/-- With `get_value=True`, not serialized. Models state/trie/pruning_trie.py:1081-1085,
`generate_state_proof_for_keys_with_prefix`, and 1087-1098, `_generate_state_proof`. -/
def generatePrefixProof (f : Nat) (root : Item) (prfx : Bytes) : M (List Item × Dict Bytes Item) := do
  let (o, rv) ← producePrefixProof f root prfx
  pure (o ++ [root], rv)

end Verif.Trie
