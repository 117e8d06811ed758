import Verif.Model.Dict
import Verif.Model.Rlp
/-!
# The state trie

`state/trie/pruning_trie.py`: the Merkle Patricia trie behind every state. A node is what the code holds: an RLP value.
Nodes whose encoding is shorter than 32 bytes stand inside their parent, the others are in the key-value store under
their hash. Python lists that the code changes in place are values here: no other reference to a changed node is read
afterwards (roots are read from the store again, and the code copies the old root before changing it).

The reference counts of `RefcountDB` are not modelled: `PruningState` uses `PersistentDB`, which writes on increase and
does nothing on decrease (`state/db/persistent_db.py:25-29`).

`H` stands for SHA3-256.
-/
namespace Verif.Trie
open Verif.Rlp

/-- The exceptions. `key`: not in the store; `type`, `index`: a node that is not one; `big`: a payload of 2^64 bytes
or more; `loop`: the recursion does not end; `proof`: `InvalidSPVProof`. -/
inductive Err
  | key | type | index | big | loop | assertion | proof
  deriving DecidableEq, Repr

/-- Models state/trie/pruning_trie.py:50-52: `RECORDING` and `VERIFYING`. -/
inductive Mode
  | recording | verifying
  deriving DecidableEq, Repr

/-- The process-wide proof recorder; the heads of the lists are the tops of the stacks. The set `exempt` is always
empty, as nothing calls `spv_storing`. A set of encodings is a list here.
Models state/trie/pruning_trie.py:55-63, `ProofConstructor`. -/
structure Recorder where
  mode : List Mode := []
  nodes : List (List Bytes) := []
  proving : Bool := false
  deriving DecidableEq, Repr

/-- What the functions of the trie read and write: the key-value store and the recorder. `written` is not in the code:
it lists every encoding the trie has put into the store. -/
structure World where
  kv : Dict Bytes Bytes := []
  spv : Recorder := {}
  written : List Bytes := []
  deriving DecidableEq, Repr

/-- A computation that may raise; what was written before stays written. -/
def M (α : Type) := World → Except Err α × World

instance : Monad M where
  pure a := fun w => (.ok a, w)
  bind m f := fun w =>
    match m w with
    | (.ok a, w') => f a w'
    | (.error e, w') => (.error e, w')

/-- `raise`. -/
def raise {α : Type} (e : Err) : M α := fun w => (.error e, w)

/-- A function that may raise and touches nothing. -/
def lift {α : Type} (x : Except Err α) : M α := fun w => (x, w)

/-! ## Paths -/

/-- Models state/trie/pruning_trie.py:49: `NIBBLE_TERMINATOR`. -/
def terminator : Nat := 16

/-- Models state/trie/pruning_trie.py:21-33, `bin_to_nibbles`. -/
def binToNibbles (s : Bytes) : List Nat := s.flatMap (fun x => [x.toNat / 16, x.toNat % 16])

/-- Models state/trie/pruning_trie.py:109-113, `with_terminator`. -/
def withTerminator (nibbles : List Nat) : List Nat :=
  if nibbles.getLast? = some terminator then nibbles else nibbles ++ [terminator]

/-- Models state/trie/pruning_trie.py:116-120, `without_terminator`. -/
def withoutTerminator (nibbles : List Nat) : List Nat :=
  if nibbles.getLast? = some terminator then nibbles.dropLast else nibbles

/-- Models state/trie/pruning_trie.py:123-127, `adapt_terminator`. -/
def adaptTerminator (nibbles : List Nat) (hasTerminator : Bool) : List Nat :=
  if hasTerminator then withTerminator nibbles else withoutTerminator nibbles

/-- The bytes `16 * nibbles[i] + nibbles[i + 1]`. Models state/trie/pruning_trie.py:157-159, the loop of
`pack_nibbles`. -/
def pairs : List Nat → Bytes
  | a :: b :: l => UInt8.ofNat (16 * a + b) :: pairs l
  | _ => []

/-- Models state/trie/pruning_trie.py:139-160, `pack_nibbles`. An empty path raises (`nibbles[-1]`). -/
def packNibbles (nibbles : List Nat) : Except Err Bytes :=
  match nibbles.getLast? with
  | none => .error .index
  | some l =>
    let flags := if l = terminator then 2 else 0
    let nibbles := if l = terminator then nibbles.dropLast else nibbles
    if nibbles.length % 2 = 1 then .ok (pairs ((flags + 1) :: nibbles))
    else .ok (pairs (flags :: 0 :: nibbles))

/-- Models state/trie/pruning_trie.py:163-177, `unpack_to_nibbles`. -/
def unpackToNibbles (bindata : Bytes) : Except Err (List Nat) :=
  match binToNibbles bindata with
  | [] => .error .index
  | flags :: rest =>
    let o := if flags / 2 % 2 = 1 then flags :: rest ++ [terminator] else flags :: rest
    if flags % 2 = 1 then .ok (o.drop 1) else .ok (o.drop 2)

/-- Models state/trie/pruning_trie.py:180-186, `starts_with`. -/
def startsWith (full part : List Nat) : Bool :=
  if full.length < part.length then false else full.take part.length = part

/-! ## Nodes -/

/-- Models state/trie/pruning_trie.py:206: `BLANK_NODE`. -/
abbrev blank : Item := .str []

/-- `node[i]`: on a byte string that is a number, of which the callers make nothing but an exception. -/
def slot : Item → Nat → Except Err Item
  | .list xs, i => match xs[i]? with
    | some x => .ok x
    | none => .error .index
  | .str _, _ => .error .type

/-- Models state/trie/pruning_trie.py:189-194. -/
inductive NodeType
  | blank | leaf | extension | branch
  deriving DecidableEq, Repr

/-- Models state/trie/pruning_trie.py:202-203, `key_nibbles_from_key_value_node`, without dropping the terminator. -/
def rawNibbles (node : Item) : Except Err (List Nat) :=
  match slot node 0 with
  | .ok (.str b) => unpackToNibbles b
  | .ok (.list _) => .error .type
  | .error e => .error e

/-- Models state/trie/pruning_trie.py:202-203, `key_nibbles_from_key_value_node`. -/
def keyNibbles (node : Item) : Except Err (List Nat) :=
  match rawNibbles node with
  | .ok n => .ok (withoutTerminator n)
  | .error e => .error e

/-- Other lists, and byte strings that are not blank, have no type; where the code goes on with such a node it ends in
an exception or in `None`, and here in `Err.type`. Models state/trie/pruning_trie.py:359-374, `_get_node_type`. -/
def getNodeType (node : Item) : Except Err NodeType :=
  match node with
  | .str [] => .ok .blank
  | .str _ => .error .type
  | .list xs =>
    if xs.length = 2 then
      match rawNibbles node with
      | .ok n => .ok (if n.getLast? = some terminator then .leaf else .extension)
      | .error e => .error e
    else if xs.length = 17 then .ok .branch
    else .error .type

/-- `rlp_encode`, which raises if a payload is too long. Models state/trie/pruning_trie.py:13: `rlp_encode`. -/
def rlpEncode (x : Item) : Except Err Bytes := if fits x then .ok (encode x) else .error .big

/-- `rlp.decode`. -/
def rlpDecode (b : Bytes) : Except Err Item :=
  match decode b with
  | some x => .ok x
  | none => .error .index

/-! ## The recorder -/

/-- Models state/trie/pruning_trie.py:90-93, `add_node`: to the set on top. -/
def Recorder.addNode (r : Recorder) (enc : Bytes) : Recorder :=
  match r.nodes with
  | [] => r
  | top :: rest => { r with nodes := (if enc ∈ top then top else top ++ [enc]) :: rest }

/-- Models state/trie/pruning_trie.py:76-82, `pop`. -/
def Recorder.pop (r : Recorder) : Recorder :=
  { mode := r.mode.tail, nodes := r.nodes.tail, proving := if r.mode.tail = [] then false else r.proving }

/-- `push(RECORDING)`. Models state/trie/pruning_trie.py:65-74, `push`. -/
def Recorder.pushRecording (r : Recorder) : Recorder :=
  { mode := .recording :: r.mode, nodes := [] :: r.nodes, proving := true }

/-- `[rlp_encode(x) for x in nodes]`. Models state/trie/pruning_trie.py:72. -/
def encodeEach : List Item → Except Err (List Bytes)
  | [] => .ok []
  | x :: xs =>
    match rlpEncode x, encodeEach xs with
    | .ok b, .ok bs => .ok (b :: bs)
    | .error e, _ => .error e
    | _, .error e => .error e

/-- Models state/trie/pruning_trie.py:233-243, `spv_grabbing`. -/
def spvGrabbing (node : Item) : M Unit := fun w =>
  if w.spv.proving = false then (.ok (), w)
  else match w.spv.mode with
    | [] => (.error .index, w)
    | .recording :: _ =>
      match rlpEncode node with
      | .ok enc => (.ok (), { w with spv := w.spv.addNode enc })
      | .error e => (.error e, w)
    | .verifying :: _ =>
      match w.spv.nodes, rlpEncode node with
      | [], _ => (.error .index, w)
      | _, .error e => (.error e, w)
      | top :: _, .ok enc => if enc ∈ top then (.ok (), w) else (.error .proof, w)

/-! ## The store -/

variable (H : Bytes → Bytes)

/-- `self._db.inc_refcount(hashkey, rlpnode)`. Models state/db/persistent_db.py:25-26, `inc_refcount`. -/
def putNode (enc : Bytes) : M Unit := fun w =>
  (.ok (), { w with kv := w.kv.set (H enc) enc, written := w.written ++ [enc] })

/-- `self._db.get(key)`. Models state/db/persistent_db.py:9-10, `get`. -/
def getNode (key : Bytes) : M Bytes := fun w =>
  match w.kv.get? key with
  | some b => (.ok b, w)
  | none => (.error .key, w)

/-- Models state/trie/pruning_trie.py:334-344, `_encode_node`. -/
def encodeNode (node : Item) (isRoot : Bool := false) : M Item :=
  match node with
  | .str [] => pure blank
  | _ => do
    let r ← lift (rlpEncode node)
    if r.length < 32 ∧ isRoot = false then pure node
    else do
      putNode H r
      pure (.str (H r))

/-- Models state/trie/pruning_trie.py:346-353, `_decode_to_node`. -/
def decodeToNode (encoded : Item) : M Item :=
  match encoded with
  | .str [] => pure blank
  | .list xs => pure (.list xs)
  | .str h => do
    let b ← getNode h
    let o ← lift (rlpDecode b)
    spvGrabbing o
    pure o

/-! ## Reading -/

/-- Each call in a trie made by this code has a shorter key; the first argument bounds the recursion, for a node that
is not such. Models state/trie/pruning_trie.py:376-407, `_get`. -/
def get : Nat → Item → List Nat → M Item
  | 0, _, _ => raise .loop
  | f + 1, node, key => do
    match ← lift (getNodeType node) with
    | .blank => pure blank
    | .branch =>
      match key with
      | [] => lift (slot node 16)
      | n :: rest => do
        let sub ← decodeToNode (← lift (slot node n))
        get f sub rest
    | .leaf => do
      let curr ← lift (keyNibbles node)
      if key = curr then lift (slot node 1) else pure blank
    | .extension => do
      let curr ← lift (keyNibbles node)
      if startsWith key curr then do
        let sub ← decodeToNode (← lift (slot node 1))
        get f sub (key.drop curr.length)
      else pure blank

/-! ## Writing -/

/-- Length of the longest common prefix. Models state/trie/pruning_trie.py:511-516, the loop of `_update_kv_node`. -/
def prefixLength : List Nat → List Nat → Nat
  | a :: k, b :: c => if a = b then prefixLength k c + 1 else 0
  | _, _ => 0

/-- A leaf `[pack_nibbles(with_terminator(key)), value]`. -/
def leafItem (key : List Nat) (value : Item) : Except Err Item :=
  match packNibbles (withTerminator key) with
  | .ok p => .ok (.list [.str p, value])
  | .error e => .error e

/-- `node[i] = x`. -/
def setSlot : Item → Nat → Item → Except Err Item
  | .list xs, i, x => if i < xs.length then .ok (.list (xs.set i x)) else .error .index
  | .str _, _, _ => .error .type

/-- `[BLANK_NODE] * 17`. -/
def blank17 : Item := .list (List.replicate 17 blank)

/-- The end of `_update_kv_node`: an extension over the common prefix, if there is one.
Models state/trie/pruning_trie.py:567-582, `_update_kv_node`. -/
def finishKv (curr : List Nat) (p : Nat) (newNode : Item) (encoded : Bool) : M Item :=
  if p ≠ 0 then do
    let packed ← lift (packNibbles (curr.take p))
    let ref ← encodeNode H newNode
    let o : Item := .list [.str packed, ref]
    let _ ← encodeNode H o
    pure o
  else do
    if encoded = false then do
      let _ ← encodeNode H newNode
    pure newNode

/-- A new branch with what was there before in the slot `c`. Models state/trie/pruning_trie.py:551-560,
`_update_kv_node`. -/
def oldSide (inner : Bool) (c : Nat) (crest : List Nat) (old : Item) : M Item :=
  if crest = [] ∧ inner = true then lift (setSlot blank17 c old)
  else do
    let packed ← lift (packNibbles (adaptTerminator crest (!inner)))
    let ref ← encodeNode H (.list [.str packed, old])
    lift (setSlot blank17 c ref)

/-- `_update` with its helpers in one function. Deleting storage does nothing here and is left out.
Models state/trie/pruning_trie.py:460-494, `_update`; 496-503, `_update_and_delete_storage`;
505-582, `_update_kv_node`. -/
def update : Nat → Item → List Nat → Bytes → M Item
  | 0, _, _, _ => raise .loop
  | f + 1, node, key, value => do
    match ← lift (getNodeType node) with
    | .blank => do
      let o ← lift (leafItem key (.str value))
      let _ ← encodeNode H o
      pure o
    | .branch =>
      match key with
      | [] => do
        let node' ← lift (setSlot node 16 (.str value))
        let _ ← encodeNode H node'
        pure node'
      | n :: rest => do
        let sub ← decodeToNode (← lift (slot node n))
        let new ← update f sub rest value
        let ref ← encodeNode H new
        let node' ← lift (setSlot node n ref)
        let _ ← encodeNode H node'
        pure node'
    | t => do
      let inner : Bool := t = .extension
      let curr ← lift (keyNibbles node)
      let old ← lift (slot node 1)
      let p := prefixLength key curr
      match key.drop p, curr.drop p with
      | [], [] =>
        if inner then do
          let sub ← decodeToNode old
          let new ← update f sub [] value
          finishKv H curr p new true
        else do
          let path ← lift (slot node 0)
          let o : Item := .list [path, .str value]
          let _ ← encodeNode H o
          pure o
      | n :: rest, [] =>
        if inner then do
          let sub ← decodeToNode old
          let new ← update f sub (n :: rest) value
          finishKv H curr p new true
        else do
          let b ← lift (setSlot blank17 16 old)
          let ref ← encodeNode H (← lift (leafItem rest (.str value)))
          let b ← lift (setSlot b n ref)
          finishKv H curr p b false
      | remKey, c :: crest => do
        let b ← oldSide H inner c crest old
        match remKey with
        | [] => do
          let b ← lift (setSlot b 16 (.str value))
          finishKv H curr p b false
        | n :: rest => do
          let ref ← encodeNode H (← lift (leafItem rest (.str value)))
          let b ← lift (setSlot b n ref)
          finishKv H curr p b false

/-! ## Deleting -/

/-- Python truth of a slot. -/
def truthy : Item → Bool
  | .str [] => false
  | .list [] => false
  | _ => true

/-- Models state/trie/pruning_trie.py:706-744, `_normalize_branch_node`. -/
def normalize (node : Item) : M Item := do
  match node with
  | .str _ => raise .type
  | .list xs =>
    match (List.range 17).filter (fun i => truthy (xs[i]?.getD blank)) with
    | [] => raise .assertion
    | [i] =>
      let item := xs[i]?.getD blank
      if i = 16 then do
        let o ← lift (leafItem [] item)
        let _ ← encodeNode H o
        pure o
      else do
        let sub ← decodeToNode item
        match ← lift (getNodeType sub) with
        | .blank => raise .assertion
        | .branch => do
          let packed ← lift (packNibbles [i])
          let o : Item := .list [.str packed, item]
          let _ ← encodeNode H o
          pure o
        | _ => do
          let rest ← lift (rawNibbles sub)
          let packed ← lift (packNibbles (i :: rest))
          let old ← lift (slot sub 1)
          let o : Item := .list [.str packed, old]
          let _ ← encodeNode H o
          pure o
    | _ => do
      let _ ← encodeNode H node
      pure node

/-- `_delete` with its helpers in one function. Models state/trie/pruning_trie.py:683-704, `_delete`;
746-753, `_delete_and_delete_storage`; 755-777, `_delete_branch_node`; 779-832, `_delete_kv_node`. -/
def delete : Nat → Item → List Nat → M Item
  | 0, _, _ => raise .loop
  | f + 1, node, key => do
    match ← lift (getNodeType node) with
    | .blank => pure blank
    | .branch =>
      match key with
      | [] => do normalize H (← lift (setSlot node 16 blank))
      | n :: rest => do
        let sub ← decodeToNode (← lift (slot node n))
        let new ← delete f sub rest
        let ref ← encodeNode H new
        let node' ← lift (setSlot node n ref)
        match ref with
        | .str [] => normalize H node'
        | _ => do
          let _ ← encodeNode H node'
          pure node'
    | t => do
      let curr ← lift (keyNibbles node)
      if startsWith key curr = false then do
        let _ ← encodeNode H node
        pure node
      else if t = .leaf then
        if key = curr then pure blank
        else do
          let _ ← encodeNode H node
          pure node
      else do
        let sub ← decodeToNode (← lift (slot node 1))
        let new ← delete f sub (key.drop curr.length)
        match new with
        | .str [] => pure blank
        | _ =>
          match ← lift (getNodeType new) with
          | .blank => raise .assertion
          | .branch => do
            let packed ← lift (packNibbles curr)
            let ref ← encodeNode H new
            let o : Item := .list [.str packed, ref]
            let _ ← encodeNode H o
            pure o
          | _ => do
            let rest ← lift (rawNibbles new)
            let packed ← lift (packNibbles (curr ++ rest))
            let old ← lift (slot new 1)
            let o : Item := .list [.str packed, old]
            let _ ← encodeNode H o
            pure o

/-! ## The trie -/

/-- Models state/trie/pruning_trie.py:207: `BLANK_ROOT`. -/
def blankRoot : Bytes := H (encode blank)

/-- Models state/trie/pruning_trie.py:260-269, `get_root_hash`. -/
def getRootHash (root : Item) : M Bytes :=
  match root with
  | .str [] => pure (blankRoot H)
  | .str _ => raise .assertion
  | _ => do
    let val ← lift (rlpEncode root)
    spvGrabbing root
    pure (H val)

/-- Writing the new root. Models state/trie/pruning_trie.py:271-276, `replace_root_hash`. -/
def replaceRoot (new : Item) : M Unit := do
  let _ ← encodeNode H new true
  pure ()

/-- The new root node. Models state/trie/pruning_trie.py:282-296, `set_root_hash`. -/
def setRootHash (h : Bytes) : M Item :=
  if h.length = 0 ∨ h.length = 32 then
    if h = blankRoot H then pure blank else decodeToNode (.str h)
  else raise .type

/-- Models state/trie/pruning_trie.py:985-986, `get`, and 1034-1041, `get_at`. -/
def getAt (root : Item) (key : Bytes) : M Item := get ((binToNibbles key).length + 1) root (binToNibbles key)

/-- Models state/trie/pruning_trie.py:1006-1027, `update`. -/
def trieUpdate (root : Item) (key value : Bytes) : M Item := do
  let new ← update H ((binToNibbles key).length + 1) root (binToNibbles key) value
  replaceRoot H new
  pure new

/-- Models state/trie/pruning_trie.py:834-848, `delete`. -/
def trieDelete (root : Item) (key : Bytes) : M Item := do
  let new ← delete H ((binToNibbles key).length + 1) root (binToNibbles key)
  replaceRoot H new
  pure new

end Verif.Trie
