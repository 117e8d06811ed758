import Verif.Model.Trie
/-!
# The state: a trie with a committed root

`state/pruning_state.py`, and the state proofs of `state/trie/pruning_trie.py`. The root node held in memory is a
separate argument; the committed root hash is in the key-value store, with the nodes.
-/
namespace Verif.Trie
open Verif.Rlp

variable (H : Bytes → Bytes)

/-- Models state/pruning_state.py:26: `rootHashKey`. -/
def rootHashKey : Bytes := [0x88, 0xc8, 0x88, 0x20, 0x9a, 0xa7, 0x89, 0x1b]

/-- `self._kv.put(self.rootHashKey, rootHash)`. Models state/pruning_state.py:98. -/
def putRoot (h : Bytes) : M Unit := fun w => (.ok (), { w with kv := w.kv.set rootHashKey h })

/-- Opening the store; the result is the root node. Models state/pruning_state.py:28-37, `__init__`. -/
def openState : M Item := fun w =>
  match w.kv.get? rootHashKey with
  | some h => setRootHash H h w
  | none => (putRoot (blankRoot H) >>= fun _ => setRootHash H (blankRoot H)) w

/-- Models state/pruning_state.py:145-146, `committedHeadHash`. -/
def committedHeadHash : M Bytes := getNode rootHashKey

/-- Models state/pruning_state.py:55-58, `_hash_to_node`. -/
def hashToNode (h : Bytes) : M Item := if h = blankRoot H then pure blank else decodeToNode (.str h)

/-- Models state/pruning_state.py:136-142, `headHash`. -/
def headHash (root : Item) : M Bytes := getRootHash H root

/-- The new root node. Models state/pruning_state.py:60-61, `set`. -/
def stateSet (root : Item) (key value : Bytes) : M Item := do
  let e ← lift (rlpEncode (.list [.str value]))
  trieUpdate H root key e

/-- The new root node. Models state/pruning_state.py:84-85, `remove`. -/
def stateRemove (root : Item) (key : Bytes) : M Item := trieDelete H root key

/-- Models state/pruning_state.py:162-163, `get_decoded`. -/
def getDecoded (encoded : Bytes) : Except Err Bytes :=
  match decode encoded with
  | some (.list (.str b :: _)) => .ok b
  | some (.list []) => .error .index
  | _ => .error .type

/-- `if val: return self.get_decoded(val)`. Models state/pruning_state.py:69-70, `get`. -/
def decodeValue (val : Item) : M (Option Bytes) :=
  match val with
  | .str [] => pure none
  | .str b => do pure (some (← lift (getDecoded b)))
  | .list [] => pure none
  | .list _ => raise .type

/-- Models state/pruning_state.py:63-70, `get`. -/
def stateGet (root : Item) (key : Bytes) (isCommitted : Bool) : M (Option Bytes) :=
  if isCommitted = false then do decodeValue (← getAt root key)
  else do
    let h ← committedHeadHash
    let node ← hashToNode H h
    decodeValue (← getAt node key)

/-- Models state/pruning_state.py:72-77, `get_for_root_hash`. -/
def getForRootHash (rootHash key : Bytes) : M (Option Bytes) := do
  let node ← hashToNode H rootHash
  decodeValue (← getAt node key)

/-- The value of an ASCII hexadecimal digit. -/
def hexVal (b : UInt8) : Option Nat :=
  let n := b.toNat
  if 48 ≤ n ∧ n ≤ 57 then some (n - 48)
  else if 97 ≤ n ∧ n ≤ 102 then some (n - 87)
  else if 65 ≤ n ∧ n ≤ 70 then some (n - 55)
  else none

/-- Models state/util/utils.py:104-118, `isHex`, for byte strings. -/
def isHex (b : Bytes) : Bool := b.all (fun x => (hexVal x).isSome)

/-- `binascii.unhexlify` of digits. -/
def unhexlify : Bytes → Except Err Bytes
  | [] => .ok []
  | [_] => .error .type
  | a :: b :: l =>
    match hexVal a, hexVal b, unhexlify l with
    | some x, some y, .ok r => .ok (UInt8.ofNat (16 * x + y) :: r)
    | _, _, _ => .error .type

/-- Without the argument `rootNode`, which only tests use. Models state/pruning_state.py:87-98, `commit`. -/
def commit (root : Item) (rootHash : Option Bytes) : M Unit := do
  match rootHash with
  | some (b :: l) =>
    if isHex (b :: l) then do
      let h ← lift (unhexlify (b :: l))
      putRoot h
    else putRoot (b :: l)
  | _ => do
    let h ← headHash H root
    putRoot h

/-- The new root node. Models state/pruning_state.py:100-102, `revertToHead`. -/
def revertToHead (h : Bytes) : M Item := do
  let head ← hashToNode H h
  replaceRoot H head
  pure head

/-! ## State proofs -/

/-- `proof.push(RECORDING)`. -/
def pushRecording : M Unit := fun w => (.ok (), { w with spv := w.spv.pushRecording })

/-- `proof.pop()`. -/
def popRecorder : M Unit := fun w => (.ok (), { w with spv := w.spv.pop })

/-- `list(map(rlp.decode, ...))`. -/
def decodeEach : List Bytes → Except Err (List Item)
  | [] => .ok []
  | b :: bs =>
    match rlpDecode b, decodeEach bs with
    | .ok x, .ok xs => .ok (x :: xs)
    | .error e, _ => .error e
    | _, .error e => .error e

/-- Models state/trie/pruning_trie.py:84-85, `get_nodelist`. The order of a Python set is not defined; here it is the
order of visiting. -/
def getNodelist : M (List Item) := fun w =>
  match w.spv.nodes with
  | [] => (.error .index, w)
  | top :: _ => (decodeEach top, w)

/-- The nodes and the value found. Models state/trie/pruning_trie.py:1043-1050, `produce_spv_proof`. -/
def produceSpvProof (root : Item) (key : Bytes) : M (List Item × Item) := do
  pushRecording
  let rv ← getAt root key
  let o ← getNodelist
  popRecorder
  pure (o, rv)

/-- With `get_value`; the value is `none` if there is none. Models state/trie/pruning_trie.py:1075-1079,
`generate_state_proof`, and 1087-1098, `_generate_state_proof`. -/
def generateStateProof (root : Item) (key : Bytes) : M (List Item × Option Item) := do
  let (o, rv) ← produceSpvProof root key
  pure (o ++ [root], match rv with
    | .str [] => none
    | _ => some rv)

/-- A store of the proof nodes under their hashes. Models state/trie/pruning_trie.py:1154-1162,
`get_new_trie_with_proof_nodes`. -/
def proofKv (encs : List Bytes) : Dict Bytes Bytes := encs.foldl (fun d r => d.set (H r) r) []

/-- `push(VERIFYING, proof_nodes)`: `mode` and `exempt` are pushed before the nodes are encoded.
Models state/trie/pruning_trie.py:65-74, `push`. -/
def pushVerifying (nodes : List Item) : M (List Bytes) := fun w =>
  let w1 : World := { w with spv := { w.spv with mode := .verifying :: w.spv.mode, proving := true } }
  match encodeEach nodes with
  | .ok encs => (.ok encs, { w1 with spv := { w1.spv with nodes := encs :: w1.spv.nodes } })
  | .error e => (.error e, w1)

/-- The body of the `try`: in the store of proof nodes; any exception is a refusal.
Models state/trie/pruning_trie.py:1112-1119, `verify_spv_proof`. -/
def tryVerify (root key value : Bytes) (encs : List Bytes) : M Bool := fun w =>
  let r := (setRootHash H root >>= fun node => getAt node key) { w with kv := proofKv H encs }
  let w' : World := { w with spv := r.2.spv.pop }
  match r.1 with
  | .ok (.str v) => (.ok (decide (v = value)), w')
  | _ => (.ok false, w')

/-- Models state/trie/pruning_trie.py:1101-1119, `verify_spv_proof`. -/
def verifySpvProof (root key value : Bytes) (nodes : List Item) : M Bool := do
  let encs ← pushVerifying nodes
  tryVerify H root key value encs

/-- `encoded_value`. Models state/pruning_state.py:125-128, `encode_kv_for_verification`. -/
def encodeValue (value : Option Bytes) : Except Err Bytes :=
  match value with
  | none => .ok []
  | some v => rlpEncode (.list [.str v])

/-- Models state/pruning_state.py:114-117, `verify_state_proof`. -/
def verifyStateProof (root key : Bytes) (value : Option Bytes) (nodes : List Item) : M Bool := do
  let v ← lift (encodeValue value)
  verifySpvProof H root key v nodes

/-- The loop over the keys and values. Models state/trie/pruning_trie.py:1138-1151, `verify_spv_proof_multi`. -/
def checkEach (node : Item) : List (Bytes × Bytes) → M Bool
  | [] => pure true
  | (k, v) :: rest => fun w =>
    match getAt node k w with
    | (.ok (.str x), w') => if x = v then checkEach node rest w' else (.ok false, w')
    | (_, w') => (.ok false, w')

/-- The part after `push`. Models state/trie/pruning_trie.py:1129-1151, `verify_spv_proof_multi`. -/
def tryVerifyMulti (root : Bytes) (keyValues : List (Bytes × Bytes)) (encs : List Bytes) : M Bool := fun w =>
  match setRootHash H root { w with kv := proofKv H encs } with
  | (.error _, w1) => (.ok false, { w with spv := w1.spv.pop })
  | (.ok node, w1) => match checkEach node keyValues w1 with
    | (r, w2) => (r, { w with spv := w2.spv.pop })

/-- `encode_kv_for_verification` for each pair. Models state/pruning_state.py:119-122, `verify_state_proof_multi`. -/
def encodeValues : List (Bytes × Option Bytes) → Except Err (List (Bytes × Bytes))
  | [] => .ok []
  | (k, v) :: rest =>
    match encodeValue v, encodeValues rest with
    | .ok e, .ok es => .ok ((k, e) :: es)
    | .error e, _ => .error e
    | _, .error e => .error e

/-- Models state/pruning_state.py:119-122, `verify_state_proof_multi`. -/
def verifyStateProofMulti (root : Bytes) (keyValues : List (Bytes × Option Bytes)) (nodes : List Item) : M Bool := do
  let kvs ← lift (encodeValues keyValues)
  let encs ← pushVerifying nodes
  tryVerifyMulti H root kvs encs

/-- Models state/trie/pruning_trie.py:1165-1166, `serialize_proof`. -/
def serializeProof (nodes : List Item) : Except Err Bytes := rlpEncode (.list nodes)

/-- With `serialized=True`. If the bytes decode to a byte string rather than a list, its elements are numbers, which
cannot be encoded: `push` raises after pushing the mode. Models state/trie/pruning_trie.py:1101-1108,
`verify_spv_proof`. -/
def verifySerialized (root key : Bytes) (value : Option Bytes) (bytes : Bytes) : M Bool := do
  let v ← lift (encodeValue value)
  match ← lift (rlpDecode bytes) with
  | .list nodes => verifySpvProof H root key v nodes
  | .str [] => verifySpvProof H root key v []
  | .str _ => fun w =>
    (.error .type, { w with spv := { w.spv with mode := .verifying :: w.spv.mode, proving := true } })

end Verif.Trie
