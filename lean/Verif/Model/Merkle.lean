import Verif.Spec.Merkle
/-!
# Model of the `ledger` package's Merkle tree code

`ledger/tree_hasher.py`, `ledger/util.py`, `ledger/compact_merkle_tree.py`,
`ledger/merkle_verifier.py`, `ledger/hash_stores/hash_store.py`,
`plenum/persistence/db_hash_store.py`.

Python exceptions are values of `MErr`. The code is generic in the hash type
`α`; `TreeHasher.ofHash H` is the real thing (byte strings, a hash function
`H`), the other instance `TreeHasher.logged H` additionally records every
string passed to `H` and is used only to name the strings a run hashes.
-/
namespace Verif.Merkle

/-- The exceptions the modelled functions can raise. -/
inductive MErr
  | valueError | indexError | assertion | typeError | proofError
  | consistencyError | consistencyVerificationFailed | recursionError
  deriving DecidableEq, Repr

/-- `ledger/tree_hasher.py:4-28`, class `TreeHasher`: the three hash entry points. -/
structure TreeHasher (α : Type) where
  hashEmpty : α
  hashLeaf : Bytes → α
  hashChildren : α → α → α

/-- `ledger/tree_hasher.py:16-28`: `sha256()`, `sha256(b"\x00"+data)`,
`sha256(b"\x01"+left+right)`, with `H` for `sha256`. -/
def TreeHasher.ofHash (H : Bytes → Bytes) : TreeHasher Bytes where
  hashEmpty := H []
  hashLeaf d := H (0 :: d)
  hashChildren l r := H (1 :: (l ++ r))

/-- Instrumented copy of `TreeHasher.ofHash` (not in the code): each hash is
paired with the list of strings hashed to obtain it. -/
def TreeHasher.logged (H : Bytes → Bytes) : TreeHasher (Bytes × List Bytes) where
  hashEmpty := (H [], [[]])
  hashLeaf d := (H (0 :: d), [0 :: d])
  hashChildren l r := (H (1 :: (l.1 ++ r.1)), (1 :: (l.1 ++ r.1)) :: (l.2 ++ r.2))

/-! ## `ledger/util.py` -/

/-- `ledger/util.py:5-11`, `count_bits_set`. -/
def countBitsSet (i : Nat) : Nat :=
  if _h : i = 0 then 0 else countBitsSet (i &&& (i - 1)) + 1
termination_by i
decreasing_by have := @Nat.and_le_right i (i - 1); omega

/-- `ledger/util.py:24-32`, `highest_bit_set` (1-based; 0 for 0). -/
def highestBitSet (i : Nat) : Nat :=
  if _h : i = 0 then 0 else highestBitSet (i >>> 1) + 1
termination_by i
decreasing_by rw [Nat.shiftRight_eq_div_pow]; omega

/-- `ledger/util.py:18-21`, `lowest_bit_set`: `highest_bit_set(i & -i)`.
Python's `i & -i` on a non-negative `i` isolates the lowest set bit, written
here as `i - (i & (i-1))` because `Nat` has no negative numbers. -/
def lowestBitSet (i : Nat) : Nat := highestBitSet (i - (i &&& (i - 1)))

/-! ## `ledger/tree_hasher.py` -/

/-- The width of the left subtree used in `_hash_full` (`tree_hasher.py:53`,
`2**((width-1).bit_length()-1)`) and in `_subproof`/`_path`
(`compact_merkle_tree.py:229,243`, `1 << (len(bin(n-1))-3)`). `bit_length` and
`len(bin(x))-2` of a positive number are `highest_bit_set`. -/
def splitWidth (n : Nat) : Nat := 1 <<< (highestBitSet (n - 1) - 1)

theorem highestBitSet_eq (i : Nat) (h : i ≠ 0) : highestBitSet i = Nat.log2 i + 1 := by
  induction i using Nat.strongRecOn with
  | ind i ih =>
    rw [highestBitSet]
    simp only [h, dite_false]
    rw [Nat.shiftRight_eq_div_pow, Nat.pow_one]
    by_cases h2 : i / 2 = 0
    · have : i = 1 := by omega
      subst this
      simp [highestBitSet, Nat.log2_def]
    · rw [ih (i / 2) (by omega) h2, Nat.log2_def i]
      simp [show 2 ≤ i by omega]

theorem splitWidth_eq (n : Nat) (h : 2 ≤ n) : splitWidth n = Spec.splitPoint n := by
  unfold splitWidth Spec.splitPoint
  rw [highestBitSet_eq _ (by omega), Nat.shiftLeft_eq]
  simp

theorem splitWidth_pos (n : Nat) : 0 < splitWidth n := by
  unfold splitWidth
  rw [Nat.shiftLeft_eq, Nat.one_mul]
  exact Nat.two_pow_pos _

theorem splitWidth_lt {n : Nat} (h : 2 ≤ n) : splitWidth n < n := by
  rw [splitWidth_eq n h]; exact Spec.splitPoint_lt h

/-- `ledger/tree_hasher.py:30-62`, `_hash_full(leaves, l_idx, r_idx)` applied
to the slice `leaves[l_idx:r_idx]`; the index-range check at lines 41-43 is
dropped because slices are always in range. Returns the root and the hashes of
the full subtrees in descending order of size. -/
def hashFull {α} (th : TreeHasher α) : List Bytes → α × List α
  | [] => (th.hashEmpty, [])
  | [d] => (th.hashLeaf d, [th.hashLeaf d])
  | a :: b :: rest =>
    let leaves := a :: b :: rest
    let w := splitWidth leaves.length
    let l := hashFull th (leaves.take w)
    let r := hashFull th (leaves.drop w)
    let root := th.hashChildren l.1 r.1
    (root, if w * 2 = leaves.length then [root] else l.2 ++ r.2)
termination_by leaves => leaves.length
decreasing_by
  · have := splitWidth_lt (n := (a :: b :: rest).length) (by simp)
    simp only [List.length_take]; omega
  · have := splitWidth_pos (a :: b :: rest).length
    simp only [List.length_drop, List.length_cons] at *; omega

/-- `ledger/tree_hasher.py:64-69`, `_hash_fold`: fold from the right;
`next()` on an empty iterator raises, modelled by `none`. -/
def hashFold {α} (th : TreeHasher α) : List α → Option α
  | [] => none
  | [h] => some h
  | h :: hs => (hashFold th hs).map (th.hashChildren h)

/-! ## `ledger/compact_merkle_tree.py` -/

/-- `compact_merkle_tree.py:22-45`: the in-memory part of `CompactMerkleTree`.
`__mintree_height` is `lowestBitSet size`, recomputed instead of cached, and
`__root_hash` (a cache) is recomputed. -/
structure Tree (α : Type) where
  size : Nat
  hashes : List α
  deriving Repr

/-- `compact_merkle_tree.py:22-30` with default arguments. -/
def Tree.empty {α} : Tree α := ⟨0, []⟩

/-- `compact_merkle_tree.py:35-45`, `_update`. -/
def Tree.update {α} (size : Nat) (hashes : List α) : Except MErr (Tree α) :=
  if hashes.length ≠ countBitsSet size then .error .valueError
  else .ok ⟨size, hashes⟩

/-- `compact_merkle_tree.py:81-88`, property `root_hash`. -/
def Tree.rootHash {α} (th : TreeHasher α) (t : Tree α) : α :=
  match hashFold th t.hashes with
  | some h => h
  | none => th.hashEmpty

/-- `compact_merkle_tree.py:138-153`, `__push_subtree_hash`. Returns the new
tree and the list of `(hash, height)` of created interior nodes. -/
def pushSubtreeHash {α} (th : TreeHasher α) (t : Tree α) (subtreeH : Nat) (subHash : α) :
    Except MErr (Tree α × List (α × Nat)) :=
  let size := 1 <<< (subtreeH - 1)
  let mintreeH := lowestBitSet t.size
  if subtreeH < mintreeH ∨ mintreeH = 0 then
    match Tree.update (t.size + size) (t.hashes ++ [subHash]) with
    | .error e => .error e
    | .ok t' => .ok (t', [])
  else if subtreeH ≠ mintreeH then .error .assertion
  else
    match _h : t.hashes.getLast? with
    | none => .error .indexError
    | some prevHash =>
      match Tree.update (t.size - size) t.hashes.dropLast with
      | .error e => .error e
      | .ok _ =>
        let newMin := lowestBitSet (t.size - size)
        if ¬ (mintreeH < newMin ∨ newMin = 0) then .error .assertion
        else
          let nextHash := th.hashChildren prevHash subHash
          match pushSubtreeHash th ⟨t.size - size, t.hashes.dropLast⟩ (subtreeH + 1) nextHash with
          | .error e => .error e
          | .ok (t', ns) => .ok (t', (nextHash, subtreeH) :: ns)
termination_by t.hashes.length
decreasing_by
  have : t.hashes ≠ [] := by intro h0; simp [h0] at _h
  have := List.length_pos_iff.2 this
  simp only [List.length_dropLast]; omega

/-- A write to the hash store, in the order performed by `_push_subtree`. -/
inductive StoreWrite (α : Type)
  | leaf (h : α)
  | node (start height : Nat) (h : α)
  deriving Repr

/-- `compact_merkle_tree.py:95-136`, `_push_subtree`: new tree and the store
writes (`writeLeaf` for each of `hashes`, then `writeNode((tree_size, height, h))`,
`tree_size` being the size after the push). -/
def pushSubtree {α} (th : TreeHasher α) (t : Tree α) (leaves : List Bytes) :
    Except MErr (Tree α × List (StoreWrite α)) :=
  let size := leaves.length
  if countBitsSet size ≠ 1 then .error .valueError
  else
    let subtreeH := lowestBitSet size
    let mintreeH := lowestBitSet t.size
    if mintreeH > 0 ∧ subtreeH > mintreeH then .error .valueError
    else
      let r := hashFull th leaves
      match pushSubtreeHash th t subtreeH r.1 with
      | .error e => .error e
      | .ok (t', ns) =>
        .ok (t', r.2.map .leaf ++ ns.map (fun p => .node t'.size p.2 p.1))

/-- `compact_merkle_tree.py:155-160`, `append`: returns the audit path, the
new tree and the store writes. -/
def append {α} (th : TreeHasher α) (t : Tree α) (leaf : Bytes) :
    Except MErr (List α × Tree α × List (StoreWrite α)) :=
  let auditPath := t.hashes.reverse
  match pushSubtree th t [leaf] with
  | .error e => .error e
  | .ok (t', ws) => .ok (auditPath, t', ws)

/-- `compact_merkle_tree.py:172-181`, the loop of `extend`: keep pushing full
subtrees; returns the tree and the leaves not yet consumed. -/
def extendLoop {α} (th : TreeHasher α) (t : Tree α) (rest : List Bytes) :
    Except MErr (Tree α × List Bytes) :=
  let maxH := lowestBitSet t.size
  if _h : maxH > 0 ∧ rest.length ≥ 1 <<< (maxH - 1) then
    match pushSubtree th t (rest.take (1 <<< (maxH - 1))) with
    | .error e => .error e
    | .ok (t', _) => extendLoop th t' (rest.drop (1 <<< (maxH - 1)))
  else .ok (t, rest)
termination_by rest.length
decreasing_by
  have h1 : 0 < 1 <<< (lowestBitSet t.size - 1) := by
    rw [Nat.shiftLeft_eq, Nat.one_mul]; exact Nat.two_pow_pos _
  have h2 : rest.length ≥ 1 <<< (lowestBitSet t.size - 1) := _h.2
  simp only [List.length_drop]; omega

/-- `compact_merkle_tree.py:162-185`, `extend`. -/
def extend {α} (th : TreeHasher α) (t : Tree α) (newLeaves : List Bytes) :
    Except MErr (Tree α) :=
  let finalSize := t.size + newLeaves.length
  match extendLoop th t newLeaves with
  | .error e => .error e
  | .ok (t1, rest) =>
    let res := if rest ≠ [] then Tree.update finalSize (t1.hashes ++ (hashFull th rest).2)
               else .ok t1
    match res with
    | .error e => .error e
    | .ok t2 => if t2.size ≠ finalSize then .error .assertion else .ok t2

/-! ## Hash store -/

/-- `plenum/persistence/db_hash_store.py`: the persistent hash store. `leaves`
are the values under keys `1..leafCount`; `nodes` is the key/value content of
the node database. -/
structure HashStore (α : Type) where
  leaves : List α
  nodes : List (Nat × α)

def HashStore.empty {α} : HashStore α := ⟨[], []⟩

/-- `ledger/hash_stores/hash_store.py:87-104`, `getNodePosition(start, height)`.
`height or pwr` replaces a zero height by `pwr`. For `start = 0` Python
computes with `pow(2,-1)`; this is never reached and the model returns 0. -/
def getNodePosition (start height : Nat) : Nat :=
  if _h : start = 0 then 0
  else
    let pwr := highestBitSet start - 1
    let height := if height = 0 then pwr else height
    if countBitsSet start = 1 then start - 1 + height - pwr
    else
      let c := 2 ^ pwr
      getNodePosition' c pwr + getNodePosition (start - c) height
termination_by start
decreasing_by
  have : 0 < 2 ^ (highestBitSet start - 1) := Nat.two_pow_pos _
  omega
where
  /-- the non-recursive call `getNodePosition(2^pwr, pwr)` (line 103): its
  argument has one bit set, so line 100 applies with `adj = height - pwr`. -/
  getNodePosition' (c height : Nat) : Nat := c - 1 + height - (highestBitSet c - 1)

/-- `ledger/hash_stores/hash_store.py:106-127`, `getPath(seqNo, offset)`.
`pwr <= 0` is `highestBitSet .. <= 1`. -/
def getPath (seqNo offset : Nat) : Except MErr (List Nat × List Nat) :=
  if _h : offset ≥ seqNo then .error .valueError
  else
    let hb := highestBitSet (seqNo - 1 - offset)
    if hb ≤ 1 then
      if seqNo % 2 = 0 then .ok ([seqNo - 1], []) else .ok ([], [])
    else
      let pwr := hb - 1
      let c := 2 ^ pwr + offset
      match getPath seqNo c with
      | .error e => .error e
      | .ok (leafs, nodes) => .ok (leafs, nodes ++ [getNodePosition c pwr])
termination_by seqNo - offset
decreasing_by
  have : 0 < 2 ^ (highestBitSet (seqNo - 1 - offset) - 1) := Nat.two_pow_pos _
  omega

/-- Key/value `put` on the node database. -/
def kvPut {α} (m : List (Nat × α)) (k : Nat) (v : α) : List (Nat × α) :=
  (k, v) :: m.filter (fun p => p.1 ≠ k)

/-- Key/value `get`. -/
def kvGet {α} (m : List (Nat × α)) (k : Nat) : Option α :=
  (m.find? (fun p => p.1 = k)).map (·.2)

/-- `db_hash_store.py:39-46`, `writeLeaf` (key `leafCount+1`) and `writeNode`
(key `getNodePosition(start, height)`). -/
def HashStore.write {α} (s : HashStore α) : StoreWrite α → HashStore α
  | .leaf h => { s with leaves := s.leaves ++ [h] }
  | .node start height h => { s with nodes := kvPut s.nodes (getNodePosition start height) h }

/-- `db_hash_store.py:48-61`, `readLeaf`: 1-based; a missing key is logged and
`None` returned. -/
def HashStore.readLeaf {α} (s : HashStore α) (pos : Nat) : Option α :=
  if pos = 0 then none else s.leaves[pos - 1]?

/-- `db_hash_store.py:51-61`, `readNode`. -/
def HashStore.readNode {α} (s : HashStore α) (pos : Nat) : Option α := kvGet s.nodes pos

/-- `compact_merkle_tree.py:197-211`, `merkle_tree_hash(start, end)`. Hashing a
missing (`None`) value raises `TypeError`. The `lru_cache` is dropped. -/
def merkleTreeHash {α} (th : TreeHasher α) (s : HashStore α) (start stop : Nat) : Except MErr α :=
  if ¬ stop > start then .error .valueError
  else if stop - start = 1 then
    match s.readLeaf stop with
    | some h => .ok h
    | none => .error .typeError
  else
    match getPath stop start with
    | .error e => .error e
    | .ok (leafs, nodes) =>
      let hashes := s.readLeaf stop :: (leafs.map s.readLeaf ++ nodes.map s.readNode)
      match hashes.mapM id with
      | none => .error .typeError
      | some hs =>
        match hashFold th hs.reverse with
        | some h => .ok h
        | none => .error .typeError

/-- `compact_merkle_tree.py:221-235`, `_subproof(m, start_n, end_n, b)`. The
calls that would recurse forever or on negative widths (`m = 0` or `m > n`)
give `none`. -/
def subproof (m start stop : Nat) (b : Bool) : Option (List (Nat × Nat)) :=
  let n := stop - start
  if m = n then (if b then some [] else some [(start, stop)])
  else if _h : n < 2 then none
  else
    let k := splitWidth n
    if m ≤ k then
      (subproof m start (start + k) b).map (· ++ [(start + k, stop)])
    else
      (subproof (m - k) (start + k) stop false).map (· ++ [(start, start + k)])
termination_by stop - start
decreasing_by
  · have := splitWidth_lt (n := stop - start) (by omega)
    omega
  · have := splitWidth_pos (stop - start)
    omega

/-- `compact_merkle_tree.py:237-249`, `_path(m, start_n, end_n)`. -/
def auditPathRanges (m start stop : Nat) : List (Nat × Nat) :=
  let n := stop - start
  if _h : n < 2 then []
  else
    let k := splitWidth n
    if m < k then auditPathRanges m start (start + k) ++ [(start + k, stop)]
    else auditPathRanges (m - k) (start + k) stop ++ [(start, start + k)]
termination_by stop - start
decreasing_by
  · have := splitWidth_lt (n := stop - start) (by omega)
    omega
  · have := splitWidth_pos (stop - start)
    omega

/-- `compact_merkle_tree.py:213-215`, `consistency_proof(first, second)`. -/
def consistencyProof {α} (th : TreeHasher α) (s : HashStore α) (first second : Nat) :
    Except MErr (List α) :=
  match subproof first 0 second true with
  | none => .error .recursionError
  | some rs => rs.mapM (fun r => merkleTreeHash th s r.1 r.2)

/-- `compact_merkle_tree.py:217-219`, `inclusion_proof(start, end)`. -/
def inclusionProof {α} (th : TreeHasher α) (s : HashStore α) (start stop : Nat) :
    Except MErr (List α) :=
  (auditPathRanges start 0 stop).mapM (fun r => merkleTreeHash th s r.1 r.2)

/-- `compact_merkle_tree.py:270-279`, `get_expected_node_count`. -/
def expectedNodeCount (leafCount : Nat) : Nat :=
  if _h : leafCount > 1 then leafCount / 2 + expectedNodeCount (leafCount / 2) else 0
termination_by leafCount

/-! ## `ledger/merkle_verifier.py` -/

/-- `merkle_verifier.py:87-89`: `while node % 2: node //= 2; last_node //= 2`. -/
def stripRight (node last : Nat) : Nat × Nat :=
  if _h : node % 2 = 1 then stripRight (node / 2) (last / 2) else (node, last)
termination_by node
decreasing_by omega

/-- `merkle_verifier.py:118-121`: the loop up to the root of the larger tree. -/
def consLoop2 {α} (th : TreeHasher α) (last : Nat) (newHash : α) (p : List α) : Option α :=
  if _h : last = 0 then some newHash
  else match p with
    | [] => none
    | n :: p' => consLoop2 th (last / 2) (th.hashChildren newHash n) p'
termination_by last
decreasing_by omega

/-- `merkle_verifier.py:101-114` followed by lines 118-121: computes
`(old_hash, new_hash)`; `none` is `StopIteration`. -/
def consLoop1 {α} (th : TreeHasher α) (node last : Nat) (oldHash newHash : α) (p : List α) :
    Option (α × α) :=
  if _h : node = 0 then (consLoop2 th last newHash p).map (fun nh => (oldHash, nh))
  else if node % 2 = 1 then
    match p with
    | [] => none
    | nx :: p' =>
      consLoop1 th (node / 2) (last / 2) (th.hashChildren nx oldHash) (th.hashChildren nx newHash) p'
  else if node < last then
    match p with
    | [] => none
    | nx :: p' => consLoop1 th (node / 2) (last / 2) oldHash (th.hashChildren newHash nx) p'
  else consLoop1 th (node / 2) (last / 2) oldHash newHash p
termination_by node
decreasing_by all_goals omega

/-- `merkle_verifier.py:82-121`: the two computed hashes for
`0 < old_size < new_size`. -/
def consHashes {α} (th : TreeHasher α) (oldSize newSize : Nat) (oldRoot : α) (proof : List α) :
    Option (α × α) :=
  let nl := stripRight (oldSize - 1) (newSize - 1)
  if nl.1 ≠ 0 then
    match proof with
    | [] => none
    | h :: p => consLoop1 th nl.1 nl.2 h h p
  else consLoop1 th nl.1 nl.2 oldRoot oldRoot proof

/-- `merkle_verifier.py:22-153`, `verify_tree_consistency`. Sizes are naturals,
so the negative-size check (line 50) is vacuous. -/
def verifyTreeConsistency {α} [DecidableEq α] (th : TreeHasher α) (oldSize newSize : Nat)
    (oldRoot newRoot : α) (proof : List α) : Except MErr Bool :=
  if oldSize > newSize then .error .valueError
  else if oldSize = newSize then
    if oldRoot = newRoot then .ok true else .error .consistencyError
  else if oldSize = 0 then .ok true
  else
    match consHashes th oldSize newSize oldRoot proof with
    | none => .error .proofError
    | some (oldHash, newHash) =>
      if newHash ≠ newRoot then .error .proofError
      else if oldHash ≠ oldRoot then .error .consistencyError
      else .ok true

/-- `merkle_verifier.py:155-181`, `_calculate_root_hash_from_audit_path`, with
`last = tree_size - 1`. `none` is `ProofError` (too short or too long). -/
def calcRoot {α} (th : TreeHasher α) (hash : α) (idx last : Nat) (path : List α) : Option α :=
  if _h : last = 0 then (if path = [] then some hash else none)
  else match path with
    | [] => none
    | a :: path' =>
      if idx % 2 = 1 then calcRoot th (th.hashChildren a hash) (idx / 2) (last / 2) path'
      else if idx < last then calcRoot th (th.hashChildren hash a) (idx / 2) (last / 2) path'
      else calcRoot th hash (idx / 2) (last / 2) path
termination_by last
decreasing_by all_goals omega

/-- `merkle_verifier.py:195-238`, `verify_leaf_hash_inclusion`. -/
def verifyLeafHashInclusion {α} [DecidableEq α] (th : TreeHasher α) (leafHash : α) (idx : Nat)
    (proof : List α) (treeSize : Nat) (root : α) : Except MErr Bool :=
  if treeSize ≤ idx then .error .valueError
  else
    match calcRoot th leafHash idx (treeSize - 1) proof with
    | none => .error .proofError
    | some h => if h = root then .ok true else .error .proofError

/-- `merkle_verifier.py:240-266`, `verify_leaf_inclusion`. -/
def verifyLeafInclusion {α} [DecidableEq α] (th : TreeHasher α) (leaf : Bytes) (idx : Nat)
    (proof : List α) (treeSize : Nat) (root : α) : Except MErr Bool :=
  verifyLeafHashInclusion th (th.hashLeaf leaf) idx proof treeSize root

/-- `merkle_verifier.py:183-193`, `audit_path_length`. -/
def auditPathLength (idx last : Nat) : Nat :=
  if _h : last = 0 then 0
  else (if idx % 2 = 1 ∨ idx < last then 1 else 0) + auditPathLength (idx / 2) (last / 2)
termination_by last
decreasing_by omega

/-! ## Runs of the tree, strings hashed by the verifier -/

/-- One call on a tree: `append(leaf)` or `extend(leaves)`. -/
inductive TreeOp
  | append (leaf : Bytes)
  | extend (leaves : List Bytes)

/-- The leaves a call adds. -/
def TreeOp.leaves : TreeOp → List Bytes
  | .append d => [d]
  | .extend ds => ds

/-- A sequence of calls of `compact_merkle_tree.py:134-185` on one tree. -/
def Tree.run {α} (th : TreeHasher α) (t : Tree α) : List TreeOp → Except MErr (Tree α)
  | [] => .ok t
  | .append d :: os =>
    match Merkle.append th t d with
    | .error e => .error e
    | .ok (_, t', _) => Tree.run th t' os
  | .extend ds :: os =>
    match Merkle.extend th t ds with
    | .error e => .error e
    | .ok t' => Tree.run th t' os

/-- The strings hashed by `verify_leaf_inclusion` (same run, logging hasher). -/
def inclusionLog (H : Bytes → Bytes) (leaf : Bytes) (idx : Nat) (proof : List Bytes) (treeSize : Nat) :
    List Bytes :=
  match calcRoot (TreeHasher.logged H) ((TreeHasher.logged H).hashLeaf leaf) idx (treeSize - 1)
      (proof.map (fun b => (b, []))) with
  | some r => r.2
  | none => []

/-- The strings hashed by `verify_tree_consistency` (same run, logging hasher). -/
def consistencyLog (H : Bytes → Bytes) (oldSize newSize : Nat) (oldRoot : Bytes) (proof : List Bytes) :
    List Bytes :=
  match consHashes (TreeHasher.logged H) oldSize newSize (oldRoot, []) (proof.map (fun b => (b, []))) with
  | some r => r.1.2 ++ r.2.2
  | none => []

end Verif.Merkle
