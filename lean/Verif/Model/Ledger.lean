import Verif.Model.Merkle
import Verif.Spec.Ledger
/-!
# Model of the ledger

`ledger/ledger.py` (append, recovery, proofs) and `plenum/common/ledger.py`
(staging of uncommitted transactions).

Transactions are an opaque type `τ`; `ser : τ → Bytes` is
`serialize_for_tree`. The transaction log stores the transactions themselves:
the model relies on the log serializer giving back a transaction with the same
`serialize_for_tree` (`ledger.py:100-104` re-serializes what it reads).
Disk writes are explicit so that a crash can be placed between any two.
-/
namespace Verif.Merkle

/-- What survives a crash: the transaction log (keys `1..n`) and the hash
store (`plenum/persistence/db_hash_store.py`). -/
structure Disk (τ : Type) where
  log : List τ
  store : HashStore Bytes

def Disk.empty {τ} : Disk τ := ⟨[], HashStore.empty⟩

/-- The atomic disk writes the ledger performs. -/
inductive DiskOp (τ : Type)
  | logPut (key : Nat) (t : τ)
  | store (w : StoreWrite Bytes)
  | resetNodes
  | resetLeaves

/-- Effect of one write. `logPut` is `KeyValueStorage.put` under key `key`
(`ledger.py:139-142`): an existing key is overwritten. Keys beyond `size+1` are
never used (proved: `key = size + 1` in every reachable state), so a new key
always extends the list. -/
def Disk.apply {τ} (d : Disk τ) : DiskOp τ → Disk τ
  | .logPut key t =>
    if key ≤ d.log.length then { d with log := d.log.set (key - 1) t }
    else { d with log := d.log ++ [t] }
  | .store w => { d with store := d.store.write w }
  | .resetNodes => { d with store := { d.store with nodes := [] } }
  | .resetLeaves => { d with store := { d.store with leaves := [] } }

/-- `ledger/ledger.py:64` `seqNo` and the in-memory tree. -/
structure Mem where
  tree : Tree Bytes
  seqNo : Nat

/-- What `add` returns (`ledger.py:149-154`): `seqNo`, `rootHash`, `auditPath`. -/
structure MerkleInfo where
  seqNo : Nat
  rootHash : Bytes
  auditPath : List Bytes

section
variable {τ : Type} (H : Bytes → Bytes) (ser : τ → Bytes)

/-- `ledger/ledger.py:144-154`, `_addToTreeSerialized`/`_build_merkle_proof`:
tree append, `seqNo += 1`, and the hash store writes it performs. -/
def addToTree (m : Mem) (t : τ) : Except MErr (List (DiskOp τ) × Mem × MerkleInfo) :=
  match append (TreeHasher.ofHash H) m.tree (ser t) with
  | .error e => .error e
  | .ok (path, tree', ws) =>
    .ok (ws.map .store, ⟨tree', m.seqNo + 1⟩,
      ⟨m.seqNo + 1, tree'.rootHash (TreeHasher.ofHash H), path⟩)

/-- `ledger/ledger.py:115-132`, `add`: first the transaction log, then the tree. -/
def add (m : Mem) (t : τ) : Except MErr (List (DiskOp τ) × Mem × MerkleInfo) :=
  match addToTree H ser m t with
  | .error e => .error e
  | .ok (ws, m', info) => .ok (.logPut (m.seqNo + 1) t :: ws, m', info)

/-- The loop of `recoverTreeFromTxnLog` (`ledger.py:99-105`). -/
def addAllToTree (m : Mem) : List τ → Except MErr (List (DiskOp τ) × Mem)
  | [] => .ok ([], m)
  | t :: ts =>
    match addToTree H ser m t with
    | .error e => .error e
    | .ok (ws, m', _) =>
      match addAllToTree m' ts with
      | .error e => .error e
      | .ok (ws', m'') => .ok (ws ++ ws', m'')

/-- `ledger/ledger.py:94-105`, `recoverTreeFromTxnLog` (not read-only):
`tree.reset()` resets the node database, then the leaf database
(`db_hash_store.py:107-111`), then every logged transaction is re-added. -/
def recoverFromLog (d : Disk τ) : Except MErr (List (DiskOp τ) × Mem) :=
  match addAllToTree H ser ⟨Tree.empty, 0⟩ d.log with
  | .error e => .error e
  | .ok (ws, m) => .ok (.resetNodes :: .resetLeaves :: ws, m)

/-- `ledger/ledger.py:107-113`, `recoverTreeFromHashStore`, with
`verify_consistency` (`compact_merkle_tree.py:280-289`). -/
def recoverFromHashStore (d : Disk τ) : Except MErr Mem :=
  let treeSize := d.store.leaves.length
  match inclusionProof (TreeHasher.ofHash H) d.store treeSize (treeSize + 1) with
  | .error e => .error e
  | .ok hs =>
    match Tree.update treeSize hs.reverse with
    | .error e => .error e
    | .ok tree =>
      if d.log.length ≠ treeSize then .error .consistencyVerificationFailed
      else if expectedNodeCount treeSize ≠ d.store.nodes.length then
        .error .consistencyVerificationFailed
      else .ok ⟨tree, treeSize⟩

/-- `ledger/ledger.py:70-92`, `recoverTree`, for a persistent hash store.
Genesis initialisation (lines 67-68) is a sequence of `add`s. -/
def recover (d : Disk τ) : Except MErr (List (DiskOp τ) × Mem) :=
  if d.store.leaves.length = 0 then recoverFromLog H ser d
  else
    match recoverFromHashStore H d with
    | .ok m => .ok ([], m)
    | .error .consistencyVerificationFailed => recoverFromLog H ser d
    | .error e => .error e

/-- `ledger/ledger.py:196-205`, `merkleInfo(seqNo)`. -/
def merkleInfo (d : Disk τ) (seqNo : Nat) : Except MErr (Bytes × List Bytes) :=
  if seqNo = 0 then .error .valueError
  else
    match merkleTreeHash (TreeHasher.ofHash H) d.store 0 seqNo with
    | .error e => .error e
    | .ok root =>
      match inclusionProof (TreeHasher.ofHash H) d.store (seqNo - 1) seqNo with
      | .error e => .error e
      | .ok p => .ok (root, p)

/-- `ledger/ledger.py:207-217`, `auditProof(seqNo)`: root, path, ledger size. -/
def auditProof (d : Disk τ) (m : Mem) (seqNo : Nat) : Except MErr (Bytes × List Bytes × Nat) :=
  if seqNo = 0 then .error .valueError
  else
    match merkleTreeHash (TreeHasher.ofHash H) d.store 0 m.tree.size with
    | .error e => .error e
    | .ok root =>
      match inclusionProof (TreeHasher.ofHash H) d.store (seqNo - 1) m.tree.size with
      | .error e => .error e
      | .ok p => .ok (root, p, m.tree.size)

/-! ## A process that may crash between any two disk writes -/

/-- A ledger process: running, or stopped with only its disk left. -/
inductive Proc (τ : Type)
  | up (d : Disk τ) (m : Mem)
  | down (d : Disk τ)
  | failed (d : Disk τ) (e : MErr)

/-- What can happen to it: a complete `add`, a crash after the first `k` disk
writes of an `add`, a complete recovery, a crash after the first `k` disk writes
of a recovery. -/
inductive ProcEvent (τ : Type)
  | add (t : τ)
  | addCrash (t : τ) (k : Nat)
  | boot
  | bootCrash (k : Nat)

def Proc.disk : Proc τ → Disk τ
  | .up d _ => d
  | .down d => d
  | .failed d _ => d

/-- Events that make no sense in a state (adding to a stopped process, booting a
running one) change nothing. An exception in `add` or `recover` stops the
process for good (`failed`). -/
def Proc.step : Proc τ → ProcEvent τ → Proc τ
  | .up d m, .add t =>
    match add H ser m t with
    | .ok (ws, m', _) => .up (ws.foldl Disk.apply d) m'
    | .error e => .failed d e
  | .up d m, .addCrash t k =>
    match add H ser m t with
    | .ok (ws, _, _) => .down ((ws.take k).foldl Disk.apply d)
    | .error e => .failed d e
  | .down d, .boot =>
    match recover H ser d with
    | .ok (ws, m) => .up (ws.foldl Disk.apply d) m
    | .error e => .failed d e
  | .down d, .bootCrash k =>
    match recover H ser d with
    | .ok (ws, _) => .down ((ws.take k).foldl Disk.apply d)
    | .error e => .failed d e
  | p, _ => p

/-! ## `plenum/common/ledger.py` -/

/-- `plenum/common/ledger.py:13-20`. -/
structure Ledger (τ : Type) where
  disk : Disk τ
  mem : Mem
  uTxns : List τ
  uRoot : Option Bytes
  uTree : Option (Tree Bytes)

/-- A ledger opened on empty storage. -/
def Ledger.new {τ} : Ledger τ := ⟨Disk.empty, ⟨Tree.empty, 0⟩, [], none, none⟩

/-- A ledger just recovered from `d` (`plenum/common/ledger.py:14-20`). -/
def Ledger.open (d : Disk τ) : Except MErr (Ledger τ) :=
  match recover H ser d with
  | .error e => .error e
  | .ok (ws, m) => .ok ⟨ws.foldl Disk.apply d, m, [], none, none⟩

/-- `plenum/common/ledger.py:26-28`, `uncommitted_root_hash`; an empty byte
string is falsy. -/
def Ledger.uncommittedRootHash (l : Ledger τ) : Bytes :=
  match l.uRoot with
  | some h => if h ≠ [] then h else l.mem.tree.rootHash (TreeHasher.ofHash H)
  | none => l.mem.tree.rootHash (TreeHasher.ofHash H)

/-- `plenum/common/ledger.py:22-24`, `uncommitted_size`. -/
def Ledger.uncommittedSize (l : Ledger τ) : Nat := l.mem.tree.size + l.uTxns.length

/-- The loop of `treeWithAppliedTxns` (`plenum/common/ledger.py:140-142`); the
temporary tree writes to its own in-memory store, which is dropped. -/
def applyTxns (tree : Tree Bytes) : List τ → Except MErr (Tree Bytes)
  | [] => .ok tree
  | t :: ts =>
    match append (TreeHasher.ofHash H) tree (ser t) with
    | .error e => .error e
    | .ok (_, tree', _) => applyTxns tree' ts

/-- `plenum/common/ledger.py:135`, `currentTree or self.tree`: a tree of size
zero is falsy (`__len__`). -/
def orTree (cur : Option (Tree Bytes)) (base : Tree Bytes) : Tree Bytes :=
  match cur with
  | some t => if t.size ≠ 0 then t else base
  | none => base

/-- `plenum/common/ledger.py:38-57`, `appendTxns`. The check that every
transaction has a `seqNo` (lines 41-47) is dropped. Returns the sequence-number
range. -/
def Ledger.appendTxns (l : Ledger τ) (txns : List τ) : Except MErr (Ledger τ × (Nat × Nat)) :=
  match applyTxns H ser (orTree l.uTree l.mem.tree) txns with
  | .error e => .error e
  | .ok tree =>
    let us := l.mem.tree.size + l.uTxns.length
    .ok ({ l with uTree := some tree, uRoot := some (tree.rootHash (TreeHasher.ofHash H)),
                  uTxns := l.uTxns ++ txns },
      if txns ≠ [] then (us + 1, us + txns.length) else (us, us))

/-- `plenum/common/ledger.py:59-65` → `ledger.py:115-132`: `add`/`append` on the
committed ledger. -/
def Ledger.add (l : Ledger τ) (t : τ) : Except MErr (Ledger τ × MerkleInfo) :=
  match Merkle.add H ser l.mem t with
  | .error e => .error e
  | .ok (ws, m, info) => .ok ({ l with disk := ws.foldl Disk.apply l.disk, mem := m }, info)

/-- Loop of `commitTxns` (`plenum/common/ledger.py:84-86`). -/
def Ledger.addAll (l : Ledger τ) : List τ → Except MErr (Ledger τ)
  | [] => .ok l
  | t :: ts =>
    match l.add H ser t with
    | .error e => .error e
    | .ok (l', _) => Ledger.addAll l' ts

/-- `plenum/common/ledger.py:75-100`, `commitTxns`. -/
def Ledger.commitTxns (l : Ledger τ) (count : Nat) :
    Except MErr (Ledger τ × (Nat × Nat) × List τ) :=
  let committedSize := l.mem.tree.size
  let committed := l.uTxns.take count
  match l.addAll H ser committed with
  | .error e => .error e
  | .ok l1 =>
    let rest := l1.uTxns.drop count
    let l2 := { l1 with uTxns := rest }
    let l3 := if rest = [] then { l2 with uTree := none, uRoot := none } else l2
    .ok (l3, if committed ≠ [] then (committedSize + 1, committedSize + count)
             else (committedSize, committedSize), committed)

/-- `plenum/common/ledger.py:102-127`, `discardTxns`; `LogicError` is `assertion`. -/
def Ledger.discardTxns (l : Ledger τ) (count : Nat) : Except MErr (Ledger τ) :=
  if count = 0 then .ok l
  else if count > l.uTxns.length then .error .assertion
  else
    let rest := l.uTxns.take (l.uTxns.length - count)
    if rest = [] then .ok { l with uTxns := rest, uTree := none, uRoot := none }
    else
      match applyTxns H ser (orTree none l.mem.tree) rest with
      | .error e => .error e
      | .ok tree => .ok { l with uTxns := rest, uTree := some tree,
                                 uRoot := some (tree.rootHash (TreeHasher.ofHash H)) }

/-- `plenum/common/ledger.py:145-148`, `reset_uncommitted`. -/
def Ledger.resetUncommitted (l : Ledger τ) : Ledger τ :=
  { l with uTxns := [], uRoot := none, uTree := none }

/-- `ledger/ledger.py:167-174`, `getBySeqNo`; a missing key raises `KeyError`. -/
def Ledger.getBySeqNo (l : Ledger τ) (seqNo : Nat) : Option τ :=
  if seqNo = 0 then none else l.disk.log[seqNo - 1]?

/-- `plenum/common/ledger.py:163-168`, `get_by_seq_no_uncommitted`. -/
def Ledger.getBySeqNoUncommitted (l : Ledger τ) (seqNo : Nat) : Option τ :=
  if seqNo > l.uncommittedSize then none
  else if seqNo > l.mem.tree.size then l.uTxns[seqNo - l.mem.tree.size - 1]?
  else l.getBySeqNo seqNo

/-- Drives the ledger through one operation of the public interface. An
exception leaves the ledger as it was at the raise (for `discardTxns` nothing
has been changed by then; the other operations are proved not to raise). -/
def Ledger.step (l : Ledger τ) : Spec.LedgerOp τ → Ledger τ
  | .append ts => match l.appendTxns H ser ts with | .ok (l', _) => l' | .error _ => l
  | .commit n => match l.commitTxns H ser n with | .ok (l', _) => l' | .error _ => l
  | .discard n => match l.discardTxns H ser n with | .ok l' => l' | .error _ => l
  | .reset => l.resetUncommitted
  | .add t => match l.add H ser t with | .ok (l', _) => l' | .error _ => l
  | .restart => match Ledger.open H ser l.disk with | .ok l' => l' | .error _ => l

def Ledger.run (l : Ledger τ) : List (Spec.LedgerOp τ) → Ledger τ
  | [] => l
  | o :: os => (l.step H ser o).run os

end
end Verif.Merkle
