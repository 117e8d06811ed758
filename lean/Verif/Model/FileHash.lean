/-!
# Model of the hash store in files

`FileHashStore` (ledger/hash_stores/file_hash_store.py) with the `BinaryFileStore` under it
(storage/binary_file_store.py, storage/kv_store_single_file.py): two files, of leaf hashes and of node hashes, each
entry of a fixed size. A file is its bytes, bytes are numbers. Text as data, which is encoded first, is
left out. Positions are natural numbers; a negative one is refused by `seek` as zero is.
-/
namespace Verif.FileHash

abbrev Bytes := List Nat

/-- ledger/hash_stores/file_hash_store.py:35-45, `write`: nothing when it raises `ValueError`. `put`
(storage/kv_store_single_file.py:27-57) writes the data alone, as line numbers are keys, no hash is kept and
`lineSep` is empty; the file is opened for appending (storage/binary_file_store.py:40-41, `_init_db_file`). -/
def write (data file : Bytes) (size : Nat) : Option Bytes :=
  if data.length ≠ size then none else some (file ++ data)

/-- ledger/hash_stores/file_hash_store.py:47-50, `read`: nothing when `seek` raises, for a negative offset. -/
def read (file : Bytes) (entryNo size : Nat) : Option Bytes :=
  if entryNo = 0 then none else some ((file.drop ((entryNo - 1) * size)).take size)

/-- ledger/hash_stores/file_hash_store.py:75-83, `readNode`, and 85-89, `readLeaf`: nothing when it raises. -/
def readEntry (file : Bytes) (size pos : Nat) : Option Bytes :=
  match read file pos size with
  | none => none
  | some data => if data.length < size then none else some data

/-- ledger/hash_stores/file_hash_store.py:97-103, `leafCount` and `nodeCount`. -/
def count (file : Bytes) (size : Nat) : Nat := file.length / size

/-- ledger/hash_stores/file_hash_store.py:52-60, `dataGen`: what is yielded, and whether it ends with an
exception. `fuel` bounds the number of steps; `readRange` gives enough of it. -/
def dataGen (file : Bytes) (size endpos : Nat) : (fuel i : Nat) → List Bytes × Bool
  | 0, _ => ([], true)
  | fuel + 1, i =>
    match readEntry file size i with
    | none => ([], true)
    | some data =>
      if i + 1 ≤ endpos then ([data], false)
      else
        let r := dataGen file size endpos fuel (i + 1)
        (data :: r.1, r.2)

/-- ledger/hash_stores/file_hash_store.py:91-95, `readLeafs` and `readNodes`. No more entries can be read than
the file has bytes. -/
def readRange (file : Bytes) (size startpos endpos : Nat) : List Bytes × Bool :=
  dataGen file size endpos (file.length + 1) startpos

/-- ledger/hash_stores/file_hash_store.py:12-29, `__init__`: the two files and the sizes of their entries. -/
structure Store where
  leafSize : Nat := 32
  nodeSize : Nat := 32
  leaves : Bytes := []
  nodes : Bytes := []
  deriving DecidableEq, Repr

/-- What is done to a store. A node comes with its start and height. A crash while an entry is written leaves its
first bytes in the file. -/
inductive Op
  | writeLeaf (data : Bytes)
  | writeNode (start height : Nat) (data : Bytes)
  | reset
  | reopen
  | crashAtLeaf (data : Bytes) (done : Nat)
  | crashAtNode (data : Bytes) (done : Nat)
  deriving DecidableEq, Repr

/-- ledger/hash_stores/file_hash_store.py:62-70, `writeNode`, 72-73, `writeLeaf`, 109-115, `open` and `close`
(storage/binary_file_store.py:83-84: nothing is added at the end of the file), and 117-120, `reset`
(storage/kv_store_single_file.py:66-67). A write that raises leaves the store as it is. -/
def Store.step (s : Store) : Op → Store
  | .writeLeaf d =>
    match write d s.leaves s.leafSize with
    | none => s
    | some f => { s with leaves := f }
  | .writeNode _ _ d =>
    match write d s.nodes s.nodeSize with
    | none => s
    | some f => { s with nodes := f }
  | .reset => { s with leaves := [], nodes := [] }
  | .reopen => s
  | .crashAtLeaf d done => { s with leaves := s.leaves ++ d.take done }
  | .crashAtNode d done => { s with nodes := s.nodes ++ d.take done }

def Store.run (s : Store) (ops : List Op) : Store := ops.foldl Store.step s

def Store.readLeaf (s : Store) (pos : Nat) : Option Bytes := readEntry s.leaves s.leafSize pos
def Store.readNode (s : Store) (pos : Nat) : Option Bytes := readEntry s.nodes s.nodeSize pos
def Store.leafCount (s : Store) : Nat := count s.leaves s.leafSize
def Store.nodeCount (s : Store) : Nat := count s.nodes s.nodeSize

end Verif.FileHash
