import Verif.Model.Dict
/-!
# Chunked file store

A directory of files, each named by the position of its first record. A file is
the list of its records: that a single file gives back the lines appended to it
(storage/text_file_store.py, storage/binary_serializer_based_file_store.py) is
taken for granted, so are records that are neither empty nor contain the line
separator. The store is one opened with `isLineNoKey`, as the ledger opens it:
the key given to `put` is ignored.
-/
namespace Verif.Chunked
variable {V : Type}

/-- storage/chunked_file_store.py:36-74, `__init__`: the directory, the current chunk and how many records
it has, plus one. -/
structure Store (V : Type) where
  chunkSize : Nat
  files : Dict Nat (List V)
  currentIndex : Nat
  itemNum : Nat

/-- `KeyError`, `ValueError` and a failed assertion. -/
inductive Err
  | key
  | value
  | assertion
  deriving DecidableEq, Repr

/-- storage/chunked_file_store.py:23: `firstChunkIndex`. -/
def firstChunkIndex : Nat := 1

/-- storage/chunked_file_store.py:133-142, `_openChunk`: opening a file that is not there creates it. -/
def openChunk (files : Dict Nat (List V)) (index : Nat) : Dict Nat (List V) :=
  if files.has index then files else files.set index []

/-- The records of a file. -/
def lines (files : Dict Nat (List V)) (index : Nat) : List V := (files.get? index).getD []

/-- Insertion into a sorted list. -/
def insertSorted (n : Nat) : List Nat → List Nat
  | [] => [n]
  | m :: r => if n ≤ m then n :: m :: r else m :: insertSorted n r

/-- storage/chunked_file_store.py:215-226, `_listChunks`. Every file of the directory is a chunk. -/
def listChunks (files : Dict Nat (List V)) : List Nat := files.keys.foldr insertSorted []

/-- storage/chunked_file_store.py:97-105, `_findLatestChunk`. -/
def findLatestChunk (files : Dict Nat (List V)) : Nat := ((listChunks files).getLast?).getD firstChunkIndex

/-- storage/chunked_file_store.py:116-131, `_useChunk`, when another chunk is current or none is. -/
def useChunk (s : Store V) (index : Nat) : Store V :=
  let files := openChunk s.files index
  { s with files := files, currentIndex := index, itemNum := (lines files index).length + 1 }

/-- storage/kv_store_file.py:58-60, `open`, with storage/chunked_file_store.py:83-89, `_init_db_file`, and
storage/chunked_file_store.py:91-95, `_useLatestChunk`. -/
def openStore (chunkSize : Nat) (files : Dict Nat (List V)) : Store V :=
  useChunk ⟨chunkSize, files, 0, 0⟩ (findLatestChunk files)

/-- storage/chunked_file_store.py:144-158, `_get_key_location`. -/
def getKeyLocation (chunkSize key : Nat) : Nat × Nat :=
  if key = 0 then (1, 0)
  else
    let remainder := key % chunkSize
    let addend := firstChunkIndex
    (if remainder ≠ 0 then key - remainder + addend else key - chunkSize + addend,
     if remainder ≠ 0 then remainder else chunkSize)

/-- storage/chunked_file_store.py:160-165, `put`. -/
def put (s : Store V) (value : V) : Store V :=
  let s := if s.itemNum > s.chunkSize then { useChunk s (s.currentIndex + s.chunkSize) with itemNum := 1 } else s
  { s with files := s.files.set s.currentIndex (lines s.files s.currentIndex ++ [value]), itemNum := s.itemNum + 1 }

/-- storage/kv_store_file.py:127-138, `_baseIterator` when line numbers are keys: from line `i` on. -/
def lineIter (start stop : Option Nat) : Nat → List V → List (Nat × V)
  | _, [] => []
  | i, v :: r =>
    if stop.any (fun e => i > e) then []
    else if start.all (fun b => i ≥ b) then (i, v) :: lineIter start stop (i + 1) r
    else lineIter start stop (i + 1) r

/-- storage/kv_store_file.py:62-70, `get`, of one file: the last of the matching lines. -/
def chunkGet (l : List V) (key : Nat) : Except Err V :=
  match ((lineIter none none 1 l).filter (fun e => e.1 = key)).getLast? with
  | some e => .ok e.2
  | none => .error .key

/-- storage/chunked_file_store.py:167-177, `get`. The store is given back too, as the files may change. -/
def get (s : Store V) (key : Nat) : Except Err V × Store V :=
  let loc := getKeyLocation s.chunkSize key
  let files := openChunk s.files loc.1
  (chunkGet (lines files loc.1) loc.2, { s with files := files })

/-- storage/chunked_file_store.py:291-305, `size`. -/
def size (s : Store V) : Nat :=
  let chunks := listChunks s.files
  match chunks.getLast? with
  | none => 0
  | some last => (chunks.length - 1) * s.chunkSize + (lines s.files last).length

/-- storage/chunked_file_store.py:273-285: the loop over the chunks of a range, at most `fuel` of them. Keys are
numbers here; the code gives text in this case and numbers in the one-chunk case. -/
def rangeLoop (chunkSize startChunk startOffset endChunk endOffset : Nat) :
    Nat → Nat → Dict Nat (List V) → List (Nat × V) × Dict Nat (List V)
  | 0, _, files => ([], files)
  | fuel + 1, cur, files =>
    if cur ≤ endChunk then
      let files := openChunk files cur
      let l := lines files cur
      let part :=
        if cur = startChunk then lineIter (some startOffset) none 1 l
        else if cur = endChunk then lineIter none (some endOffset) 1 l
        else lineIter (some 1) (some chunkSize) 1 l
      let rest := rangeLoop chunkSize startChunk startOffset endChunk endOffset fuel (cur + chunkSize) files
      (part.map (fun e => (cur + e.1 - 1, e.2)) ++ rest.1, rest.2)
    else ([], files)

/-- storage/chunked_file_store.py:262-285: the part of `_get_range` with both ends known. -/
def getRangeBetween (s : Store V) (start stop : Nat) : Except Err (List (Nat × V)) × Store V :=
  let a := getKeyLocation s.chunkSize start
  let b := getKeyLocation s.chunkSize stop
  if a.1 = b.1 then
    if b.2 ≥ a.2 then
      let files := openChunk s.files a.1
      (.ok ((List.range' start (stop + 1 - start)).zip ((lineIter (some a.2) (some b.2) 1 (lines files a.1)).map Prod.snd)),
        { s with files := files })
    else (.error .assertion, s)
  else
    let r := rangeLoop s.chunkSize a.1 a.2 b.1 b.2 (b.1 + 1) a.1 s.files
    (.ok r.1, { s with files := r.2 })

/-- storage/chunked_file_store.py:247-285, `_get_range`. The bounds are positive or absent. -/
def getRange (s : Store V) (start stop : Option Nat) : Except Err (List (Nat × V)) × Store V :=
  match start, stop with
  | some a, some b =>
    if a > b then (.error .value, s)
    else if size s = 0 then (.ok [], s)
    else if a = b then
      match get s a with
      | (.ok v, s) => (.ok [(a, v)], s)
      | (.error e, s) => (.error e, s)
    else getRangeBetween s a b
  | a, b => if size s = 0 then (.ok [], s) else getRangeBetween s (a.getD 1) (b.getD (size s))

/-- storage/chunked_file_store.py:191-201, `_lines`. -/
def allLines (s : Store V) : List V := (listChunks s.files).flatMap (lines s.files)

/-- storage/chunked_file_store.py:228-245, `iterator`, of keys and values. A bound of 0 counts as absent
when the other is absent too. -/
def iterator (s : Store V) (start stop : Option Nat) : Except Err (List (Nat × V)) × Store V :=
  if start.getD 0 ≠ 0 ∨ stop.getD 0 ≠ 0 then getRange s start stop
  else (.ok (lineIter none none 1 (allLines s)), s)

/-- What a user does with the store. -/
inductive Event (V : Type)
  | put (v : V)
  | get (key : Nat)
  | range (start stop : Option Nat)
  | reopen

/-- One call. -/
def step (s : Store V) : Event V → Store V
  | .put v => put s v
  | .get k => (get s k).2
  | .range a b => (iterator s a b).2
  | .reopen => openStore s.chunkSize s.files

/-- A new store after some calls. -/
def run (chunkSize : Nat) (h : List (Event V)) : Store V := h.foldl step (openStore chunkSize [])

end Verif.Chunked
