import Verif.Model.Dict
import Verif.Model.PyInt
/-!
# Persistent key-value stores

LevelDB and RocksDB are not code of this project. They are modelled by what their
interface promises: a sorted list of entries, ordered by the comparator the store
was opened with, one entry per key. What is modelled function by function is the
project's code around them.
-/
namespace Verif.Kv

/-- A comparator: negative, zero or positive. -/
abbrev Cmp (K : Type) := K → K → Int

/-- storage/helper.py:91-96, `integer_comparator`. Keys that are not numbers, for
which `int` raises, are read as 0: the stores opened with this comparator only
hold numbers written by `str`. -/
def integerComparator : Cmp (List Char) := fun a b =>
  if a = b then 0
  else if (Py.int a).getD 0 > (Py.int b).getD 0 then 1 else -1

/-- The comparator of a store opened without one: bytes, lexicographically. -/
def bytewise : Cmp (List UInt8)
  | [], [] => 0
  | [], _ :: _ => -1
  | _ :: _, [] => 1
  | a :: s, b :: t => if a = b then bytewise s t else if a < b then -1 else 1

section Engine
variable {K V : Type} (cmp : Cmp K)

/-- The content of a database, in key order. -/
abbrev Db (K V : Type) := List (K × V)

/-- `DB.put`, `WriteBatch.put` (engine). -/
def put (k : K) (v : V) : Db K V → Db K V
  | [] => [(k, v)]
  | e :: r => if cmp k e.1 = 0 then (k, v) :: r else if cmp k e.1 < 0 then (k, v) :: e :: r else e :: put k v r

/-- `DB.get` (engine); `none` when the key is absent. -/
def get (k : K) : Db K V → Option V
  | [] => none
  | e :: r => if cmp k e.1 = 0 then some e.2 else get k r

/-- `DB.delete` (engine). -/
def delete (k : K) : Db K V → Db K V
  | [] => []
  | e :: r => if cmp k e.1 = 0 then r else e :: delete k r

/-- `Iterator.seek` (engine): what is left to yield, from the first key not before `k`. -/
def seek (k : K) : Db K V → Db K V
  | [] => []
  | e :: r => if cmp e.1 k < 0 then seek k r else e :: r

/-- `Iterator.seek_for_prev` (engine): what is left to yield, from the last key not after `k`. -/
def seekForPrev (k : K) : Db K V → Db K V
  | [] => []
  | e :: r => if cmp e.1 k > 0 then [] else match seekForPrev k r with
    | [] => e :: r
    | l => l

/-- `Iterator.seek_to_last` (engine). -/
def seekToLast : Db K V → Db K V
  | [] => []
  | [e] => [e]
  | _ :: r => seekToLast r

/-- An iterator placed at the first key, or sought to the lower bound (engine). -/
def startAt : Option K → Db K V → Db K V
  | none, db => db
  | some k, db => seek cmp k db

/-- LevelDB `RangeIter(key_from, key_to)` (engine): both ends included. -/
def rangeIter (frm to : Option K) (db : Db K V) : Db K V := match to with
  | none => startAt cmp frm db
  | some k => (startAt cmp frm db).takeWhile (fun e => cmp e.1 k ≤ 0)

end Engine

/-! ## LevelDB stores -/
namespace Leveldb
variable {K V : Type} (cmp : Cmp K)

/-- storage/kv_store_leveldb.py:43-47, `iterator`. -/
def iterator (start stop : Option K) (db : Db K V) : Db K V := rangeIter cmp start stop db

/-- storage/kv_store_leveldb.py:49-55, `put`. Writing to a store opened read-only is not modelled. -/
def put (k : K) (v : V) (db : Db K V) : Db K V := Kv.put cmp k v db

/-- storage/kv_store_leveldb.py:57-59, `get`; `none` is `KeyError`. -/
def get (k : K) (db : Db K V) : Option V := Kv.get cmp k db

/-- storage/kv_store_leveldb.py:61-66, `remove`. -/
def remove (k : K) (db : Db K V) : Db K V := Kv.delete cmp k db

/-- storage/kv_store_leveldb.py:68-74, `setBatch`. -/
def setBatch (batch : List (K × V)) (db : Db K V) : Db K V := batch.foldl (fun db e => Kv.put cmp e.1 e.2 db) db

/-- storage/kv_store_leveldb_int_keys.py:29-33: the loop. -/
def scan (key : Int) (prev : Option V) : Db (List Char) V → Option V
  | [] => prev
  | (k, v) :: r => if (Py.int k).getD 0 > key then prev else scan key (some v) r

/-- storage/kv_store_leveldb_int_keys.py:18-35, `get_equal_or_prev`. A text that is
not a number, for which `int` raises, gives nothing. -/
def getEqualOrPrev (key : List Char) (db : Db (List Char) V) : Option V :=
  match Py.int key with
  | none => none
  | some n => match get integerComparator (Py.str n) db with
    | some v => some v
    | none => scan n none (iterator integerComparator none none db)

/-- storage/kv_store_leveldb_int_keys.py:37-44, `get_last_key`. -/
def getLastKey (db : Db (List Char) V) : Option (List Char) :=
  ((iterator integerComparator none none db).map Prod.fst).getLast?

end Leveldb

/-! ## RocksDB stores -/
namespace Rocksdb
variable {α V : Type} [DecidableEq α] (cmp : Cmp (List α))

/-- storage/kv_store_rocksdb.py:191-199, `WrappingIter.__next__`: yields items up to and
including the one whose key is the bound. -/
def wrapping (upperBound : List α) : Db (List α) V → Db (List α) V
  | [] => []
  | e :: r => if e.1 = upperBound then [e] else e :: wrapping upperBound r

/-- storage/kv_store_rocksdb.py:162 and 167: `if start:`, `if end:`; an empty bound counts as no bound. -/
def given : Option (List α) → Option (List α)
  | none => none
  | some k => if k = [] then none else some k

/-- storage/kv_store_rocksdb.py:142-170, `iterator`. -/
def iterator (start stop : Option (List α)) (db : Db (List α) V) : Db (List α) V := match given stop with
  | none => startAt cmp (given start) db
  | some k => wrapping k (startAt cmp (given start) db)

/-- storage/kv_store_rocksdb.py:104-107, `put`. -/
def put (k : List α) (v : V) (db : Db (List α) V) : Db (List α) V := Kv.put cmp k v db

/-- storage/kv_store_rocksdb.py:109-114, `get`; `none` is `KeyError`. -/
def get (k : List α) (db : Db (List α) V) : Option V := Kv.get cmp k db

/-- storage/kv_store_rocksdb.py:116-118, `remove`. -/
def remove (k : List α) (db : Db (List α) V) : Db (List α) V := Kv.delete cmp k db

/-- storage/kv_store_rocksdb.py:120-126, `setBatch`. -/
def setBatch (batch : List (List α × V)) (db : Db (List α) V) : Db (List α) V :=
  batch.foldl (fun db e => Kv.put cmp e.1 e.2 db) db

/-- storage/kv_store_rocksdb_int_keys.py:28-41, `get_equal_or_prev`. -/
def getEqualOrPrev (key : List Char) (db : Db (List Char) V) : Option V :=
  (seekForPrev integerComparator key db).head?.map Prod.snd

/-- storage/kv_store_rocksdb_int_keys.py:43-50, `get_last_key`. -/
def getLastKey (db : Db (List Char) V) : Option (List Char) := (seekToLast db).head?.map Prod.fst

end Rocksdb

/-! ## The store kept in memory -/
namespace Memory
variable {V : Type}

/-- storage/kv_in_memory.py:65-74, the inner `filter`: keys are read as numbers, a bound that
is 0 counts as absent. -/
def keep (start stop : Option Int) (k : List Char) : Bool :=
  let n := (Py.int k).getD 0
  let s := start.getD 0
  let e := stop.getD 0
  if s ≠ 0 ∧ e ≠ 0 then s ≤ n ∧ n < e
  else if s ≠ 0 then s ≤ n
  else if e ≠ 0 then n ≤ e
  else false

/-- storage/kv_in_memory.py:60-93, `iterator`, of keys and values. -/
def iterator (start stop : Option Int) (db : Dict (List Char) V) : Dict (List Char) V :=
  if start.getD 0 ≠ 0 ∨ stop.getD 0 ≠ 0 then db.filter (fun e => keep start stop e.1) else db

end Memory

/-! ## Either store, opened with the integer comparator -/

/-- storage/helper.py:60-68, `initKeyValueStorageIntKeys`: which store is behind. The other
kinds have no `get_equal_or_prev`. -/
inductive Backend
  | leveldb
  | rocksdb
  deriving DecidableEq, Repr

abbrev IntDb (V : Type) := Db (List Char) V

variable {V : Type}

/-- `put` of the store opened. -/
def Backend.put (b : Backend) (k : List Char) (v : V) (db : IntDb V) : IntDb V := match b with
  | .leveldb => Leveldb.put integerComparator k v db
  | .rocksdb => Rocksdb.put integerComparator k v db

/-- `get` of the store opened. -/
def Backend.get (b : Backend) (k : List Char) (db : IntDb V) : Option V := match b with
  | .leveldb => Leveldb.get integerComparator k db
  | .rocksdb => Rocksdb.get integerComparator k db

/-- `get_equal_or_prev` of the store opened. -/
def Backend.getEqualOrPrev (b : Backend) (k : List Char) (db : IntDb V) : Option V := match b with
  | .leveldb => Leveldb.getEqualOrPrev k db
  | .rocksdb => Rocksdb.getEqualOrPrev k db

/-- `get_last_key` of the store opened. -/
def Backend.getLastKey (b : Backend) (db : IntDb V) : Option (List Char) := match b with
  | .leveldb => Leveldb.getLastKey db
  | .rocksdb => Rocksdb.getLastKey db

/-- `iterator` of the store opened; bounds that are numbers go through `to_byte_repr`
(storage/kv_store.py:89-95). -/
def Backend.iterator (b : Backend) (start stop : Option Int) (db : IntDb V) : IntDb V := match b with
  | .leveldb => Leveldb.iterator integerComparator (start.map Py.str) (stop.map Py.str) db
  | .rocksdb => Rocksdb.iterator integerComparator (start.map Py.str) (stop.map Py.str) db

/-- ledger/ledger.py:250-253: the loop of `getAllTxn`. -/
def upTo (to : Option Int) : IntDb V → List (Int × V)
  | [] => []
  | (k, v) :: r => match to with
    | none => ((Py.int k).getD 0, v) :: upTo to r
    | some t => if (Py.int k).getD 0 ≤ t then ((Py.int k).getD 0, v) :: upTo to r else []

/-- ledger/ledger.py:248-253, `getAllTxn`; the values are left serialized. -/
def getAllTxn (b : Backend) (frm to : Option Int) (log : IntDb V) : List (Int × V) :=
  upTo to (b.iterator frm to log)

/-! ## Roots by time -/

/-- storage/state_ts_store.py:10-14, `__init__`: a store per ledger. -/
structure TsStore (V : Type) where
  backend : Backend
  storages : Dict Nat (IntDb V)

namespace TsStore

/-- storage/state_ts_store.py:19-25, `get`. The outer `none`: `KeyError`; the inner one: no store for that ledger. -/
def get (s : TsStore V) (timestamp : Int) (ledgerId : Nat) : Option (Option V) :=
  match s.storages.get? ledgerId with
  | none => some none
  | some db => (s.backend.get (Py.str timestamp) db).map some

/-- storage/state_ts_store.py:27-32, `set`. -/
def set (s : TsStore V) (timestamp : Int) (rootHash : V) (ledgerId : Nat) : TsStore V :=
  match s.storages.get? ledgerId with
  | none => s
  | some db => { s with storages := s.storages.set ledgerId (s.backend.put (Py.str timestamp) rootHash db) }

/-- storage/state_ts_store.py:38-43, `get_equal_or_prev`. -/
def getEqualOrPrev (s : TsStore V) (timestamp : Int) (ledgerId : Nat) : Option V :=
  match s.storages.get? ledgerId with
  | none => none
  | some db => s.backend.getEqualOrPrev (Py.str timestamp) db

/-- storage/state_ts_store.py:45-50, `get_last_key`. -/
def getLastKey (s : TsStore V) (ledgerId : Nat) : Option (List Char) :=
  match s.storages.get? ledgerId with
  | none => none
  | some db => s.backend.getLastKey db

/-- A batch that is committed: its ledger, its time and the root after it. -/
structure Batch (V : Type) where
  ledgerId : Nat
  ppTime : Int
  stateRoot : V

/-- plenum/server/batch_handlers/ts_store_batch_handler.py:11-24, `commit_batch`. The root of the
batch is taken as already decoded. -/
def commitBatch (s : TsStore V) (b : Batch V) : TsStore V := s.set b.ppTime b.stateRoot b.ledgerId

/-- A store as a node opens it, and a history of committed batches. -/
def run (backend : Backend) (ledgers : List Nat) (h : List (Batch V)) : TsStore V :=
  h.foldl commitBatch ⟨backend, ledgers.map (fun l => (l, []))⟩

end TsStore
end Verif.Kv
