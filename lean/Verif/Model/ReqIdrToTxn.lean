import Verif.Model.Dict
/-!
# Model of `plenum/persistence/req_id_to_txn.py` and of the check for requests already ordered

Keys and values of the store are text; the encoding to bytes and back
(`val.decode()`) is not modelled.
-/
namespace Verif.ReqDb

/-- Text. -/
abbrev Str := List Char

/-- One decimal digit. -/
def digit (n : Nat) : Char := Char.ofNat (48 + n % 10)

/-- `str(n)` of a natural number, least significant part by `fuel`. -/
def decAux : Nat → Nat → Str
  | 0, _ => []
  | fuel + 1, n => if n < 10 then [digit n] else decAux fuel (n / 10) ++ [digit n]

/-- `str(n)`. -/
def dec (n : Nat) : Str := decAux (n + 1) n

/-- `int(c)` of one digit; other characters raise `ValueError`. -/
def digitVal (c : Char) : Option Nat :=
  if 48 ≤ c.toNat ∧ c.toNat ≤ 57 then some (c.toNat - 48) else none

/-- `int(s)` for digits only: signs, spaces and underscores, which Python accepts,
are not modelled; the store holds only what `dec` writes. -/
def parse (s : Str) : Option Nat :=
  if s = [] then none
  else s.foldl (fun o c => o.bind (fun n => (digitVal c).map (fun d => 10 * n + d))) (some 0)

/-- `s.split("~")`: the parts between delimiters. -/
def split (d : Char) : Str → List Str
  | [] => [[]]
  | c :: s => if c = d then [] :: split d s
    else match split d s with
      | [] => [[c]]
      | p :: ps => (c :: p) :: ps

/-- The store: req_id_to_txn.py:16-17. -/
abbrev Db := Dict Str Str

/-- req_id_to_txn.py:14 and 61-62, `_create_value`. -/
def createValue (ledgerId seqNo : Nat) : Str := dec ledgerId ++ '~' :: dec seqNo

/-- req_id_to_txn.py:57-59, `_parse_value`; `none`: `ValueError` or `IndexError`
(the latter would escape, but no value written lacks the delimiter). -/
def parseValue (v : Str) : Option (Nat × Nat) :=
  match split '~' v with
  | a :: b :: _ => match parse a, parse b with
    | some a, some b => some (a, b)
    | _, _ => none
  | _ => none

/-- req_id_to_txn.py:71-73, `_full_digest_key`. -/
def fullKey (digest : Str) : Str := 'f' :: 'u' :: 'l' :: 'l' :: ':' :: digest

/-- One transaction to record: payload digest, ledger, sequence number, digest. -/
structure Entry where
  payload : Str
  ledgerId : Nat
  seqNo : Nat
  digest : Option Str
  deriving DecidableEq, Repr

/-- `setBatch` of the key-value stores: the pairs are put in order. -/
def setBatch (db : Db) (l : List (Str × Str)) : Db := l.foldl (fun db e => db.set e.1 e.2) db

/-- The pairs `addBatch` writes first: req_id_to_txn.py:27-29. -/
def payloadPairs (batch : List Entry) : List (Str × Str) :=
  batch.map (fun e => (e.payload, createValue e.ledgerId e.seqNo))

/-- The pairs `addBatch` writes second: req_id_to_txn.py:30-31. -/
def fullPairs (batch : List Entry) : List (Str × Str) :=
  batch.filterMap (fun e => e.digest.map (fun d => (fullKey d, e.payload)))

/-- req_id_to_txn.py:24-34, `addBatch`. -/
def addBatch (db : Db) (batch : List Entry) : Db :=
  setBatch (setBatch db (payloadPairs batch)) (fullPairs batch)

/-- req_id_to_txn.py:19-22, `add`. -/
def add (db : Db) (e : Entry) : Db :=
  let db := db.set e.payload (createValue e.ledgerId e.seqNo)
  match e.digest with
  | none => db
  | some d => db.set (fullKey d) e.payload

/-- req_id_to_txn.py:36-45, `get_by_payload_digest`; `none` is `(None, None)`. -/
def getByPayload (db : Db) (d : Str) : Option (Nat × Nat) := (db.get? d).bind parseValue

/-- req_id_to_txn.py:47-55, `get_by_full_digest`. -/
def getByFull (db : Db) (d : Str) : Option Str := db.get? (fullKey d)

/-! ## Ordering a request at most once -/

/-- What matters of a request and of its transaction: digests and `reqId`. -/
structure Txn where
  payload : Str
  digest : Str
  reqId : Nat
  deriving DecidableEq, Repr

/-- One ledger of a node, with its uncommitted batches, oldest first. -/
structure Node where
  ledgerId : Nat := 1
  committed : List Txn := []
  uncommitted : List (List Txn) := []
  db : Db := []
  deriving DecidableEq

/-- `plenum/server/consensus/ordering_service.py:1794-1808`,
`_do_dynamic_validation`, the digest validation: is the request new? -/
def Node.fresh (s : Node) (cur : List Txn) (t : Txn) : Bool :=
  (getByPayload s.db t.payload).isNone && !((s.uncommitted.flatten ++ cur).any (fun u => u.payload = t.payload))

/-- Apply the requests of a batch: ordering_service.py:1816-1827,
`_process_req_during_batch`, for the master instance. A request that fails the
check is left out (a primary skips it; a replica refuses the whole batch, which is
the event with an empty list). Other reasons to reject a request: leave it out of
the event. -/
def Node.applyReqs (s : Node) : List Txn → List Txn → List Txn
  | [], cur => cur
  | t :: ts, cur => if s.fresh cur t then s.applyReqs ts (cur ++ [t]) else s.applyReqs ts cur

/-- `plenum/server/node.py:2748-2751`, `updateSeqNoMap`: nothing is recorded if
the `reqId` of some transaction is missing or zero. `first` is the sequence number
of the first transaction. -/
def updateSeqNoMap (db : Db) (ledgerId first : Nat) (txns : List Txn) : Db :=
  if txns.all (fun t => t.reqId ≠ 0) then
    addBatch db (txns.zipIdx.map (fun e => ⟨e.1.payload, ledgerId, first + e.2, some e.1.digest⟩))
  else db

inductive Event
  /-- a PRE-PREPARE is made or accepted -/
  | apply (reqs : List Txn)
  /-- the oldest batch is ordered: node.py:2753-2759 -/
  | commit
  /-- the newest batch is rejected -/
  | revert
  /-- the node stops after writing the ledger and before writing the store, and is
  started again -/
  | commitCrash

def Node.step (s : Node) : Event → Node
  | .apply reqs => { s with uncommitted := s.uncommitted ++ [s.applyReqs reqs []] }
  | .commit => match s.uncommitted with
    | [] => s
    | b :: bs => { s with
        committed := s.committed ++ b, uncommitted := bs
        db := updateSeqNoMap s.db s.ledgerId (s.committed.length + 1) b }
  | .revert => { s with uncommitted := s.uncommitted.dropLast }
  | .commitCrash => match s.uncommitted with
    | [] => s
    | b :: _ => { s with committed := s.committed ++ b, uncommitted := [] }

def run (evs : List Event) : Node := evs.foldl Node.step {}

end Verif.ReqDb
