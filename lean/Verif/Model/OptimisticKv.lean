import Verif.Model.Dict
/-!
# Optimistic key-value store

The store behind is a dictionary; keys and values are of any type. The code
takes keys as text or bytes and turns text into bytes in some places only; the
model has one type of key.
-/
namespace Verif.OptKv
variable {K V : Type} [DecidableEq K]

/-- storage/optimistic_kv_store.py:16-25, `__init__`. `I` is the type of batch identifiers. -/
structure State (I K V : Type) where
  store : Dict K V
  unCommitted : List (I × Dict K V)
  currentBatchOps : List (K × V)

/-- `LogicError`, `ValueError` and `KeyError`. -/
inductive Err
  | logic
  | value
  | key
  deriving DecidableEq, Repr

variable {I : Type}

/-- `OrderedDict(pairs)`: the last value of a key counts. -/
def orderedDict (l : List (K × V)) : Dict K V := l.foldl (fun d e => d.set e.1 e.2) []

/-- `setBatch` of the store behind. -/
def storeBatch (d : Dict K V) (l : List (K × V)) : Dict K V := l.foldl (fun d e => d.set e.1 e.2) d

/-- storage/optimistic_kv_store.py:27-29, `create_batch_from_current`. -/
def createBatch (s : State I K V) (idr : I) : State I K V :=
  { s with unCommitted := s.unCommitted ++ [(idr, orderedDict s.currentBatchOps)], currentBatchOps := [] }

/-- storage/optimistic_kv_store.py:31-36, `reject_batch`. -/
def rejectBatch (s : State I K V) : Except Err (State I K V) :=
  if s.unCommitted.length = 0 then .error .logic
  else .ok { s with currentBatchOps := [], unCommitted := s.unCommitted.dropLast }

/-- storage/optimistic_kv_store.py:38-47, `commit_batch`. -/
def commitBatch (s : State I K V) : Except Err (I × State I K V) :=
  match s.unCommitted with
  | [] => .error .value
  | (idr, d) :: r => .ok (idr, { s with store := storeBatch s.store d, unCommitted := r })

/-- storage/optimistic_kv_store.py:56-58: the newest value of a key among pairs, newest last. -/
def newest (key : K) (l : List (K × V)) : Option V := (l.reverse.find? (fun e => e.1 = key)).map Prod.snd

/-- storage/optimistic_kv_store.py:59-61: the newest batch with the key. -/
def inBatches (key : K) (l : List (I × Dict K V)) : Option V := l.reverse.findSome? (fun e => e.2.get? key)

/-- The store's own `get`; a missing key raises `KeyError`. -/
def storeGet (d : Dict K V) (key : K) : Except Err V := match d.get? key with
  | some v => .ok v
  | none => .error .key

/-- storage/optimistic_kv_store.py:49-60, `get`. -/
def get (s : State I K V) (key : K) (isCommitted : Bool) : Except Err V :=
  if isCommitted then storeGet s.store key
  else match newest key s.currentBatchOps with
    | some v => .ok v
    | none => match inBatches key s.unCommitted with
      | some v => .ok v
      | none => storeGet s.store key

/-- storage/optimistic_kv_store.py:62-66, `set`. -/
def set (s : State I K V) (key : K) (value : V) (isCommitted : Bool) : State I K V :=
  if isCommitted then { s with store := s.store.set key value }
  else { s with currentBatchOps := s.currentBatchOps ++ [(key, value)] }

/-- storage/optimistic_kv_store.py:68-75, `remove`. Removing a key the store does not have, which
raises on some stores, changes nothing. -/
def remove (s : State I K V) (key : K) (isCommitted : Bool) : State I K V :=
  if isCommitted then { s with store := s.store.erase key }
  else { s with currentBatchOps := s.currentBatchOps.filter (fun e => e.1 = key) }

/-- storage/optimistic_kv_store.py:84-89, `setBatch`. -/
def setBatch (s : State I K V) (batch : List (K × V)) (isCommitted : Bool) : State I K V :=
  if isCommitted then { s with store := storeBatch s.store batch }
  else batch.foldl (fun s e => set s e.1 e.2 false) s

/-- storage/optimistic_kv_store.py:77-82, `first_batch_idr`. -/
def firstBatchIdr (s : State I K V) : Option I := match s.unCommitted with
  | [] => none
  | (idr, _) :: _ => some idr


/-- What a user of the store does. -/
inductive Event (I K V : Type)
  | set (k : K) (v : V) (isCommitted : Bool)
  | setBatch (l : List (K × V)) (isCommitted : Bool)
  | remove (k : K) (isCommitted : Bool)
  | create (idr : I)
  | commit
  | reject

/-- One event; one that raises changes nothing. -/
def step (s : State I K V) : Event I K V → State I K V
  | .set k v c => set s k v c
  | .setBatch l c => setBatch s l c
  | .remove k c => remove s k c
  | .create idr => createBatch s idr
  | .commit => match commitBatch s with
    | .ok (_, s') => s'
    | .error _ => s
  | .reject => match rejectBatch s with
    | .ok s' => s'
    | .error _ => s

/-- A store over an initial content, after some events. -/
def run (d : Dict K V) (h : List (Event I K V)) : State I K V := h.foldl step ⟨d, [], []⟩

end Verif.OptKv
