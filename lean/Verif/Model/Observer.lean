import Verif.Model.Dict
import Verif.Model.Quorums
/-!
# The observer that applies each batch

`ObserverSyncPolicyEachBatch` of plenum/server/observer/observer_sync_policy_each_batch.py.
Two batches are equal here when `json.dumps(…, sort_keys=True)` gives the same text.
Senders are numbers. Applying a batch to the ledger and the state is recorded in a log
and does not fail.
-/
namespace Verif.Obs
open Verif

/-- `BatchCommitted`: first and last sequence number, and all the rest. -/
structure Batch where
  start : Nat
  stop : Nat
  body : Nat
deriving Repr, DecidableEq, Inhabited

/-- plenum/server/observer/observer_sync_policy_each_batch.py:27-32, `__init__`; the
number of nodes; and the log of applied batches, each with the number of nodes at that
time. -/
structure State where
  n : Nat
  last : Option Nat
  batches : Dict Nat (Dict Nat Batch)
  /-- the heap, as the sorted list of its elements -/
  heap : List Nat
  applied : List (Batch × Nat)
deriving Repr, DecidableEq

/-- `heappush`. -/
def push (k : Nat) : List Nat → List Nat
  | [] => [k]
  | x :: r => if k ≤ x then k :: x :: r else x :: push k r

/-- `self._last_applied_seq_no`, where 0 counts as none. -/
def State.lastTruthy (s : State) : Option Nat :=
  match s.last with
  | some 0 => none
  | l => l

/-- plenum/server/observer/observer_sync_policy_each_batch.py:77-86, `_can_process`. -/
def canProcess (s : State) (b : Batch) : Bool :=
  match s.lastTruthy with
  | none => true
  | some l => !(l ≥ b.start)

/-- plenum/server/observer/observer_sync_policy_each_batch.py:88-95, `_add_batch`. -/
def addBatch (s : State) (b : Batch) (sender : Nat) : State :=
  match s.batches.get? b.start with
  | none => { s with batches := s.batches.set b.start [(sender, b)], heap := push b.start s.heap }
  | some d => { s with batches := s.batches.set b.start (d.set sender b) }

/-- `next_seq_no`, plenum/server/observer/observer_sync_policy_each_batch.py:98. `none`:
the heap is empty and `[0]` raises. -/
def nextSeqNo (s : State) : Option Nat :=
  match s.lastTruthy with
  | some l => some (l + 1)
  | none => s.heap.head?

/-- plenum/common/util.py:90-120, `mostCommonElement`, only the count. -/
def maxCount (l : List Batch) : Nat := (l.map (fun b => l.count b)).foldl max 0

/-- plenum/server/observer/observer_sync_policy_each_batch.py:114-132,
`__can_apply_quorumed`. -/
def canApplyQuorumed (s : State) (b : Batch) : Bool :=
  match s.batches.get? b.start with
  | none => false
  | some d =>
    (Quorums.ofN s.n).observerData.isReached d.length &&
    (Quorums.ofN s.n).observerData.isReached (maxCount (d.map Prod.snd))

/-- plenum/server/observer/observer_sync_policy_each_batch.py:97-108, `_can_apply`. -/
def canApply (s : State) (b : Batch) : Bool :=
  decide (nextSeqNo s = some b.start) && canApplyQuorumed s b

/-- plenum/server/observer/observer_sync_policy_each_batch.py:134-141, `_do_apply_data`.
If the heap were empty, `heappop` would raise before the last line. -/
def doApplyData (s : State) (b : Batch) : State :=
  match s.heap with
  | [] => { s with applied := s.applied ++ [(b, s.n)], batches := s.batches.erase b.start }
  | _ :: h => { s with
      applied := s.applied ++ [(b, s.n)], batches := s.batches.erase b.start, heap := h, last := some b.stop }

/-- The batch looked at by the loop, plenum/server/observer/observer_sync_policy_each_batch.py:160-169.
`none`: the loop ends, or `self._batches[next_seq_no]` raises `KeyError`, which ends the
processing of the message as well. -/
def nextStashed (s : State) : Option Batch :=
  match s.heap with
  | [] => none
  | k :: _ => match s.batches.get? k with
    | some ((_, b) :: _) => some b
    | _ => none

/-- plenum/server/observer/observer_sync_policy_each_batch.py:155-169,
`_process_stashed_messages`. Each turn takes an element from the heap, so as many turns
as it has elements are enough. -/
def processStashed : Nat → State → State
  | 0, s => s
  | fuel + 1, s =>
    match nextStashed s with
    | none => s
    | some b => if canApply s b then processStashed fuel (doApplyData s b) else s

/-- plenum/server/observer/observer_sync_policy_each_batch.py:38-67, `apply_data`. -/
def applyData (s : State) (b : Batch) (sender : Nat) : State :=
  if !canProcess s b then s
  else
    let s := addBatch s b sender
    if !canApply s b then s
    else
      let s := doApplyData s b
      processStashed s.heap.length s

/-- A report arrives, or the number of nodes changes. -/
inductive Event where
  | report (sender : Nat) (b : Batch)
  | pool (n : Nat)
deriving Repr, DecidableEq

/-- One event. -/
def step (s : State) : Event → State
  | .report x b => applyData s b x
  | .pool n => { s with n := n }

/-- A new observer. -/
def init (n : Nat) : State := ⟨n, none, [], [], []⟩

/-- A history. -/
def run (n : Nat) (h : List Event) : State := h.foldl step (init n)

end Verif.Obs
