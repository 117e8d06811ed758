import Verif.Model.Audit
/-!
# The node registry of a node

`NodeRegHandler` keeps the list of validators, committed and with the pending batches applied.
The lists are Python objects which are changed in place, and in one place two names refer to the
same object, so the model has a heap of lists and the names are addresses in it.
-/
namespace Verif.NodeReg

/-- A NODE request as far as the registry reads it: the alias, and whether the
services, if given, contain VALIDATOR. -/
structure Req where
  alias : String
  validator : Option Bool
deriving DecidableEq, Repr

/-- What a request does to a list of validators.
Models plenum/server/batch_handlers/node_reg_handler.py:171-190, `apply_request`, and the same rule in
plenum/server/batch_handlers/node_reg_handler.py:264-282. -/
def change (l : List String) (r : Req) : List String :=
  match r.validator with
  | none => l
  | some v =>
    if r.alias ∉ l ∧ v = true then l ++ [r.alias]
    else if r.alias ∈ l ∧ v = false then l.erase r.alias
    else l

/-! ## `SortedDict` -/

/-- A `SortedDict` is an association list with increasing keys; this is `d[k] = v`. -/
def sset (k : Nat) (v : List String) : Dict Nat (List String) → Dict Nat (List String)
  | [] => [(k, v)]
  | e :: d => if k = e.1 then (k, v) :: d else if k < e.1 then (k, v) :: e :: d else e :: sset k v d

/-- Position of a key in `list(d.keys())`. -/
def keyIndex (k : Nat) : Dict Nat (List String) → Option Nat
  | [] => none
  | e :: d => if k = e.1 then some 0 else (keyIndex k d).map (· + 1)

/-! ## The handler -/

/-- State of the handler. `heap` are the list objects, a name is a position in it. A pending batch has
the address of its registry and its view. `votes` are the views for which the handler asked to be
changed. Models plenum/server/batch_handlers/node_reg_handler.py:27-46. -/
structure State where
  heap : List (List String)
  unc : Nat
  com : Nat
  queue : List (Nat × Nat)
  uncView : Nat
  comView : Nat
  atUnc : Dict Nat (List String)
  atCom : Dict Nat (List String)
  votes : List Nat
deriving DecidableEq, Repr

/-- The list at an address. -/
def State.val (s : State) (a : Nat) : List String := s.heap[a]?.getD []

/-- `uncommitted_node_reg`. -/
def State.uncommitted (s : State) : List String := s.val s.unc

/-- `committed_node_reg`. -/
def State.committed (s : State) : List String := s.val s.com

/-- Models plenum/server/batch_handlers/node_reg_handler.py:51-55, `active_node_reg`. -/
def State.active (s : State) : List String :=
  match s.atUnc.getLast? with
  | none => []
  | some e => e.2

/-- A node without audit transactions: the registry of the pool ledger, in two lists, and in the entry for view 0.
Models plenum/server/batch_handlers/node_reg_handler.py:57-61 with 204-221, and plenum/server/node.py:740-743. -/
def boot (reg : List String) : State :=
  ⟨[reg, reg], 0, 1, [], 0, 0, [(0, reg)], [(0, reg)], []⟩

/-- One request changes the list object of the uncommitted registry.
Models plenum/server/batch_handlers/node_reg_handler.py:171-190. -/
def applyRequest (s : State) (r : Req) : State :=
  { s with heap := s.heap.set s.unc (change s.uncommitted r) }

/-- The registry of the last pending batch, the committed one if there is none.
Models plenum/server/batch_handlers/node_reg_handler.py:80-82. -/
def State.lastApplied (s : State) : List String :=
  match s.queue.getLast? with
  | some e => s.val e.1
  | none => s.committed

/-- Models plenum/server/batch_handlers/node_reg_handler.py:71-87, `post_batch_applied`; `view` is the original view
of the batch if it has one. The case of an observer, whose registry is empty, is left out. -/
def postBatchApplied (s : State) (view : Nat) : State :=
  let s1 : State := if view > s.uncView then
      { s with atUnc := sset view s.lastApplied s.atUnc, uncView := view }
    else s
  { s1 with heap := s1.heap ++ [s1.uncommitted], queue := s1.queue ++ [(s1.heap.length, view)] }

/-- Models plenum/server/batch_handlers/node_reg_handler.py:98-110, `post_batch_rejected`. `none` is the
exception of `pop` on an empty queue. With a pending batch left its list becomes the uncommitted registry,
without a copy. -/
def postBatchRejected (s : State) : Option State :=
  match s.queue.getLast? with
  | none => none
  | some reverted =>
    let rest := s.queue.dropLast
    let s1 : State := match rest.getLast? with
      | none => { s with queue := rest, heap := s.heap ++ [s.committed], unc := s.heap.length, uncView := s.comView }
      | some e => { s with queue := rest, unc := e.1, uncView := e.2 }
    some (if s1.uncView < reverted.2 then { s1 with atUnc := s1.atUnc.erase reverted.2 } else s1)

/-- Models plenum/server/batch_handlers/node_reg_handler.py:161-169, `_gc_node_reg_at_beginning_of_view`. -/
def gc (comView : Nat) (d : Dict Nat (List String)) : Dict Nat (List String) :=
  match keyIndex comView d with
  | none => d
  | some i => d.drop (i - 1)

/-- Models plenum/server/batch_handlers/node_reg_handler.py:122-140, `commit_batch`; `none` is the exception for an empty
queue. -/
def commitBatch (s : State) (view : Nat) : Option State :=
  let s1 : State := if view > s.comView then
      { s with atCom := gc view (sset view s.committed s.atCom), comView := view, atUnc := gc view s.atUnc }
    else s
  match s1.queue with
  | [] => none
  | e :: rest =>
    some { s1 with com := e.1, queue := rest,
                   votes := if s1.committed.length ≠ (s1.val e.1).length then s1.votes ++ [view + 1] else s1.votes }

/-- What happens to the handler: a batch with its requests is applied, the newest is rejected, the oldest, which has
this view, is committed. -/
inductive Op
  | apply (reqs : List Req) (view : Nat)
  | reject
  | commit (view : Nat)
deriving DecidableEq, Repr

/-- One operation; one which raises is taken to change nothing. -/
def step (s : State) : Op → State
  | .apply reqs view => postBatchApplied (reqs.foldl applyRequest s) view
  | .reject => (postBatchRejected s).getD s
  | .commit view => (commitBatch s view).getD s

/-- A history. -/
def run (reg : List String) (ops : List Op) : State := ops.foldl step (boot reg)

/-! ## Loading the registry of the beginning of the view from the audit ledger -/

open Verif.Audit (Txn)

/-- From a transaction with a delta for the primaries to the one with the list.
Models plenum/server/batch_handlers/node_reg_handler.py:332-335. -/
def jump (log : List Txn) (i : Nat) : Nat :=
  match (log[i]?).map Txn.primaries with
  | some (.back n) => i - n
  | _ => i

theorem jump_le (log : List Txn) (i : Nat) : jump log i ≤ i := by
  unfold jump
  split
  · exact Nat.sub_le _ _
  · exact Nat.le_refl _

/-- Models plenum/server/batch_handlers/node_reg_handler.py:322-348, `__get_first_txn_in_view_from_audit`: positions
of the transaction found and of the one before it. `view` is the view of the transaction the search starts
from. -/
def firstInView (log : List Txn) (view : Nat) (i : Nat) : Nat × Option Nat :=
  if jump log i = 0 then (0, none)
  else if (log[jump log i - 1]?).map Txn.viewNo ≠ some view then (jump log i, some (jump log i - 1))
  else firstInView log view (jump log i - 1)
termination_by i
decreasing_by
  have := jump_le log i
  omega

/-- Models plenum/server/batch_handlers/node_reg_handler.py:262-281, `__load_node_reg_from_pool_ledger`: `pool` has
an entry for each transaction of the pool ledger, `none` if it is no NODE transaction. -/
def poolReg (pool : List (Option Req)) (to : Option Nat) : List String :=
  (((match to with | none => pool | some n => pool.take n)).filterMap id).foldl change []

/-- Models plenum/server/batch_handlers/node_reg_handler.py:350-355, `__load_node_reg_for_first_audit_txn`; `none` is
the exception for a missing pool ledger. -/
def poolRegAt (log : List Txn) (pool : List (Option Req)) (i : Nat) : Option (List String) :=
  ((log[i]?).bind (·.sizes.get? 0)).map (fun n => poolReg pool (some n))

/-- Models plenum/server/batch_handlers/node_reg_handler.py:303-320, `__load_node_reg_from_audit_txn`; `none` is an
exception. -/
def auditRegAt (log : List Txn) (pool : List (Option Req)) (i : Nat) : Option (List String) :=
  match (log[i]?).bind Txn.nodeReg with
  | none => poolRegAt log pool i
  | some (.here v) => some v
  | some (.back n) =>
    match (Audit.behind log i n).bind Txn.nodeReg with
    | none => poolRegAt log pool i
    | some (.here v) => some v
    | some (.back _) => none

/-- Models plenum/server/batch_handlers/node_reg_handler.py:204-209, 284-301, `_load_current_node_reg` and
`__load_current_node_reg_from_audit_ledger`; `none` is an exception. -/
def loadCurrent (log : List Txn) (pool : List (Option Req)) : Option (List String) :=
  match log.getLast?.bind Txn.nodeReg with
  | none => some (poolReg pool none)
  | some (.here v) => some v
  | some (.back n) =>
    match (Audit.behind log (log.length - 1) n).bind Txn.nodeReg with
    | none => some (poolReg pool none)
    | some (.here v) => some v
    | some (.back _) => none

/-- What a restarted node has: the registry, the view and the registries at the beginning of views. -/
structure Loaded where
  current : List String
  view : Nat
  atBegin : Dict Nat (List String)
deriving DecidableEq, Repr

/-- The registry before the first transaction of a view: that of the transaction before it, or the pool ledger's.
Models plenum/server/batch_handlers/node_reg_handler.py:230-234, 251-257. -/
def regBefore (log : List Txn) (pool : List (Option Req)) (x : Nat × Option Nat) : Option (List String) :=
  match x.2 with
  | none => poolRegAt log pool x.1
  | some p => auditRegAt log pool p

/-- Models plenum/server/batch_handlers/node_reg_handler.py:211-259, `_load_last_view_node_reg`, after
`_load_current_node_reg`; `none` is an exception. -/
def load (log : List Txn) (pool : List (Option Req)) : Option Loaded :=
  match log.getLast? with
  | none => some ⟨poolReg pool none, 0, [(0, poolReg pool none)]⟩
  | some t =>
    let x := firstInView log t.viewNo (log.length - 1)
    match loadCurrent log pool, (log[x.1]?).map Txn.viewNo, regBefore log pool x with
    | some current, some view, some reg =>
      if view = 0 then some ⟨current, view, [(view, reg)]⟩
      else match x.2 with
        | none => some ⟨current, view, sset 0 reg [(view, reg)]⟩
        | some p =>
          let y := firstInView log (((log[p]?).map Txn.viewNo).getD 0) p
          match (log[y.1]?).map Txn.viewNo, regBefore log pool y with
          | some last, some lastReg => some ⟨current, view, sset last lastReg [(view, reg)]⟩
          | _, _ => none
    | _, _, _ => none

end Verif.NodeReg
