import Verif.Model.Dict
/-!
# The numbers of batches of backup instances

`LastSentPpStoreHelper` (plenum/server/last_sent_pp_store_helper.py) and its use by the
ordering services of the backup instances and by the node. The number of instances is
fixed. The store is never found damaged. The master instance is number 0; its numbers
are restored in another way and are not followed here.
-/
namespace Verif.LastPp
open Verif

/-- What matters of an ordering service: `_lastPrePrepareSeqNo` and `last_ordered_3pc`. -/
structure Inst where
  lastPp : Nat := 0
  lastOrdered : Nat × Nat := (0, 0)
deriving Repr, DecidableEq

/-- A node: its view, its instances, the store, and `previous_view_no`. `used` lists the
PRE-PREPAREs made or accepted: the instance, the view and the number. -/
structure Node where
  n : Nat
  view : Nat := 0
  insts : Dict Nat Inst
  store : Option (Dict Nat (Nat × Nat)) := none
  prevView : Option Nat := none
  used : List (Nat × Nat × Nat) := []
deriving Repr, DecidableEq

/-- plenum/server/last_sent_pp_store_helper.py:15-21, `store_last_sent_pp_seq_no`. -/
def storePp (s : Node) (i pp : Nat) : Node := { s with store := some ((s.store.getD []).set i (s.view, pp)) }

/-- plenum/server/last_sent_pp_store_helper.py:23-26, `erase_last_sent_pp_seq_no`. -/
def erase (s : Node) : Node := { s with store := none }

/-- plenum/server/last_sent_pp_store_helper.py:45-66, `_can_restore_last_sent_pp_seq_no`. The primaries
are known when it is called. -/
def canRestore (s : Node) (i : Nat) : Bool := s.insts.has i && decide (i ≠ 0)

/-- plenum/server/last_sent_pp_store_helper.py:68-77, `_restore_last_stored`, with
plenum/server/consensus/ordering_service.py:1258-1271, `lastPrePrepareSeqNo`, and
plenum/server/consensus/ordering_service.py:670-676, `last_ordered_3pc`. The watermarks are left out. -/
def restoreOne (d : Dict Nat Inst) (i : Nat) (p : Nat × Nat) : Dict Nat Inst :=
  match d.get? i with
  | none => d
  | some x => d.set i ⟨max x.lastPp p.2, p⟩

/-- plenum/server/last_sent_pp_store_helper.py:38-42, the loop in `try_restore_last_sent_pp_seq_no`. -/
def restoreLoop : Dict Nat (Nat × Nat) → Node → Bool → Node × Bool
  | [], s, b => (s, b)
  | (i, p) :: l, s, b =>
    if canRestore s i then restoreLoop l { s with insts := restoreOne s.insts i p } true else restoreLoop l s b

/-- plenum/server/last_sent_pp_store_helper.py:28-43, `try_restore_last_sent_pp_seq_no`. -/
def tryRestore (s : Node) : Node × Bool :=
  match s.store with
  | none => (s, false)
  | some l => restoreLoop l s false

/-- plenum/server/backup_instance_faulty_processor.py:18-27, `restore_replicas`: instances that were
removed are made anew. -/
def restoreReplicas (s : Node) : Node :=
  { s with insts := (List.range s.n).foldl (fun d i => if d.has i then d else d.set i {}) s.insts }

/-- plenum/server/node.py:1862-1866, step 6 of `select_primaries_on_catchup_complete`. -/
def restoreNumbers (s : Node) : Node :=
  if s.prevView = some 0 then
    match tryRestore s with
    | (s1, true) => s1
    | (s1, false) => erase s1
  else erase s

/-- plenum/server/node.py:1836-1839, step 1 of `select_primaries_on_catchup_complete`. `audit` is
the view in the last transaction of the audit ledger, if there is one. -/
def takeView (s : Node) : Option Nat → Node
  | none => s
  | some v => { s with prevView := some s.view, view := v }

/-- plenum/server/node.py:1830-1873, `select_primaries_on_catchup_complete`. -/
def catchupDone (s : Node) (audit : Option Nat) : Node := restoreNumbers (takeView (restoreReplicas s) audit)

/-- A PRE-PREPARE with the next number. -/
def use (s : Node) (i : Nat) : Node :=
  match s.insts.get? i with
  | none => s
  | some x => { s with insts := s.insts.set i { x with lastPp := x.lastPp + 1 }
                       used := s.used ++ [(i, s.view, x.lastPp + 1)] }

/-- A PRE-PREPARE with the next number is made by the primary,
plenum/server/consensus/ordering_service.py:2026-2034, `_do_send_3pc_batch`, or accepted by another node,
plenum/server/consensus/ordering_service.py:892-946, `_apply_and_validate_applied_pre_prepare`. Both store
the number for backup instances. -/
def preprepare (s : Node) (i : Nat) : Node :=
  match s.insts.get? i with
  | none => s
  | some x => if i = 0 then use s i else storePp (use s i) i (x.lastPp + 1)

/-- plenum/server/replica.py:385-392, `clear_requests_and_fix_last_ordered`. -/
def resetNumbers (view : Nat) (d : Dict Nat Inst) : Dict Nat Inst :=
  d.map fun e => if e.1 = 0 then e else (e.1, ⟨0, (view, 0)⟩)

/-- plenum/server/node.py:620-644, `on_view_change_start`, with `clear_requests_and_fix_last_ordered`
when the NEW_VIEW is accepted. -/
def viewChange (s : Node) (v : Nat) : Node :=
  if v ≤ s.view then s
  else
    let s1 := erase (restoreReplicas s)
    { s1 with view := v, insts := resetNumbers v s1.insts }

/-- A fresh node. -/
def init (n : Nat) : Node := { n := n, insts := (List.range n).map fun i => (i, {}) }

/-- A start: only the store is kept. -/
def restart (s : Node) : Node := { init s.n with store := s.store, used := s.used }

/-- What happens at a node: a PRE-PREPARE, the removal of a backup instance, a change of the
view, a finished catchup, and a start with the catchup after it. -/
inductive Ev where
  | preprepare (i : Nat)
  | remove (i : Nat)
  | viewChange (v : Nat)
  | catchup (audit : Option Nat)
  | restart (audit : Option Nat)
deriving Repr

/-- One event. -/
def step (s : Node) : Ev → Node
  | .preprepare i => preprepare s i
  | .remove i => if i = 0 then s else { s with insts := s.insts.erase i }
  | .viewChange v => viewChange s v
  | .catchup a => catchupDone s a
  | .restart a => catchupDone (restart s) a

/-- A history. -/
def run (s : Node) (evs : List Ev) : Node := evs.foldl step s

end Verif.LastPp
