import Verif.Model.AccMonitor
/-!
# The performance check of a node, with the accumulating monitor

`Node.checkPerformance` and the calls of the monitor on which it rests, when `ACC_MONITOR_ENABLED` is set. Left out: figures
which are only sent to metrics or plugins; what becomes of the vote (Model/InstanceChange.lean) and of the report on backups
(Model/BackupFaulty.lean). Of the requests of a batch only the number of those counts which are tracked (Model/Monitor.lean);
they are taken to be different.
-/
namespace Verif.PerfCheck
open Verif
open Verif.AccMonitor (Inst Cfg)

/-- `numOrderedRequests` of the monitor, without the times (plenum/server/monitor.py:168-171), and the number noted at
the last check (plenum/server/node.py:322-322). -/
structure Node where
  mon : AccMonitor.State
  nums : Dict Inst Nat
  last : Option Nat := none

/-- A node before its instances are added. plenum/server/monitor.py:145-251, `__init__`; plenum/server/node.py:322-322. -/
def Node.init (start : Nat) : Node := { mon := AccMonitor.State.init start [], nums := [] }

/-- The sum over the instances. plenum/server/node.py:2269-2281, `_update_new_ordered_reqs_count`. -/
def Node.numOrdered (n : Node) : Nat := (n.nums.map (·.2)).sum

/-- plenum/server/node.py:2269-2281, `_update_new_ordered_reqs_count`. -/
def Node.updateCount (n : Node) : Node × Bool :=
  if n.last ≠ some n.numOrdered then ({ n with last := some n.numOrdered }, true) else (n, false)

/-- What comes of a check: nothing, a good master, or a vote against it, with the backups reported as slow. -/
inductive Outcome where
  | skipped
  | fine (slow : List Inst)
  | vote (slow : List Inst)
deriving DecidableEq, Repr

/-- plenum/server/node.py:2501-2549, `checkPerformance`. `none`: an error. The master is watched if it is among the instances
(plenum/server/instances.py:28-34, `masterId`; `backupIds` are the others, 36-42). -/
def Node.check (c : Cfg) (n : Node) (participating viewChange : Bool) (now : Nat) : Option (Node × Outcome) :=
  if !participating then some (n, .skipped)
  else if viewChange then some (n, .skipped)
  else
    let (n, new) := n.updateCount
    if !new then some (n, .skipped)
    else if n.mon.instances.contains 0 then
      match n.mon.monitorBackupsDegraded c (n.mon.instances.filter (fun i => i != 0)) with
      | none => none
      | some slow =>
        match n.mon.monitorMasterDegraded c now with
        | none => none
        | some (m, true) => some ({ n with mon := m }, .vote slow)
        | some (m, false) => some ({ n with mon := m }, .fine slow)
    else some (n, .fine [])

/-- plenum/server/monitor.py:402-410, `requestUnOrdered`. -/
def Node.received (c : Cfg) (n : Node) (now : Nat) : Option Node :=
  (n.mon.updateTime c now).map (fun m => { n with mon := m.requestReceived })

/-- Requests of one batch are counted. plenum/server/monitor.py:361-370, `requestOrdered`. -/
def countOrdered (i : Inst) : Nat → AccMonitor.State → AccMonitor.State
  | 0, m => m
  | k + 1, m => countOrdered i k (m.requestOrdered i)

/-- plenum/server/monitor.py:353-400, `requestOrdered`, with `k` tracked requests; an unknown instance is `KeyError`. -/
def Node.ordered (c : Cfg) (n : Node) (now : Nat) (i : Inst) (k : Nat) : Option Node :=
  match n.mon.updateTime c now, n.nums.get? i with
  | some m, some x => some { n with mon := countOrdered i k m, nums := n.nums.set i (x + k) }
  | _, _ => none

/-- plenum/server/monitor.py:309-326, `reset`. -/
def Node.reset (n : Node) : Node :=
  { n with mon := n.mon.reset, nums := n.mon.instances.map (fun i => (i, 0)) }

/-- plenum/server/replicas.py:32-49, `add_replica`: plenum/server/monitor.py:328-341, `addInstance`, and `reset`. -/
def Node.addReplica (n : Node) (i : Inst) : Node :=
  Node.reset { n with mon := n.mon.addInstance i, nums := n.nums.set i 0 }

/-- plenum/server/replicas.py:51-61, `remove_replica` (of one that is there); plenum/server/monitor.py:343-351, `removeInstance`. -/
def Node.removeReplica (n : Node) (i : Inst) : Option Node :=
  if n.mon.instances.contains i then
    (n.mon.removeInstance i).map (fun m => { n with mon := m, nums := n.nums.erase i })
  else some n

/-- What happens to the monitor of a node, and its checks (plenum/server/node.py:274-274). -/
inductive Ev where
  | received (now : Nat)
  | ordered (now : Nat) (i : Inst) (k : Nat)
  | add (i : Inst)
  | remove (i : Inst)
  | reset
  | check (participating viewChange : Bool) (now : Nat)
deriving DecidableEq, Repr

/-- One event; the outcome of a check. plenum/server/node.py:2501-2549, `checkPerformance`, and the definitions above. -/
def Node.step (c : Cfg) (n : Node) : Ev → Option (Node × Option Outcome)
  | .received now => (n.received c now).map (·, none)
  | .ordered now i k => (n.ordered c now i k).map (·, none)
  | .add i => some (n.addReplica i, none)
  | .remove i => (n.removeReplica i).map (·, none)
  | .reset => some (n.reset, none)
  | .check p v now => (n.check c p v now).map (fun r => (r.1, some r.2))

/-- A history: the node after it and the outcomes of its checks. -/
def run (c : Cfg) (n : Node) : List Ev → Option (Node × List Outcome)
  | [] => some (n, [])
  | e :: r => match n.step c e with
    | none => none
    | some (n', o) => (run c n' r).map (fun p => (p.1, o.toList ++ p.2))

end Verif.PerfCheck
