import Verif.Model.Quorums
/-!
# When a node is ready, and when it warns of having lost the pool

The status of a node, the connections it last looked at, and its `NetworkInconsistencyWatcher`. Sets are lists without
repetitions. Left out: the passing `stopping` status, what hears of a changed status, other remotes with the same address
(`Verif.Model.Stack`), and what else starting and stopping do.
-/
namespace Verif.Ready
open Verif

abbrev Name := Nat

/-- plenum/common/startable.py:5-23, `Status`, without `stopping`. -/
inductive Status where
  | stopped | starting | hungry | started
deriving DecidableEq, Repr

/-- plenum/common/startable.py:24-29, `going`. -/
def Status.going : Status → Bool
  | .stopped => false
  | _ => true

/-- plenum/common/startable.py:31-36, `ready`. -/
def Status.ready : Status → Bool
  | .hungry => true
  | .started => true
  | _ => false

/-- plenum/server/inconsistency_watchers.py:5-11, `NetworkInconsistencyWatcher`; `warned` counts the calls of the callback. -/
structure Watcher where
  connected : List Name := []
  n : Nat := 0
  reached : Bool := false
  warned : Nat := 0
deriving DecidableEq, Repr

/-- plenum/server/inconsistency_watchers.py:13-16, `connect`. -/
def Watcher.connect (w : Watcher) (x : Name) : Watcher :=
  let l := if x ∈ w.connected then w.connected else w.connected ++ [x]
  { w with connected := l, reached := w.reached || (Quorums.ofN w.n).strong.isReached l.length }

/-- plenum/server/inconsistency_watchers.py:18-22, `disconnect`. -/
def Watcher.disconnect (w : Watcher) (x : Name) : Watcher :=
  let l := w.connected.filter (fun y => decide (y ≠ x))
  if w.reached && !(Quorums.ofN w.n).weak.isReached l.length then
    { w with connected := l, reached := false, warned := w.warned + 1 }
  else { w with connected := l }

/-- plenum/server/inconsistency_watchers.py:28-30, `set_nodes`. -/
def Watcher.setNodes (w : Watcher) (nodes : List Name) : Watcher := { w with n := nodes.length }

/-- The parts of a node. plenum/server/node.py:253-257, `__init__`. -/
structure State where
  status : Status := .stopped
  /-- `totalNodes` -/
  total : Nat
  /-- `nodestack.conns` -/
  conns : List Name := []
  watcher : Watcher
deriving DecidableEq, Repr

/-- plenum/server/node.py:253-257, `__init__`: the parameters of the pool are set, then the watcher hears of the node itself. -/
def init (me : Name) (pool : List Name) : State :=
  { total := pool.length, watcher := (({} : Watcher).setNodes pool).connect me }

/-- plenum/server/node.py:750, `setPoolParams`. -/
def minimum (total : Nat) : Nat := 2 * getMaxFailures total + 1

/-- plenum/server/node.py:1169-1202, `onConnsChanged`. -/
def State.onConnsChanged (s : State) (joined left : List Name) : State :=
  let status :=
    if s.status.going then
      if s.conns.length + 1 = s.total then .started
      else if s.conns.length + 1 ≥ minimum s.total then .hungry
      else .starting
    else s.status
  { s with status := status, watcher := joined.foldl Watcher.connect (left.foldl Watcher.disconnect s.watcher) }

/-- Looking at the connections; a set that is the same is not noticed. stp_core/network/keep_in_touch.py:57-67, `conns`, and
69-73, `checkConns`; plenum/server/node.py:1070-1072, `prod`. -/
def State.check (s : State) (c : List Name) : State :=
  if !s.status.going then s
  else
    let joined := c.filter (fun x => decide (x ∉ s.conns))
    let left := s.conns.filter (fun x => decide (x ∉ c))
    if joined.isEmpty && left.isEmpty then { s with conns := c }
    else { s with conns := c }.onConnsChanged joined left

/-- plenum/server/node.py:744-750, `setPoolParams`. -/
def State.setPool (s : State) (pool : List Name) : State :=
  { s with total := pool.length, watcher := s.watcher.setNodes pool }

/-- plenum/server/node.py:919-928, `start`; plenum/common/motor.py:50-54, `start`. -/
def State.start (s : State) : State := if s.status.going then s else { s with status := .starting }

/-- plenum/common/motor.py:56-66, `stop`; plenum/server/node.py:1023-1030, `reset`: the connections are dropped, and nobody
is told. -/
def State.stop (s : State) : State := if s.status.going then { s with status := .stopped, conns := [] } else s

/-- What happens to a node. -/
inductive Ev where
  | start
  | stop
  | pool (l : List Name)
  | check (c : List Name)
deriving DecidableEq, Repr

def State.step (s : State) : Ev → State
  | .start => s.start
  | .stop => s.stop
  | .pool l => s.setPool l
  | .check c => s.check c

/-- A history of a node `me` of a pool. -/
def run (me : Name) (pool : List Name) (h : List Ev) : State := h.foldl State.step (init me pool)

end Verif.Ready
