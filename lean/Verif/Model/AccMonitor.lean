import Verif.Model.Dict
/-!
# The accumulating monitor

The second way in which a node can find out that an instance of the protocol is too slow
(`ACC_MONITOR_ENABLED`). It compares how many requests the instances have ordered since the last
reset. Numbers which are floats in the code are exact here: rates are rational numbers, and times
are natural numbers, counted in ticks of any fixed length (so the rate is per tick). The weight
`-log(0.5)/10` of the moving average is a parameter. Left out: what is only logged.
-/
namespace Verif.AccMonitor
open Verif

/-- The number of an instance; the master has number 0. -/
abbrev Inst := Nat

/-- Settings: `ACC_MONITOR_TXN_DELTA_K`, `ACC_MONITOR_TIMEOUT`, a tenth of
`ACC_MONITOR_INPUT_RATE_REACTION_HALF_TIME`, and the weight of a new value. plenum/config.py:346-358,
plenum/common/moving_average.py:42-44, `halfway_alpha`, and 73-76. -/
structure Cfg where
  k : Rat
  timeout : Nat
  window : Nat
  alpha : Rat

/-! ## The rate at which requests come in -/

/-- plenum/common/moving_average.py:48-52, `EventFrequencyEstimator.__init__`; `value` is that of the averager (20-22). -/
structure Est where
  start : Nat
  sum : Nat := 0
  value : Rat := 0
deriving DecidableEq, Repr

/-- plenum/common/moving_average.py:32-33, `ExponentialMovingAverage.update`. -/
def average (c : Cfg) (new old : Rat) : Rat := new * c.alpha + old * (1 - c.alpha)

/-- plenum/common/moving_average.py:54-55, `add_events`. -/
def Est.addEvents (e : Est) (n : Nat) : Est := { e with sum := e.sum + n }

/-- plenum/common/moving_average.py:57-60, `reset`. -/
def Est.reset (_ : Est) (t : Nat) : Est := { start := t, sum := 0, value := 0 }

/-- plenum/common/moving_average.py:62-66, `update_time`: the loop. The number bounds how often it is passed. -/
def Est.loop (c : Cfg) (t : Nat) : Nat → Est → Est
  | 0, e => e
  | n + 1, e =>
    if t > e.start + c.window then
      Est.loop c t n { start := e.start + c.window, sum := 0,
                       value := average c ((e.sum : Rat) / (c.window : Rat)) e.value }
    else e

/-- plenum/common/moving_average.py:62-66, `update_time`. Each pass moves the start by the window, so `t` passes
are enough when the window is not empty (with an empty window the loop of the code does not end). -/
def Est.updateTime (c : Cfg) (e : Est) (t : Nat) : Est := Est.loop c t t e

/-! ## The strategy -/

/-- plenum/common/monitor_strategies.py:45-53, `AccumulatingMonitorStrategy.__init__`. `dflt` says whether
`_alert_timestamp` still is the `defaultdict` of the constructor. -/
structure State where
  instances : List Inst
  ordered : Dict Inst Nat := []
  timestamp : Nat
  alert : Dict Inst (Option Nat) := []
  dflt : Bool := true
  rate : Est
deriving DecidableEq, Repr

/-- plenum/common/monitor_strategies.py:45-53, `__init__`; plenum/server/monitor.py:245-251, `__init__`. -/
def State.init (start : Nat) (instances : List Inst) : State :=
  { instances := instances, timestamp := start, rate := { start := start } }

/-- plenum/common/monitor_strategies.py:55-56, `add_instance`. The instances are a set. -/
def State.addInstance (s : State) (i : Inst) : State :=
  { s with instances := if s.instances.contains i then s.instances else s.instances ++ [i] }

/-- plenum/common/monitor_strategies.py:58-59, `remove_instance`; `none`: `KeyError`. -/
def State.removeInstance (s : State) (i : Inst) : Option State :=
  if s.instances.contains i then some { s with instances := s.instances.filter (fun j => j != i) } else none

/-- plenum/common/monitor_strategies.py:61-65, `reset`. -/
def State.reset (s : State) : State :=
  { s with
    rate := s.rate.reset s.timestamp
    alert := s.instances.map (fun i => (i, none))
    dflt := false
    ordered := [] }

/-- Reading `_ordered`, a `defaultdict(int)`. plenum/common/monitor_strategies.py:45-53, `__init__`: `_ordered`. -/
def State.orderedOf (s : State) (i : Inst) : Nat := (s.ordered.get? i).getD 0

/-- Reading `_alert_timestamp`: `none` is `KeyError`, `some none` is `None`.
plenum/common/monitor_strategies.py:45-53, `__init__`: `_alert_timestamp`, and 64-64. -/
def State.alertOf (s : State) (i : Inst) : Option (Option Nat) :=
  match s.alert.get? i with
  | some a => some a
  | none => if s.dflt then some none else none

/-- plenum/common/monitor_strategies.py:95-97, `_threshold`. -/
def State.threshold (c : Cfg) (s : State) : Rat := c.k * s.rate.value

/-- The maximum over the instances. plenum/common/monitor_strategies.py:103-103, `_is_degraded`. -/
def State.maxOrdered (s : State) : Nat := s.instances.foldl (fun m j => max m (s.orderedOf j)) 0

/-- plenum/common/monitor_strategies.py:99-104, `_is_degraded`. -/
def State.lags (c : Cfg) (s : State) (i : Inst) : Bool :=
  if s.instances.length < 2 then false
  else decide (((s.maxOrdered : Rat) - (s.orderedOf i : Rat)) > s.threshold c)

/-- One pass of the loop. plenum/common/monitor_strategies.py:70-80, `update_time`. -/
def State.look (c : Cfg) (s : State) (i : Inst) : Option State :=
  match s.alertOf i with
  | none => none
  | some a =>
    if a.isSome && !(s.lags c i) then some { s with alert := s.alert.set i none }
    else if !a.isSome && s.lags c i then some { s with alert := s.alert.set i (some s.timestamp) }
    else some s

/-- The loop over the instances. plenum/common/monitor_strategies.py:70-80, `update_time`. -/
def State.lookAll (c : Cfg) : List Inst → State → Option State
  | [], s => some s
  | i :: r, s =>
    match s.look c i with
    | none => none
    | some s' => State.lookAll c r s'

/-- plenum/common/monitor_strategies.py:67-80, `update_time`. -/
def State.updateTime (c : Cfg) (s : State) (t : Nat) : Option State :=
  State.lookAll c s.instances { s with timestamp := t, rate := s.rate.updateTime c t }

/-- plenum/common/monitor_strategies.py:82-83, `request_received`. -/
def State.requestReceived (s : State) : State := { s with rate := s.rate.addEvents 1 }

/-- plenum/common/monitor_strategies.py:85-86, `request_ordered`. -/
def State.requestOrdered (s : State) (i : Inst) : State :=
  { s with ordered := s.ordered.set i (s.orderedOf i + 1) }

/-- plenum/common/monitor_strategies.py:91-94, `is_instance_degraded`; `none`: `KeyError`. -/
def State.isInstanceDegraded (c : Cfg) (s : State) (i : Inst) : Option Bool :=
  match s.alertOf i with
  | none => none
  | some none => some false
  | some (some a) => some (decide ((s.timestamp : Int) - (a : Int) > (c.timeout : Int)))

/-- plenum/common/monitor_strategies.py:88-89, `is_master_degraded`. -/
def State.isMasterDegraded (c : Cfg) (s : State) : Option Bool := s.isInstanceDegraded c 0

/-! ## Histories -/

/-- The calls of plenum/common/monitor_strategies.py:55-86 by the monitor (plenum/server/monitor.py:320-321, 340-345,
361-370, 407-409, 429-431). -/
inductive Ev where
  | add (i : Inst)
  | remove (i : Inst)
  | reset
  | time (t : Nat)
  | received
  | ordered (i : Inst)
deriving DecidableEq, Repr

/-- One call. plenum/common/monitor_strategies.py:55-86, `AccumulatingMonitorStrategy`. -/
def State.step (c : Cfg) (s : State) : Ev → Option State
  | .add i => some (s.addInstance i)
  | .remove i => s.removeInstance i
  | .reset => some s.reset
  | .time t => s.updateTime c t
  | .received => some s.requestReceived
  | .ordered i => some (s.requestOrdered i)

/-- A history of calls; `none` if one of them raised an error. -/
def run (c : Cfg) (s : State) : List Ev → Option State
  | [] => some s
  | e :: r => match s.step c e with
    | none => none
    | some s' => run c s' r

/-- plenum/server/monitor.py:425-431, `isMasterDegraded`, with this strategy. -/
def State.monitorMasterDegraded (c : Cfg) (s : State) (now : Nat) : Option (State × Bool) :=
  match s.updateTime c now with
  | none => none
  | some s' => (s'.isMasterDegraded c).map (fun b => (s', b))

/-- plenum/server/monitor.py:442-449, `areBackupsDegraded`, with this strategy: the slow ones among the backups. -/
def State.monitorBackupsDegraded (c : Cfg) (s : State) : List Inst → Option (List Inst)
  | [] => some []
  | i :: r =>
    match s.isInstanceDegraded c i, State.monitorBackupsDegraded c s r with
    | some b, some l => some (if b then i :: l else l)
    | _, _ => none

end Verif.AccMonitor
