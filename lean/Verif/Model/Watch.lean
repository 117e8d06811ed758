import Verif.Model.Timer
/-!
# When a node votes against a primary that is gone, or a view change that takes too long

`plenum/server/consensus/monitoring/primary_connection_monitor_service.py`, of the master instance, and the timer of
`plenum/server/consensus/view_change_service.py`, on one `QueueTimer` with others.

A vote (`VoteForViewChange`) is handled at once, while the callback of the timer that sends it is not finished: it can
start a view change. So a callback has a beginning (`Ev.turn`) and an end (`Ev.callbackEnd`), and things may happen in
between. The clock does not move then, and no other callback is called.

Not modelled: what becomes of a vote (`Verif.IC`); backup instances; `cleanup`; `NEW_VIEW_TIMEOUT` is positive.
-/
namespace Verif.Watch

abbrev Node := Nat

/-- plenum/config.py:201, 294 and 295. -/
structure Cfg where
  /-- the name of this node -/
  me : Node
  /-- `ToleratePrimaryDisconnection` -/
  tolerate : Nat
  /-- `INITIAL_PROPOSE_VIEW_CHANGE_TIMEOUT` -/
  initial : Nat
  /-- `NEW_VIEW_TIMEOUT` -/
  timeout : Nat

/-- The reasons for a vote. -/
inductive Why
  /-- PRIMARY_DISCONNECTED -/
  | disconnected
  /-- INSTANCE_CHANGE_TIMEOUT -/
  | timeout
  /-- INCORRECT_NEW_PRIMARY -/
  | samePrimary
  deriving DecidableEq, Repr

/-- The callbacks on the timer. Others have other numbers. -/
def proposeCb : Timer.Callback := 0
def checkCb : Timer.Callback := 1
def resendCb : Timer.Callback := 2

structure State where
  timer : Timer.State := {}
  /-- the node of `primary_name` -/
  primary : Option Node := none
  /-- `network.connecteds` -/
  connected : List Node := []
  validators : List Node := []
  /-- `is_ready`: connected to enough nodes -/
  ready : Bool := false
  /-- `is_synced`: no catchup -/
  synced : Bool := false
  /-- `waiting_for_new_view` -/
  waiting : Bool := false
  /-- `_primary_disconnection_time` -/
  disc : Option Int := none
  /-- `_propose_view_change_timer` is active -/
  proposing : Bool := false
  /-- `_resend_inst_change_timer` is active -/
  resending : Bool := false
  /-- the callback which is running -/
  running : Option Timer.Callback := none
  /-- the votes sent, with the time -/
  votes : List (Int × Why) := []
  deriving DecidableEq

/-- primary_connection_monitor_service.py:35, 48-49: the state after `__init__`. -/
def init (cfg : Cfg) : State :=
  { disc := some 0, timer := ({} : Timer.State).schedule cfg.initial checkCb }

def State.vote (s : State) (w : Why) : State := { s with votes := s.votes ++ [(s.timer.now, w)] }

/-- `RepeatingTimer.start` and `stop` (plenum/common/timer.py:78-88) of the timer of the votes against the primary. -/
def State.startProposing (cfg : Cfg) (s : State) : State :=
  if s.proposing then s else { s with proposing := true, timer := s.timer.schedule cfg.timeout proposeCb }
def State.stopProposing (s : State) : State :=
  if s.proposing then { s with proposing := false, timer := s.timer.cancel proposeCb } else s

/-- The same for the timer of view changes. -/
def State.startResending (cfg : Cfg) (s : State) : State :=
  if s.resending then s else { s with resending := true, timer := s.timer.schedule cfg.timeout resendCb }
def State.stopResending (s : State) : State :=
  if s.resending then { s with resending := false, timer := s.timer.cancel resendCb } else s

/-- primary_connection_monitor_service.py:101-106, `_schedule_primary_connection_check`. -/
def State.scheduleCheck (cfg : Cfg) (s : State) : State :=
  { s with timer := s.timer.schedule cfg.tolerate checkCb }

/-- primary_connection_monitor_service.py:85-91, `_primary_connected`. -/
def State.primaryConnected (s : State) : State :=
  { s with disc := none, timer := s.timer.cancel checkCb }.stopProposing

/-- primary_connection_monitor_service.py:93-99, `_primary_disconnected`. -/
def State.primaryDisconnected (cfg : Cfg) (s : State) : State :=
  State.scheduleCheck cfg { s with disc := some s.timer.now }

/-- primary_connection_monitor_service.py:58-60, `process_connected`. -/
def State.processConnected (s : State) (frm : Node) : State :=
  if s.primary = some frm then s.primaryConnected else s

/-- primary_connection_monitor_service.py:62-64, `process_disconnected`. -/
def State.processDisconnected (cfg : Cfg) (s : State) (frm : Node) : State :=
  if s.primary = some frm then s.primaryDisconnected cfg else s

/-- plenum/common/event_bus.py:35-43, `update_connecteds`. -/
def State.updateConnecteds (cfg : Cfg) (s : State) (l : List Node) : State :=
  let joined := l.filter (· ∉ s.connected)
  let left := s.connected.filter (· ∉ l)
  let s := { s with connected := l }
  let s := joined.foldl State.processConnected s
  left.foldl (State.processDisconnected cfg) s

/-- primary_connection_monitor_service.py:125-133, `_is_primary_connected`. -/
def State.isPrimaryConnected (cfg : Cfg) (s : State) : Bool :=
  match s.primary with
  | none => true
  | some p => p = cfg.me || p ∈ s.connected || p ∉ s.validators

/-- primary_connection_monitor_service.py:66-70, `process_primary_selected`. -/
def State.primarySelected (cfg : Cfg) (s : State) : State :=
  if s.isPrimaryConnected cfg then s.primaryConnected else s.primaryDisconnected cfg

/-- primary_connection_monitor_service.py:73-80, `process_node_status_updated`, from `starting` to `started_hungry`
(plenum/server/node.py:1180-1186). -/
def State.hungry (cfg : Cfg) (s : State) : State :=
  let s := { s with ready := true }
  if s.disc.isSome && s.primary.isSome then s.scheduleCheck cfg else s

/-- primary_connection_monitor_service.py:108-123, `_check_primary_connection`, as far as the vote. -/
def State.check (cfg : Cfg) (s : State) : State :=
  if s.disc.isNone then s
  else if !s.ready || !s.synced then s.scheduleCheck cfg
  else { s.vote .disconnected with running := some checkCb }

/-- primary_connection_monitor_service.py:138-140, `_propose_view_change_if_needed`. -/
def State.propose (s : State) : State := if s.disc.isSome then s.vote .disconnected else s

/-- A turn of the timer (plenum/common/timer.py:36-38): a callback begins. -/
def State.turn (cfg : Cfg) (s : State) : State :=
  match s.timer.due with
  | none => s
  | some e =>
    let s := { s with timer := s.timer.turn }
    if e.callback = checkCb then s.check cfg
    else if e.callback = proposeCb then (if s.proposing then { s.propose with running := some proposeCb } else s)
    else if e.callback = resendCb then (if s.resending then { s.vote .timeout with running := some resendCb } else s)
    else s

/-- The callback which is running ends: line 123 of the check, and plenum/common/timer.py:66 of a repeating timer. -/
def State.callbackEnd (cfg : Cfg) (s : State) : State :=
  match s.running with
  | none => s
  | some cb =>
    let s := { s with running := none }
    if cb = checkCb then s.startProposing cfg else { s with timer := s.timer.schedule cfg.timeout cb }

/-- view_change_service.py:71-125, `process_need_view_change`: `p` is the primary of the new view. -/
def State.needViewChange (cfg : Cfg) (s : State) (p : Node) : State :=
  let old := s.primary
  let s := { s with waiting := true, primary := some p }
  let s := if old = some p then s.vote .samePrimary else s
  s.stopResending.startResending cfg

/-- view_change_service.py:314-333, `_finish_view_change`, with plenum/server/node.py:3193-3199. `p`: the
NEW_VIEW names a primary. -/
def State.newView (cfg : Cfg) (s : State) (p : Option Node) : State :=
  let s := { s with waiting := false, primary := p.or s.primary }
  s.stopResending.primarySelected cfg

/-- A catchup ends, or the node starts: plenum/server/node.py:1830-1843 and 768-777: primaries are selected. -/
def State.caughtUp (cfg : Cfg) (s : State) (p : Node) : State :=
  State.primarySelected cfg { s with primary := some p }

inductive Ev
  /-- the clock moves on -/
  | tick (d : Nat)
  | turn
  | callbackEnd
  /-- the nodes connected to, now -/
  | conns (l : List Node)
  | needViewChange (p : Node)
  | newView (p : Option Node)
  | caughtUp (p : Node)
  /-- the node gets enough connections -/
  | hungry
  | setReady (b : Bool)
  | setSynced (b : Bool)
  | setValidators (l : List Node)
  /-- another part of the node uses the timer -/
  | schedule (delay : Int) (cb : Timer.Callback)
  | cancel (cb : Timer.Callback)
  deriving DecidableEq

def State.step (cfg : Cfg) (s : State) : Ev → State
  | .tick d => if s.running.isSome then s else { s with timer := { s.timer with now := s.timer.now + d } }
  | .turn => if s.running.isSome then s else s.turn cfg
  | .callbackEnd => s.callbackEnd cfg
  | .conns l => s.updateConnecteds cfg l
  | .needViewChange p => s.needViewChange cfg p
  | .newView p => s.newView cfg p
  | .caughtUp p => s.caughtUp cfg p
  | .hungry => s.hungry cfg
  | .setReady b => { s with ready := b }
  | .setSynced b => { s with synced := b }
  | .setValidators l => { s with validators := l }
  | .schedule d cb => if cb ≤ 2 then s else { s with timer := s.timer.schedule d cb }
  | .cancel cb => if cb ≤ 2 then s else { s with timer := s.timer.cancel cb }

/-- A run from a state. -/
def State.run (cfg : Cfg) (s : State) (es : List Ev) : State := es.foldl (State.step cfg) s

/-- A run of a node that starts. -/
def run (cfg : Cfg) (es : List Ev) : State := (init cfg).run cfg es

end Verif.Watch
