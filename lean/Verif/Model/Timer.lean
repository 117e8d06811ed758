/-!
# Model of `plenum/common/timer.py`

Times are integers (the code uses floats). A callback is an opaque number, equal
callbacks have equal numbers. What callbacks do is not modelled: `service` is the
sequence of its turns (`Event.turn`), and between two of them, while a callback
runs, anything may be scheduled or cancelled.

`Ev.id`, `scheduled`, `fired` and `cancelled` are not in the code: they tell
events apart and record what happened.
-/
namespace Verif.Timer

abbrev Callback := Nat

/-- timer.py:27, `TimerEvent`. -/
structure Ev where
  id : Nat
  timestamp : Int
  callback : Callback
  deriving DecidableEq, Repr

structure State where
  now : Int := 0
  events : List Ev := []
  nextId : Nat := 0
  /-- with the time of scheduling and the delay -/
  scheduled : List (Ev × Int × Int) := []
  /-- with the time of firing -/
  fired : List (Ev × Int) := []
  cancelled : List Ev := []
  deriving DecidableEq

/-- `SortedListWithKey.add`: after the events not later. -/
def insertEv (e : Ev) : List Ev → List Ev
  | [] => [e]
  | x :: l => if x.timestamp ≤ e.timestamp then x :: insertEv e l else e :: x :: l

/-- timer.py:44-46, `QueueTimer.schedule`. -/
def State.schedule (s : State) (delay : Int) (cb : Callback) : State :=
  let e : Ev := ⟨s.nextId, s.now + delay, cb⟩
  { s with
    events := insertEv e s.events, nextId := s.nextId + 1
    scheduled := s.scheduled ++ [(e, s.now, delay)] }

/-- timer.py:48-51, `QueueTimer.cancel`. -/
def State.cancel (s : State) (cb : Callback) : State :=
  { s with
    events := s.events.filter (fun e => e.callback ≠ cb)
    cancelled := s.cancelled ++ s.events.filter (fun e => e.callback = cb) }

/-- timer.py:36-38, one turn of the loop of `QueueTimer.service`: the event whose
callback is called, if the loop goes on. -/
def State.due (s : State) : Option Ev :=
  match s.events with
  | [] => none
  | e :: _ => if e.timestamp ≤ s.now then some e else none

/-- timer.py:36-38, one turn of the loop of `QueueTimer.service`. -/
def State.turn (s : State) : State :=
  match s.due with
  | none => s
  | some e => { s with events := s.events.tail, fired := s.fired ++ [(e, s.now)] }

inductive Event
  /-- the clock moves on -/
  | tick (d : Nat)
  | schedule (delay : Int) (cb : Callback)
  | cancel (cb : Callback)
  | turn

def State.step (s : State) : Event → State
  | .tick d => { s with now := s.now + d }
  | .schedule delay cb => s.schedule delay cb
  | .cancel cb => s.cancel cb
  | .turn => s.turn

def run (evs : List Event) : State := evs.foldl State.step {}

/-! ## Repeating timers: timer.py:60-94, `RepeatingTimer` -/

/-- One repeating timer on a queue timer; its wrapped callback is number 0, and
other callbacks have other numbers. -/
structure Rep where
  timer : State := {}
  interval : Int
  active : Bool := false
  /-- is the user's callback running? -/
  running : Bool := false
  /-- the times at which the user's callback was called -/
  called : List Int := []

/-- timer.py:78-82, `start`; an interval is positive once set (93-97). -/
def Rep.start (r : Rep) : Rep :=
  if r.active then r
  else { r with active := true, timer := r.timer.schedule r.interval 0 }

/-- timer.py:84-88, `stop`. -/
def Rep.stop (r : Rep) : Rep :=
  if !r.active then r
  else { r with active := false, timer := r.timer.cancel 0 }

/-- A turn of `service`: if it is the turn of the wrapped callback
(timer.py:62-66) and the timer is active, the user's callback starts. -/
def Rep.turn (r : Rep) : Rep :=
  match r.timer.due with
  | none => r
  | some e =>
    let r' := { r with timer := r.timer.turn }
    if e.callback = 0 ∧ r.active then
      { r' with running := true, called := r.called ++ [r.timer.now] }
    else r'

/-- The user's callback returns, and the next call is scheduled: timer.py:66. -/
def Rep.callbackEnd (r : Rep) : Rep :=
  { r with running := false, timer := r.timer.schedule r.interval 0 }

inductive RepEvent
  | tick (d : Nat)
  /-- somebody schedules another callback -/
  | schedule (delay : Int) (cb : Callback)
  | cancel (cb : Callback)
  | start
  | stop
  /-- a turn of `service`; not while the callback runs -/
  | turn
  | callbackEnd

def Rep.step (r : Rep) : RepEvent → Rep
  | .tick d => { r with timer := { r.timer with now := r.timer.now + d } }
  | .schedule delay cb => if cb = 0 then r else { r with timer := r.timer.schedule delay cb }
  | .cancel cb => if cb = 0 then r else { r with timer := r.timer.cancel cb }
  | .start => r.start
  | .stop => r.stop
  | .turn => if r.running then r else r.turn
  | .callbackEnd => if r.running then r.callbackEnd else r

def Rep.run (interval : Int) (evs : List RepEvent) : Rep := evs.foldl Rep.step { interval := interval }

end Verif.Timer
