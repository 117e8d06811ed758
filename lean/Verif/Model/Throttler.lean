/-!
# Throttling of actions

plenum/common/throttler.py. Times are integers: the clock's own ticks, without the
rounding of floats.
-/
namespace Verif.Throttler

/-- plenum/common/throttler.py:11-26, `__init__`. -/
structure State where
  windowSize : Int
  delayFunction : Nat → Int
  actionsLog : List Int

/-- plenum/common/throttler.py:66-71, `_defaultDelayFunction`. -/
def defaultDelayFunction (windowSize : Int) : Nat → Int := fun _ => windowSize

/-- plenum/common/throttler.py:62-64, `_trimActionsLog`. -/
def trim (windowSize now : Int) : List Int → List Int
  | [] => []
  | t :: r => if now - t > windowSize then trim windowSize now r else t :: r

/-- plenum/common/throttler.py:28-60, `acquire`, at time `now`: the answer, and the
time to wait. -/
def acquire (s : State) (now : Int) : (Bool × Int) × State :=
  let log := trim s.windowSize now s.actionsLog
  match log.getLast? with
  | none => ((true, 0), { s with actionsLog := log ++ [now] })
  | some last =>
    if s.delayFunction log.length < now - last then
      ((true, 0), { s with actionsLog := log ++ [now] })
    else ((false, s.delayFunction log.length - (now - last)), { s with actionsLog := log })

/-- Calls at the given times, the first first: the answers, and the state after. -/
def run (s : State) : List Int → List (Int × Bool × Int) × State
  | [] => ([], s)
  | t :: r =>
    let a := acquire s t
    let rest := run a.2 r
    ((t, a.1) :: rest.1, rest.2)

end Verif.Throttler
