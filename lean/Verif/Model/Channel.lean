import Verif.Model.Dict
/-!
# Channels and routers

The channels by which the parts of catch-up speak to one another, with plain handlers (no coroutines), and the routers that find
the handler of a message. A handler is known by its place among the subscribers; what it does is only that it may put messages
into the same channel.
-/
namespace Verif.Channel

abbrev Msg := Nat
abbrev Typ := Nat
abbrev Handler := Nat

/-- plenum/common/channel.py:29-32, `_RxChannel.__init__`; 78-80, of `QueuedChannelService.__init__`. `got` is which handler was
called with what, `puts` what was put, both in order. -/
structure State where
  subs : List Handler := []
  queue : List Msg := []
  puts : List Msg := []
  got : List (Handler × Msg) := []
deriving DecidableEq, Repr

/-- plenum/common/channel.py:34-38, `subscribe`. -/
def State.subscribe (s : State) (x : Handler) : State := { s with subs := s.subs ++ [x] }

/-- plenum/common/channel.py:73-77, `put` and `put_nowait` of a queued channel. -/
def State.put (s : State) (m : Msg) : State := { s with queue := s.queue ++ [m], puts := s.puts ++ [m] }

/-- One handler is called; `reply` is what it puts in turn. plenum/common/channel.py:45-46, of `notify_sync`. -/
def State.call (reply : Handler → Msg → List Msg) (m : Msg) (s : State) (x : Handler) : State :=
  (reply x m).foldl State.put { s with got := s.got ++ [(x, m)] }

/-- plenum/common/channel.py:44-46, `notify_sync`. -/
def State.notify (reply : Handler → Msg → List Msg) (s : State) (m : Msg) : State := s.subs.foldl (State.call reply m) s

/-- plenum/common/channel.py:97-103, `service_sync`, with a limit; 89-95, `service`, is the same with plain handlers. -/
def State.service (reply : Handler → Msg → List Msg) : Nat → State → Nat × State
  | 0, s => (0, s)
  | n + 1, s =>
    match s.queue with
    | [] => (0, s)
    | m :: q =>
      let r := State.service reply n (State.notify reply { s with queue := q } m)
      (r.1 + 1, r.2)

/-- plenum/common/channel.py:147-150, `RouterBase.__init__`. -/
abbrev Routes := List (Typ × Handler)

/-- plenum/common/channel.py:151-152, `RouterBase.add`. -/
def add (r : Routes) (t : Typ) (x : Handler) : Routes := Dict.set r t x

/-- plenum/common/channel.py:168-171, `_find_handler`; `isA` is `isinstance`. -/
def findHandler (isA : Msg → Typ → Bool) : Routes → Msg → Option Handler
  | [], _ => none
  | (t, x) :: r, m => if isA m t then some x else findHandler isA r m

/-- What becomes of a message. -/
inductive Out where
  | handled (x : Handler)
  | ignored
  | raised
deriving DecidableEq, Repr

/-- plenum/common/channel.py:154-166, `_process_sync`. -/
def process (isA : Msg → Typ → Bool) (strict : Bool) (r : Routes) (m : Msg) : Out :=
  match findHandler isA r m with
  | some x => .handled x
  | none => if strict then .raised else .ignored

end Verif.Channel
