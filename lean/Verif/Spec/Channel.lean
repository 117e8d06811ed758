import Verif.Model.Channel
/-!
# What users of channels and routers rely on
-/
namespace Verif.Spec.Channel
open Verif.Channel

/-- A use of a queued channel from outside. -/
inductive Op where
  | put (m : Msg)
  | service (limit : Nat)
deriving DecidableEq, Repr

def step (reply : Handler → Msg → List Msg) (s : State) : Op → State
  | .put m => s.put m
  | .service n => (s.service reply n).2

/-- From a channel to which handlers subscribed one after the other. -/
def run (reply : Handler → Msg → List Msg) (subs : List Handler) (h : List Op) : State :=
  h.foldl (step reply) (subs.foldl State.subscribe {})

/-- What was put from outside. -/
def outside : List Op → List Msg
  | [] => []
  | .put m :: h => m :: outside h
  | .service _ :: h => outside h

/-- Every subscriber is called with every message, in the order of messages. -/
def calls (subs : List Handler) (d : List Msg) : List (Handler × Msg) := d.flatMap (fun m => subs.map (fun x => (x, m)))

/-- The handler last added for a type. -/
def lastAdded : List (Typ × Handler) → Typ → Option Handler
  | [], _ => none
  | (t, x) :: l, u => (lastAdded l u).or (if t = u then some x else none)

/-- A router to which handlers were added one after the other. -/
def router (l : List (Typ × Handler)) : Routes := l.foldl (fun r e => add r e.1 e.2) []

end Verif.Spec.Channel
