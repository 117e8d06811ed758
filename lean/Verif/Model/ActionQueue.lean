import Verif.Model.Dict
/-!
# The queue of actions of nodes, replicas, monitors and observers

`plenum/server/has_action_queue.py`. Actions are scheduled to run after some
time, or at once; some repeat. `Node.prod` and others call `_serviceActions`,
which first looks for what is due (`look`) and then runs what is queued, one
after the other (`pop`). What an action does when it runs is given with the
event: it may take time, schedule and cancel others, and itself.

Simplified: times are whole numbers of ticks; actions do not raise. `hist` is a
record of what was asked for and what was done; the code has none.
-/
namespace Verif.AQ

/-- A callable: one given to `_schedule`, or the wrapper `startRepeating` makes
around `a`, a new one each time (has_action_queue.py:107-111). -/
inductive Act
  | plain (a : Nat)
  | rep (a gen secs : Nat)
deriving DecidableEq, Repr

/-- What happened. `asked`: an action was scheduled under an id; `ran`: the
action with this id was called; `body`: the wrapper with this id called the
action it repeats. -/
inductive Entry
  | asked (aid : Nat) (act : Act) (at' : Nat) (secs : Nat)
  | cancelAct (act : Act)
  | cancelAid (aid : Nat)
  | ran (aid : Nat) (act : Act) (at' : Nat)
  | body (aid : Nat) (a : Nat) (at' : Nat)
deriving DecidableEq, Repr

/-- has_action_queue.py:13-21, `__init__`. `nextCheck = none` is infinity; `now`
is the clock, `gens` counts the wrappers made. -/
structure Q where
  queue : List (Act × Nat) := []
  stash : List (Nat × Act × Nat) := []
  nextCheck : Option Nat := none
  aid : Nat := 0
  repeating : List Nat := []
  scheduled : Dict Act (List Nat) := []
  now : Nat := 0
  gens : Nat := 0
  hist : List Entry := []

/-- `x < limit`, where `none` is infinity. -/
def below (x : Nat) : Option Nat → Bool
  | none => true
  | some y => x < y

/-- The ids of an action that are scheduled and not cancelled. -/
def Q.ids (q : Q) (act : Act) : List Nat := (q.scheduled.get? act).getD []

/-- has_action_queue.py:23-48, `_schedule`. -/
def Q.schedule (q : Q) (act : Act) (secs : Nat) : Q :=
  let q := { q with aid := q.aid + 1 }
  let q :=
    if 0 < secs then
      { q with nextCheck := if below (q.now + secs) q.nextCheck then some (q.now + secs) else q.nextCheck
               stash := q.stash ++ [(q.now + secs, act, q.aid)] }
    else { q with queue := q.queue ++ [(act, q.aid)] }
  { q with scheduled := q.scheduled.set act (q.ids act ++ [q.aid]), hist := q.hist ++ [.asked q.aid act q.now secs] }

/-- has_action_queue.py:65-72: take the id from the first list that has it. -/
def dropAid (aid : Nat) : Dict Act (List Nat) → Dict Act (List Nat)
  | [] => []
  | (act, l) :: d => if aid ∈ l then (act, l.erase aid) :: d else (act, l) :: dropAid aid d

/-- has_action_queue.py:59-64, `_cancel` of an action. -/
def Q.cancelAct (q : Q) (act : Act) : Q :=
  let q := match q.scheduled.get? act with
    | some _ => { q with scheduled := q.scheduled.set act [] }
    | none => q
  { q with hist := q.hist ++ [.cancelAct act] }

/-- has_action_queue.py:65-72, `_cancel` of an id. -/
def Q.cancelAid (q : Q) (aid : Nat) : Q :=
  { q with scheduled := dropAid aid q.scheduled, hist := q.hist ++ [.cancelAid aid] }

/-- has_action_queue.py:106-120, `startRepeating`. -/
def Q.startRepeating (q : Q) (a secs : Nat) : Q :=
  if a ∈ q.repeating then q
  else { q with repeating := q.repeating ++ [a], gens := q.gens + 1 }.schedule (.rep a q.gens secs) secs

/-- has_action_queue.py:122-133, `stopRepeating`. -/
def Q.stopRepeating (q : Q) (a : Nat) : Q := { q with repeating := q.repeating.erase a }

/-- What others do with the queue; `pass` is time that passes. -/
inductive Call
  | schedule (a secs : Nat)
  | cancel (a : Nat)
  | cancelAid (aid : Nat)
  | start (a secs : Nat)
  | stop (a : Nat)
  | pass (d : Nat)
deriving DecidableEq, Repr

def Q.call (q : Q) : Call → Q
  | .schedule a secs => q.schedule (.plain a) secs
  | .cancel a => q.cancelAct (.plain a)
  | .cancelAid aid => q.cancelAid aid
  | .start a secs => q.startRepeating a secs
  | .stop a => q.stopRepeating a
  | .pass d => { q with now := q.now + d }

/-- has_action_queue.py:84-90, one round of the loop over the stash: the due one
goes to the front of the queue. -/
def Q.lookAt (q : Q) (d : Nat × Act × Nat) : Q :=
  if d.1 < q.now then { q with queue := d.2 :: q.queue, stash := q.stash.erase d } else q

/-- has_action_queue.py:83, 89-91: the earliest of the times looked at. -/
def earliest (l : List (Nat × Act × Nat)) : Option Nat :=
  l.foldl (fun e d => if below d.1 e then some d.1 else e) none

/-- `limit < now`, where `none` is infinity. -/
def past (now : Nat) : Option Nat → Bool
  | none => false
  | some c => c < now

/-- has_action_queue.py:80-91, the first part of `_serviceActions`. -/
def Q.look (q : Q) : Q :=
  if q.stash ≠ [] ∧ past q.now q.nextCheck = true then
    { q.stash.foldl Q.lookAt q with nextCheck := earliest q.stash }
  else q

/-- has_action_queue.py:93-104, one round of the loop over the queue, and lines
107-111, the wrapper. `does` is what the action does. -/
def Q.pop (q : Q) (does : List Call) : Q :=
  match q.queue with
  | [] => q
  | (act, aid) :: rest =>
    let q := { q with queue := rest }
    if aid ∈ q.ids act then
      let q := { q with scheduled := q.scheduled.set act ((q.ids act).erase aid), hist := q.hist ++ [.ran aid act q.now] }
      match act with
      | .plain _ => does.foldl Q.call q
      | .rep a _ secs =>
        if a ∈ q.repeating then
          (does.foldl Q.call { q with hist := q.hist ++ [.body aid a q.now] }).schedule act secs
        else q
    else q

inductive Event
  | call (c : Call)
  | look
  | pop (does : List Call)
deriving DecidableEq, Repr

def Q.step (q : Q) : Event → Q
  | .call c => q.call c
  | .look => q.look
  | .pop does => q.pop does

def run (evs : List Event) : Q := evs.foldl Q.step {}

/-- The calls in an event. -/
def Event.calls : Event → List Call
  | .call c => [c]
  | .look => []
  | .pop does => does

end Verif.AQ
