import Verif.Model.Dict
/-!
# Model of `plenum/common/stashing_router.py`

Handlers are not modelled: what they return is an input, and while one runs
anything may happen (messages arrive, stashes are replayed). Python's call stack
is therefore part of the state: `Frame`.

The lists `arrived`, `processed`, `discarded`, `dropped`, `lost`, `pushes` and
`pops` are not in the code: they record what happened.
-/
namespace Verif.Stashing

/-- A message with its further arguments. -/
abbrev Msg := Nat
/-- A stash code; -1 is `DISCARD`, 0 is `PROCESS` (stashing_router.py:11-13). -/
abbrev Code := Int

structure Cfg where
  limit : Nat
  /-- the key function of a sorted stash (`set_sorted_stasher`, 108-109) -/
  key : Code → Option (Msg → Nat)
  /-- is there an `unstash_handler`, which puts messages into the replica's inbox
  (`plenum/server/replica.py:674, 758-759`)? -/
  viaInbox : Bool

/-- What is running. -/
inductive Frame
  /-- a handler has this message -/
  | handling (m : Msg)
  /-- `process_all_stashed`, with the messages still to be replayed -/
  | all (rest : List Msg)
  /-- `process_stashed_until_first_restash` -/
  | until (c : Code)
  deriving DecidableEq, Repr

structure State where
  queues : Dict Code (List Msg) := []
  stack : List Frame := []
  inbox : List Msg := []
  arrived : List Msg := []
  processed : List Msg := []
  discarded : List Msg := []
  /-- not stashed because the stash was full -/
  dropped : List Msg := []
  /-- given up because a handler raised an exception -/
  lost : List Msg := []
  pushes : List (Code × Msg) := []
  pops : List (Code × Msg) := []
  deriving DecidableEq

def State.queue (s : State) (c : Code) : List Msg := (s.queues.get? c).getD []

/-- `SortedListWithKey.add`: after the entries with a key not greater. -/
def insertByKey (key : Msg → Nat) (m : Msg) : List Msg → List Msg
  | [] => [m]
  | x :: q => if key x ≤ key m then x :: insertByKey key m q else m :: x :: q

/-- stashing_router.py:51-55 and 77-81, `push`: the new content, or `none` if full. -/
def push (cfg : Cfg) (c : Code) (q : List Msg) (m : Msg) : Option (List Msg) :=
  if q.length ≥ cfg.limit then none
  else match cfg.key c with
    | none => some (q ++ [m])
    | some key => some (insertByKey key m q)

/-- stashing_router.py:199-207, `_stash`. -/
def State.stash (cfg : Cfg) (s : State) (c : Code) (m : Msg) : State :=
  match push cfg c (s.queue c) m with
  | none => { s with dropped := s.dropped ++ [m] }
  | some q => { s with queues := s.queues.set c q, pushes := s.pushes ++ [(c, m)] }

/-- stashing_router.py:167-185, `_process`, what follows the return of the handler;
a loop of `process_stashed_until_first_restash` (156-160) ends when the message it
replayed was stashed. -/
def State.verdict (cfg : Cfg) (s : State) (r : Option Code) : State :=
  match s.stack with
  | .handling m :: st =>
    let s := { s with stack := st }
    match r with
    | none => { s with processed := s.processed ++ [m] }
    | some c =>
      if c = 0 then { s with processed := s.processed ++ [m] }
      else if c = -1 then { s with discarded := s.discarded ++ [m] }
      else
        let s := s.stash cfg c m
        match s.stack with
        | .until _ :: st => { s with stack := st }
        | _ => s
  | _ => s

/-- Can code other than the loops run now? -/
def State.free (s : State) : Bool :=
  match s.stack with
  | [] => true
  | .handling _ :: _ => true
  | _ => false

/-- stashing_router.py:122-140, `process_all_stashed` of one code: with no code it
is called for each code in turn. -/
def State.replayAll (s : State) (c : Code) : State :=
  if s.queue c = [] then s
  else { s with
    stack := .all (s.queue c) :: s.stack
    queues := s.queues.set c []
    pops := s.pops ++ (s.queue c).map (fun m => (c, m)) }

/-- One turn of the loop on top: stashing_router.py:137-140 and 155-160, with
187-197, `_resolve_and_process` and `_unstash`. A message given to the inbox makes
`_unstash` return `None`, which ends the second loop. -/
def State.advance (cfg : Cfg) (s : State) : State :=
  match s.stack with
  | .all [] :: st => { s with stack := st }
  | .all (m :: rest) :: st =>
    if cfg.viaInbox then { s with stack := .all rest :: st, inbox := s.inbox ++ [m] }
    else { s with stack := .handling m :: .all rest :: st }
  | .until c :: st =>
    match s.queue c with
    | [] => { s with stack := st }
    | m :: q =>
      let s := { s with queues := s.queues.set c q, pops := s.pops ++ [(c, m)] }
      if cfg.viaInbox then { s with stack := st, inbox := s.inbox ++ [m] }
      else { s with stack := .handling m :: .until c :: st }
  | _ => s

/-- The messages a frame holds. -/
def Frame.msgs : Frame → List Msg
  | .handling m => [m]
  | .all rest => rest
  | .until _ => []

inductive Event
  /-- a message comes from a bus -/
  | arrive (m : Msg)
  /-- the replica takes the next message of its inbox -/
  | takeInbox
  | replayAll (c : Code)
  | replayUntil (c : Code)
  /-- a loop goes on -/
  | advance
  /-- the handler running returns -/
  | verdict (r : Option Code)
  /-- the handler running raises an exception, which nobody catches -/
  | raise

def State.step (cfg : Cfg) (s : State) : Event → State
  | .arrive m =>
    if s.free then { s with arrived := s.arrived ++ [m], stack := .handling m :: s.stack } else s
  | .takeInbox =>
    if s.free then match s.inbox with
      | [] => s
      | m :: rest => { s with inbox := rest, stack := .handling m :: s.stack }
    else s
  | .replayAll c => if s.free then s.replayAll c else s
  | .replayUntil c => if s.free then { s with stack := .until c :: s.stack } else s
  | .advance => s.advance cfg
  | .verdict r => s.verdict cfg r
  | .raise => match s.stack with
    | .handling _ :: _ => { s with stack := [], lost := s.lost ++ s.stack.flatMap Frame.msgs }
    | _ => s

def run (cfg : Cfg) (evs : List Event) : State := evs.foldl (State.step cfg) {}

end Verif.Stashing
