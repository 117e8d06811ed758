import Verif.Spec.Merkle
import Verif.Model.Dict
/-!
# Batching of outgoing messages

plenum/common/prepare_batch.py and plenum/common/batched.py. A message is its
serialized bytes. `pack` is `sign_and_serialize(Batch(msgs, None))`, any function.
Transmission itself (ZMQ) is not modelled: what is handed to `transmit` is recorded.
-/
namespace Verif.Batched
open Verif

/-- stp_core/validators/message_length_validator.py:14-15, `is_len_less_than_limit`. -/
def isLenLessThanLimit (maxAllowed len : Nat) : Bool := len ≤ maxAllowed

/-- plenum/common/batched.py:150-156, `_make_batch`. `none`: `IndexError` on no message. -/
def makeBatch (pack : List Bytes → Bytes) : List Bytes → Option Bytes
  | [] => none
  | [m] => some m
  | msgs => some (pack msgs)

/-- What `split_messages_on_batches` does besides returning batches. -/
inductive Stop where
  /-- `return` without batches: a message is too long -/
  | tooLong
  /-- an exception -/
  | raised
  /-- no end in sight -/
  | diverged
deriving Repr, DecidableEq

/-- The inner loop, plenum/common/prepare_batch.py:14-22: messages left, messages of
this batch, batch. -/
def fill (make : List Bytes → Option Bytes) (under : Nat → Bool) :
    List Bytes → List Bytes → Bytes → Except Stop (List Bytes × List Bytes × Bytes)
  | [], forBatch, batch => .ok ([], forBatch, batch)
  | msg :: msgs, forBatch, batch =>
    if under batch.length then
      match make [msg] with
      | none => .error .raised
      | some serialized =>
        if ¬ under serialized.length then .error .tooLong
        else match make (forBatch ++ [msg]) with
          | none => .error .raised
          | some batch => fill make under msgs (forBatch ++ [msg]) batch
    else .ok (msg :: msgs, forBatch, batch)

/-- The step back, plenum/common/prepare_batch.py:24-27: messages left, messages of
this batch, batch. -/
def stepBack (make : List Bytes → Option Bytes) (under : Nat → Bool) (msgs forBatch : List Bytes) (batch : Bytes) :
    Except Stop (List Bytes × List Bytes × Bytes) :=
  if under batch.length then .ok (msgs, forBatch, batch)
  else match forBatch.getLast? with
    | none => .error .raised
    | some overload =>
      match make forBatch.dropLast with
      | none => .error .raised
      | some batch => .ok (overload :: msgs, forBatch.dropLast, batch)

/-- The outer loop, plenum/common/prepare_batch.py:11-28. `fuel` bounds the number of
rounds. -/
def splitLoop (make : List Bytes → Option Bytes) (under : Nat → Bool) :
    Nat → List Bytes → List (Bytes × Nat) → Except Stop (List (Bytes × Nat))
  | _, [], batches => .ok batches
  | 0, _ :: _, _ => .error .diverged
  | fuel + 1, msg :: msgs, batches =>
    match fill make under (msg :: msgs) [] [] with
    | .error e => .error e
    | .ok (left, forBatch, batch) =>
      match stepBack make under left forBatch batch with
      | .error e => .error e
      | .ok (left, forBatch, batch) => splitLoop make under fuel left (batches ++ [(batch, forBatch.length)])

/-- plenum/common/prepare_batch.py:8-31, `split_messages_on_batches`. -/
def splitMessagesOnBatches (msgs : List Bytes) (make : List Bytes → Option Bytes) (under : Nat → Bool) :
    Except Stop (List (Bytes × Nat)) :=
  match splitLoop make under msgs.length msgs [] with
  | .error e => .error e
  | .ok [] => match make [] with
    | none => .error .raised
    | some b => .ok [(b, 0)]
  | .ok batches => .ok batches

/-- A stack with `Batched` mixed in: plenum/common/batched.py:26-35, `__init__`.
`transmitted` records what was given to `transmit`, per remote, oldest first. -/
structure State where
  outBoxes : Dict Nat (List Bytes)
  remotes : List Nat
  transmitted : List (Nat × Bytes)
  enabled : Bool
  limit : Nat
deriving Repr

/-- plenum/common/batched.py:37-46, `_enqueue`. -/
def enqueue (s : State) (msg : Bytes) (rid : Nat) : State :=
  { s with outBoxes := s.outBoxes.set rid ((s.outBoxes.get? rid).getD [] ++ [msg]) }

/-- plenum/common/batched.py:48-55, `_enqueueIntoAllRemotes`. -/
def enqueueIntoAllRemotes (s : State) (msg : Bytes) : State :=
  s.remotes.foldl (fun s rid => enqueue s msg rid) s

/-- plenum/common/batched.py:176-198, `prepare_for_sending`. A part of a message is of
any type; `ser` signs and serializes it, `splitter` cuts it (`none`: cannot be cut).
The fuel bounds the number of cuts; `none` is the loop going on for ever. -/
def prepareLoop {M : Type} (ser : M → Bytes) (splitter : Option (M → Option (List M))) (limit : Nat) :
    Nat → List M → List Bytes → Option (Except Unit (List Bytes))
  | 0, _, _ => none
  | fuel + 1, large, fine =>
    match large.getLast? with
    | none => some (.ok fine)
    | some part =>
      if isLenLessThanLimit limit (ser part).length then
        prepareLoop ser splitter limit fuel large.dropLast (fine ++ [ser part])
      else match splitter.bind (fun f => f part) with
        | some smaller => prepareLoop ser splitter limit fuel (large.dropLast ++ smaller) fine
        | none => some (.error ())

/-- plenum/common/batched.py:57-89, `send`, after `prepare_for_sending`: `parts` is its
result, `none` the refusal of a message that is too large. No remote given means all
remotes. -/
def send (s : State) (parts : Option (List Bytes)) (rids : List Nat) : State :=
  match parts with
  | none => s
  | some parts =>
    match rids with
    | [] => parts.foldl enqueueIntoAllRemotes s
    | rids => rids.foldl (fun s r => parts.foldl (fun s p => enqueue s p r) s) s

/-- What is transmitted of one outbox, plenum/common/batched.py:102-136: `none` when an
exception is raised. -/
def flushBox (s : State) (pack : List Bytes → Bytes) (msgs : List Bytes) : Option (List Bytes) :=
  if s.enabled && decide (1 < msgs.length) then
    match splitMessagesOnBatches msgs (makeBatch pack) (isLenLessThanLimit s.limit) with
    | .ok batches => some (batches.map Prod.fst)
    | .error .tooLong => some []
    | .error _ => none
  else some msgs

/-- The loop over the outboxes, plenum/common/batched.py:96-136: what is transmitted. -/
def flushAll (s : State) (pack : List Bytes → Bytes) : Dict Nat (List Bytes) → Option (List (Nat × Bytes))
  | [] => some []
  | (rid, msgs) :: r =>
    match (if s.remotes.contains rid then flushBox s pack msgs else some []), flushAll s pack r with
    | some x, some y => some (x.map (fun b => (rid, b)) ++ y)
    | _, _ => none

/-- plenum/common/batched.py:91-148, `flushOutBoxes`: outboxes of remotes that are gone
are deleted. `none`: an exception. -/
def flushOutBoxes (s : State) (pack : List Bytes → Bytes) : Option State :=
  (flushAll s pack s.outBoxes).map (fun out =>
    { s with
      outBoxes := (s.outBoxes.filter (fun e => s.remotes.contains e.1)).map (fun e => (e.1, []))
      transmitted := s.transmitted ++ out })

end Verif.Batched
