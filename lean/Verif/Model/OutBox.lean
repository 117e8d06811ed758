import Verif.Model.Dict
/-!
# The messages of the instances on their way out

`Replicas.get_output`, `take_ordereds_out_of_turn`, and the out boxes of the instances. Left out: instances added and removed
(the boxes go with them), a backup's box being emptied for a catchup (`_catchup_clear_for_backup`), and messages which the
handling of a message puts into a box while the boxes are emptied. The quotient is a float in the code; here it is exact.
-/
namespace Verif.OutBox

abbrev Inst := Nat

/-- A message: a batch that was ordered, or another one. -/
inductive Msg where
  | ordered (k : Nat)
  | other (k : Nat)
deriving DecidableEq, Repr

/-- `isinstance(msg, Ordered)`. plenum/server/replica.py:606, `_remove_ordered_from_queue`. -/
def Msg.isOrdered : Msg → Bool
  | .ordered _ => true
  | .other _ => false

/-- The out boxes, and what was taken out so far, with its instance. plenum/server/replica.py:114, `__init__`. -/
structure State where
  boxes : List (Inst × List Msg)
  out : List (Inst × Msg) := []
deriving DecidableEq, Repr

def init (insts : List Inst) : State := { boxes := insts.map (fun i => (i, [])) }

/-- plenum/server/replica.py:557-573, `send`, without `to_nodes`. -/
def State.put (s : State) (i : Inst) (m : Msg) : State :=
  { s with boxes := s.boxes.map (fun p => if p.1 = i then (p.1, p.2 ++ [m]) else p) }

/-- Python's `round` of a quotient: to the nearest, and of two to the even one. -/
def roundDiv (a b : Nat) : Nat :=
  let q := a / b
  let r := a % b
  if 2 * r < b then q else if 2 * r > b then q + 1 else if q % 2 = 0 then q else q + 1

/-- plenum/server/replicas.py:115-124, of `get_output`. -/
def perReplica (limit : Option Nat) (num : Nat) : Option Nat :=
  match limit with
  | none => none
  | some l => some (if roundDiv l num = 0 then 1 else roundDiv l num)

/-- What is taken of a box, and what stays. plenum/server/replicas.py:126-131, of `get_output`; `num` messages were taken. -/
def drain (per : Option Nat) (num : Nat) : List Msg → List Msg × List Msg
  | [] => ([], [])
  | m :: r =>
    match per with
    | some p =>
      if p ≠ 0 ∧ num + 1 ≥ p then ([m], r)
      else (m :: (drain per (num + 1) r).1, (drain per (num + 1) r).2)
    | none => (m :: (drain per (num + 1) r).1, (drain per (num + 1) r).2)

/-- plenum/server/replicas.py:114-131, `get_output`. -/
def State.service (s : State) (limit : Option Nat) : State :=
  let per := perReplica limit s.boxes.length
  { boxes := s.boxes.map (fun p => (p.1, (drain per 0 p.2).2))
    out := s.out ++ s.boxes.flatMap (fun p => (drain per 0 p.2).1.map (fun m => (p.1, m))) }

/-- plenum/server/replicas.py:133-138, `take_ordereds_out_of_turn`, with plenum/server/replica.py:598-619,
`_remove_ordered_from_queue`: the indexes of all `Ordered` are collected, and deleted from the back. -/
def State.takeOrdered (s : State) : State :=
  { boxes := s.boxes.map (fun p => (p.1, p.2.filter (fun m => !m.isOrdered)))
    out := s.out ++ s.boxes.flatMap (fun p => (p.2.filter (fun m => m.isOrdered)).map (fun m => (p.1, m))) }

inductive Ev where
  | put (i : Inst) (m : Msg)
  | service (limit : Option Nat)
  | takeOrdered
deriving DecidableEq, Repr

def State.step (s : State) : Ev → State
  | .put i m => s.put i m
  | .service l => s.service l
  | .takeOrdered => s.takeOrdered

def run (insts : List Inst) (h : List Ev) : State := h.foldl State.step (init insts)

end Verif.OutBox
