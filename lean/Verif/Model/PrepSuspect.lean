/-!
# Who is reported for a PREPARE

`_validate_prepare` with its reports, for the PREPAREs of one batch (view and number) at one replica which knows the primary of
that view: those that come before the PRE-PREPARE and wait, those that are counted and those whose sender is reported. Messages
which `_validate` stashes or discards, and what waiting PREPAREs make the replica ask for, are left out.
-/
namespace Verif.PrepSuspect

abbrev Node := Nat

/-- What a PREPARE repeats of the PRE-PREPARE. plenum/server/consensus/ordering_service.py:309-323, of `_validate_prepare`. -/
structure Content where
  digest : Nat
  stateRoot : Nat
  txnRoot : Nat
  auditRoot : Nat
deriving DecidableEq, Repr

/-- plenum/server/suspicion_codes.py:14-19, `Suspicions`; 28-29; 54-57; 87-88. -/
inductive Susp where
  | duplicate | unknown | digestWrong | frmPrimary | stateWrong | txnWrong | auditWrong
deriving DecidableEq, Repr

/-- This replica, the primary of the view, and whether the number is within the certificate of the view before
(`ppSeqNo <= prev_view_prepare_cert`). -/
structure Cfg where
  me : Node
  primary : Node
  certified : Bool
deriving DecidableEq, Repr

/-- plenum/server/consensus/ordering_service.py:140-150, `__init__`: the PRE-PREPARE, the senders counted
(plenum/server/models.py:21-25, `_add_msg`), the PREPAREs that wait, and the reports. -/
structure State where
  pp : Option Content := none
  votes : List Node := []
  waiting : List (Content × Node) := []
  reports : List (Node × Susp) := []
deriving DecidableEq, Repr

/-- plenum/server/consensus/ordering_service.py:809-813, `report_suspicious_node`. -/
def State.report (s : State) (x : Node) (r : Susp) : State := { s with reports := s.reports ++ [(x, r)] }

/-- plenum/server/consensus/ordering_service.py:329-336, of `_enqueue_prepare`. -/
def State.enqueue (s : State) (c : Content) (x : Node) : State := { s with waiting := s.waiting ++ [(c, x)] }

/-- plenum/server/consensus/ordering_service.py:309-323, of `_validate_prepare`. -/
def wrong (c p : Content) : Option Susp :=
  if c.digest ≠ p.digest then some .digestWrong
  else if c.stateRoot ≠ p.stateRoot then some .stateWrong
  else if c.txnRoot ≠ p.txnRoot then some .txnWrong
  else if c.auditRoot ≠ p.auditRoot then some .auditWrong
  else none

/-- plenum/server/consensus/ordering_service.py:253-328, `_validate_prepare`, and 238-241, of `process_prepare`. -/
def State.recv (cfg : Cfg) (s : State) (c : Content) (x : Node) : State :=
  if x = cfg.primary then s.report x .frmPrimary
  else if x ∈ s.votes then s.report x .duplicate
  else
    match s.pp with
    | none =>
      if cfg.me = cfg.primary then
        if cfg.certified then s.enqueue c x else s.report x .unknown
      else s.enqueue c x
    | some p =>
      match wrong c p with
      | some r => s.report x r
      | none => { s with votes := s.votes ++ [x] }

/-- The waiting PREPAREs are taken in. plenum/server/consensus/ordering_service.py:1294-1307, `_dequeue_prepares`. -/
def State.dequeue (cfg : Cfg) (s : State) : State :=
  s.waiting.foldl (fun s e => s.recv cfg e.1 e.2) { s with waiting := [] }

/-- The PRE-PREPARE is accepted; an own PREPARE is counted unless this is the primary. Another one for the same batch is not
accepted. plenum/server/consensus/ordering_service.py:879-888, of `_process_valid_preprepare`; 1273-1287, `_add_to_pre_prepares`; 1329-1370, `try_prepare` with `_do_prepare`. -/
def State.accept (cfg : Cfg) (s : State) (p : Content) : State :=
  match s.pp with
  | some _ => s
  | none =>
    let s := { s with pp := some p, votes := if cfg.me = cfg.primary then s.votes else s.votes ++ [cfg.me] }
    s.dequeue cfg

/-- What reaches the replica. -/
inductive Ev where
  | prepare (c : Content) (sender : Node)
  | preprepare (p : Content)
deriving DecidableEq, Repr

def State.step (cfg : Cfg) (s : State) : Ev → State
  | .prepare c x => s.recv cfg c x
  | .preprepare p => s.accept cfg p

def run (cfg : Cfg) (h : List Ev) : State := h.foldl (State.step cfg) {}

end Verif.PrepSuspect
