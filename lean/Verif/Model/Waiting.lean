import Verif.Model.Dict
/-!
# PRE-PREPAREs that wait

A PRE-PREPARE can come before the requests it names, or before the PRE-PREPAREs that precede it. It
is put in one of two queues, `prePreparesPendingFinReqs` and `prePreparesPendingPrevPP`, and given to
the replica again later. This models the two queues of a replica that is not primary.

Not modelled: the requests for missing PROPAGATEs and PRE-PREPAREs, what backups do to the last
ordered key (`l_setup_last_ordered_for_non_master`), PRE-PREPAREs kept for a wrong time, and those
kept by the stashing router, which are received again later.
-/
namespace Verif.Waiting

/-- (viewNo, ppSeqNo) -/
abbrev Key := Nat × Nat

/-- What is needed of a PRE-PREPARE; `digest` tells those with the same key apart. -/
structure PP where
  view : Nat
  seq : Nat
  digest : Nat
  reqs : List Nat
deriving Repr, DecidableEq

/-- The key of a PRE-PREPARE. -/
def PP.key (p : PP) : Key := (p.view, p.seq)

/-- A PRE-PREPARE, its sender and the requests it waits for: an item of `prePreparesPendingFinReqs`. -/
structure Item where
  pp : PP
  frm : Nat
  missing : List Nat
deriving Repr, DecidableEq

/-- A PRE-PREPARE that was accepted, and the last PRE-PREPARE and last ordered key before. Kept to
state properties. -/
structure Took where
  pp : PP
  last : Key
  ordered : Key
deriving Repr, DecidableEq

/-- A replica. `reqs`: the requests it knows, and whether they are finalised (`Requests`).
`prevCert`: `prev_view_prepare_cert`. `lastPrepared`: `legacy_last_prepared_before_view_change`.
`given`: the PRE-PREPAREs given again, and `took`: those accepted, kept to state properties. `failed`: an exception was raised. -/
structure State where
  viewNo : Nat := 0
  lastOrdered : Key := (0, 0)
  prevCert : Nat := 0
  lastPrepared : Option Key := none
  reqs : Dict Nat Bool := []
  prePrepares : Dict Key PP := []
  pendFin : List Item := []
  pendPrev : Dict Key (PP × Nat) := []
  given : List (PP × Nat) := []
  took : List Took := []
  failed : Bool := false
deriving Repr, DecidableEq

/-- The checks that do not look at the queues, for a PRE-PREPARE and its sender. `valid`: the rest of the
`OrderingServiceMsgValidator` (instance, watermarks, catchup, view change). `genuine`: the digest, and whether the sender is
the primary. `timely`: the time. `recorded`: a request that is not finalised is in the database of ordered ones.
`applies`: the state root, the BLS signature, and whether it can be applied. -/
structure Env where
  valid : PP → Nat → Bool
  genuine : PP → Nat → Bool
  timely : PP → Nat → Bool
  recorded : PP → Nat → Bool
  applies : PP → Nat → Bool

/-- plenum/common/util.py:618-622, `compare_3PC_keys`: the order of keys looks at sequence numbers
only; this is `compare_3PC_keys(a, b) >= 0`. -/
def notAfter (a b : Key) : Bool := decide (a.2 ≤ b.2)

/-- The order of the keys of a `SortedDict`. -/
def keyLt (a b : Key) : Bool := decide (a.1 < b.1) || (decide (a.1 = b.1) && decide (a.2 < b.2))

/-- The first item of a `SortedDict`, `iloc[0]`: the one with the lowest key. -/
def lowest {α : Type} : Dict Key α → Option (Key × α)
  | [] => none
  | e :: d => match lowest d with
    | none => some e
    | some e' => if keyLt e'.1 e.1 then some e' else some e

/-- The last key of a `SortedDict`, `peekitem(-1)`. -/
def highest {α : Type} : Dict Key α → Option Key
  | [] => none
  | e :: d => match highest d with
    | none => some e.1
    | some k => if keyLt e.1 k then some k else some e.1

/-- plenum/server/consensus/ordering_service.py:678-690, `last_preprepare`, of a replica that sends none, and
plenum/server/consensus/ordering_service.py:692-702, `__last_pp_3pc`. -/
def lastPp (s : State) : Key :=
  match highest s.prePrepares with
  | none => s.lastOrdered
  | some k => if s.lastOrdered.2 < k.2 then k else s.lastOrdered

/-- plenum/server/propagator.py:187-188, `is_finalised`. -/
def isFinalised (s : State) (r : Nat) : Bool := s.reqs.get? r == some true

/-- plenum/server/consensus/ordering_service.py:1120-1127, `_non_finalised_reqs`: it looks only if there is a record. -/
def someUnknown (s : State) (p : PP) : Bool := p.reqs.any (fun r => ! s.reqs.has r)

/-- The requests of `bad_reqs`, plenum/server/consensus/ordering_service.py:571-581, 610, in `process_preprepare`. -/
def notFinalised (s : State) (p : PP) : List Nat := p.reqs.filter (fun r => ! isFinalised s r)

/-- plenum/server/consensus/ordering_service.py:1130-1136, `_is_next_pre_prepare`. -/
def isNext (s : State) (k : Key) : Bool := decide (k.2 = 1) || decide (k.2 = (lastPp s).2 + 1)

/-- What the validator says about the view and the order of a PRE-PREPARE: plenum/server/consensus/ordering_service_msg_validator.py:104-150,
`_validate_3pc`, and 152-170, `_validate_base`. -/
def inPlace (s : State) (p : PP) : Bool :=
  decide (p.seq ≠ 0) && decide (p.view = s.viewNo) &&
    ! (notAfter p.key s.lastOrdered && decide (s.prevCert < p.seq)) &&
    ! (decide (0 < p.view) && decide (s.prevCert + 1 < p.seq) && decide (s.lastOrdered.2 < s.prevCert + 1))

/-- plenum/server/consensus/ordering_service.py:1273-1287, `_add_to_pre_prepares`. -/
def accept (s : State) (p : PP) : State :=
  { s with prePrepares := s.prePrepares.set p.key p
           took := s.took ++ [{ pp := p, last := lastPp s, ordered := s.lastOrdered }] }

/-- plenum/server/consensus/ordering_service.py:948-959, `_enqueue_pre_prepare`. -/
def enqueue (s : State) (p : PP) (frm : Nat) (missing : List Nat) : State :=
  if missing ≠ [] then { s with pendFin := s.pendFin ++ [{ pp := p, frm := frm, missing := missing }] }
  else { s with pendPrev := s.pendPrev.set p.key (p, frm) }

/-- plenum/server/consensus/ordering_service.py:508-644, `process_preprepare`, with
818-866, `_can_process_pre_prepare`, and 871-890, `_process_valid_preprepare`. -/
def receive (s : State) (env : Env) (p : PP) (frm : Nat) : State :=
  if ! (env.valid p frm && inPlace s p) then s
  else if notAfter p.key s.lastOrdered then accept s p
  else if ! env.genuine p frm then s
  else if s.prePrepares.has p.key then s
  else if ! env.timely p frm then s
  else if p.seq < (lastPp s).2 then s
  else if someUnknown s p then
    if env.recorded p frm then s else enqueue s p frm (notFinalised s p)
  else if ! isNext s p.key then enqueue s p frm []
  else if env.applies p frm then accept s p
  else s

/-- plenum/server/consensus/ordering_service.py:1894-1908, the first part of `dequeue_pre_prepares`: requests that are finalised
are taken off, and those that miss none go to the other queue, the last first. -/
def ready (s : State) : State :=
  let l := s.pendFin.map (fun e => { e with missing := e.missing.filter (fun r => ! isFinalised s r) })
  { s with pendFin := l.filter (fun e => decide (e.missing ≠ []))
           pendPrev := (l.filter (fun e => decide (e.missing = []))).reverse.foldl
             (fun d e => d.set e.pp.key (e.pp, e.frm)) s.pendPrev }

/-- plenum/server/consensus/ordering_service.py:1924-1926, `_can_dequeue_pre_prepare`. -/
def canDequeue (s : State) (k : Key) : Bool := isNext s k || notAfter k s.lastOrdered

/-- plenum/server/consensus/ordering_service.py:1943-1959, `_can_pp_seq_no_be_in_view`, when it does not raise. -/
def canBeInView (s : State) (k : Key) : Bool :=
  decide (k.1 = s.viewNo) || (match s.lastPrepared with
    | none => false
    | some lp => decide (k.1 < s.viewNo) && notAfter k lp)

/-- plenum/server/consensus/ordering_service.py:1910-1921, the loop of `dequeue_pre_prepares`, for at most as many
rounds as given. -/
def loop (env : Env) : Nat → State → State
  | 0, s => s
  | n + 1, s => match lowest s.pendPrev with
    | none => s
    | some (k, p, frm) =>
      if ! canDequeue s k then s
      else
        let s := { s with pendPrev := s.pendPrev.erase k }
        if s.viewNo < p.view then { s with failed := true }
        else if ! canBeInView s p.key then loop env n s
        else loop env n (receive { s with given := s.given ++ [(p, frm)] } env p frm)

/-- plenum/server/consensus/ordering_service.py:1885-1922, `dequeue_pre_prepares`. -/
def dequeue (s : State) (env : Env) : State := loop env (ready s).pendPrev.length (ready s)

/-- plenum/server/consensus/ordering_service.py:797-807, `_clear_prev_view_pre_prepares`. -/
def clearPrevView (s : State) : State :=
  { s with pendFin := s.pendFin.filter (fun e => ! decide (e.pp.view < s.viewNo))
           pendPrev := s.pendPrev.filter (fun e => ! decide (e.1.1 < s.viewNo)) }

/-- plenum/server/consensus/ordering_service.py:2320-2330, `_clear_all_3pc_msgs`. -/
def clearAll (s : State) : State := { s with prePrepares := [], pendFin := [], pendPrev := [] }

/-- What happens to the replica. -/
inductive Ev where
  /-- a PRE-PREPARE comes from the network -/
  | recv (p : PP) (frm : Nat) (env : Env)
  /-- `serviceQueues`, plenum/server/replica.py:517-530 -/
  | service (env : Env)
  /-- a request becomes known, finalised, or is forgotten -/
  | learn (r : Nat)
  | finalise (r : Nat)
  | free (r : Nat)
  /-- a batch is ordered -/
  | ordered (k : Key)
  /-- a checkpoint is stable: PRE-PREPAREs up to a sequence number are removed -/
  | gc (seq : Nat)
  /-- a view change starts, `process_view_change_started` -/
  | viewChange (v : Nat)
  /-- the NewView is accepted; the last batch it keeps -/
  | newView (cert : Nat)
  /-- a catchup up to a key has finished, in a view: `process_catchup_checkpoints_applied` -/
  | caughtUp (v : Nat) (k : Key)

/-- One event. `viewChange`: plenum/server/consensus/ordering_service.py:2332-2350, `process_view_change_started`; the view number
has been raised before (plenum/server/consensus/view_change_service.py:113-121, `process_need_view_change`), and never gets lower. `caughtUp`: plenum/server/consensus/ordering_service.py:2361-2374,
`process_catchup_checkpoints_applied`, and 2269-2294, `_remove_till_caught_up_3pc`, of a master. -/
def step (s : State) : Ev → State
  | .recv p frm env => if s.failed then s else receive s env p frm
  | .service env => if s.failed then s else dequeue s env
  | .learn r => if s.reqs.has r then s else { s with reqs := s.reqs.set r false }
  | .finalise r => if s.reqs.has r then { s with reqs := s.reqs.set r true } else s
  | .free r => { s with reqs := s.reqs.erase r }
  | .ordered k => { s with lastOrdered := k }
  | .gc n => { s with prePrepares := s.prePrepares.filter (fun e => ! decide (e.1.2 ≤ n)) }
  | .viewChange v => clearAll { s with viewNo := max s.viewNo v }
  | .newView c => { s with prevCert := c }
  | .caughtUp v k =>
    clearPrevView (if s.lastOrdered.2 < k.2 then
      { s with viewNo := max s.viewNo v, lastOrdered := k
               prePrepares := s.prePrepares.filter (fun e => ! notAfter e.1 k) }
      else { s with viewNo := max s.viewNo v })

/-- A replica that has just been started. -/
def init : State := {}

/-- Several events. -/
def run (s : State) (es : List Ev) : State := es.foldl step s

end Verif.Waiting
