import Verif.Model.Audit
/-!
# Model of `plenum/server/catchup/node_leecher_service.py`

How one catchup goes through the ledgers of a node: the pool ledger before anything else when
the node was just started, the audit ledger, then pool, config and the others up to what the
last audit transaction says. Included are the guard in `Node.start_catchup`
(plenum/server/node.py:2600-2618) and the end of a catchup
(plenum/server/node.py:1790-1828, `allLedgersCaughtUp`).

All channels between these services are direct: `put_nowait` calls the handler at once. Every
such call is the last action of its caller, so a finished ledger is kept in `pending` and
handled by the next event, `settle`; nothing else happens while something is pending.

Simplified: the `ConsProofService` and the `CatchupRepService` of a ledger are seen by what
they put out. A ledger is its size and root, but for the audit ledger, whose transactions are
needed. Ledgers change only through the catchup while one is in progress.
-/
namespace Verif.Leecher

open Verif.Audit (Own Till Txn)

abbrev Name := String

/-- plenum/common/constants.py:263-266, the ids of the four ledgers of every node. -/
def POOL : Nat := 0
def DOMAIN : Nat := 1
def CONFIG : Nat := 2
def AUDIT : Nat := 3

/-- plenum/server/catchup/node_leecher_service.py:21-27, `State`. -/
inductive Phase where
  | idle
  | prePool
  | audit
  | pool
  | config
  | others
deriving DecidableEq, Repr

/-- What the `LedgerLeecherService` of a ledger waits for. -/
inductive Job where
  /-- nothing -/
  | none
  /-- the `ConsProofService` gathers statuses and proofs -/
  | deciding
  /-- the `CatchupRepService` gathers transactions up to this size -/
  | fetching (final : Nat)
deriving DecidableEq, Repr

/-- What can be seen of a catchup from outside. -/
inductive Out where
  | started (initial : Bool)
  /-- a ledger is asked for, with the target it is given -/
  | begun (lid : Nat) (till : Option Till)
  /-- `LedgerCatchupComplete` -/
  | finished (lid : Nat)
  /-- `NodeCatchupComplete` -/
  | complete
deriving DecidableEq, Repr

/-- plenum/server/catchup/node_leecher_service.py:37-64, the fields, with the parts of the
node they depend on. -/
structure St where
  /-- the keys of `_leechers`, in the order of registration -/
  ids : List Nat
  /-- the frozen ledgers, by the committed config state -/
  frozen : List Nat
  /-- the audit ledger -/
  audit : List Txn
  /-- the other ledgers -/
  own : Nat → Option Own
  /-- plenum/server/node.py:807-809, `is_synced` -/
  synced : Bool := false
  phase : Phase := .idle
  current : Option Nat := none
  till : Dict Nat Till := []
  sizes : Dict Nat (Dict Name Nat) := []
  job : Nat → Job := fun _ => .none
  caught : Dict Nat Nat := []
  pending : Option Nat := none
  /-- an exception left the service -/
  raised : Bool := false
  log : List Out := []

/-- The size of a ledger. -/
def St.size (s : St) (lid : Nat) : Nat :=
  if lid = AUDIT then s.audit.length else ((s.own lid).map (·.size)).getD 0

def St.setJob (s : St) (lid : Nat) (j : Job) : St := { s with job := fun k => if k = lid then j else s.job k }

/-- plenum/server/catchup/catchup_rep_service.py:110-124, `_finish`, with
plenum/server/catchup/ledger_leecher_service.py:102-106, `_on_catchup_complete`. -/
def St.finish (s : St) (lid n : Nat) : St :=
  { s.setJob lid .none with caught := s.caught.set lid n, pending := some lid, log := s.log ++ [.finished lid] }

/-- plenum/server/catchup/ledger_leecher_service.py:108-110, `_start_catchup`, with
plenum/server/catchup/node_leecher_service.py:94-95, `_on_ledger_catchup_start`, and
plenum/server/catchup/catchup_rep_service.py:53-78, `start`. Which nodes are asked is
modelled in `CatchupReqs`. -/
def St.begin (s : St) (lid : Nat) (till : Option Till) (sizes : Dict Name Nat) : St :=
  let s := { s with sizes := s.sizes.set lid sizes, log := s.log ++ [Out.begun lid till] }
  match till with
  | none => s.finish lid 0
  | some t =>
    if t.final ≤ s.size lid then s.finish lid (t.final - t.start)
    else s.setJob lid (.fetching t.final)

/-- plenum/server/catchup/node_leecher_service.py:234-257, `_calc_nodes_ledger_sizes`; `none`
when there are no sizes for the audit ledger, or `getBySeqNo` finds no transaction. -/
def St.calcSizes (s : St) (lid : Nat) : Option (Dict Name Nat) :=
  match s.sizes.get? lid with
  | some z => some z
  | none =>
    match s.sizes.get? AUDIT with
    | none => none
    | some z => z.mapM (fun e =>
        if min e.2 s.audit.length = 0 then none
        else (s.audit[min e.2 s.audit.length - 1]?).map (fun t => (e.1, (t.sizes.get? lid).getD 0)))

/-- plenum/server/catchup/node_leecher_service.py:177-184, `_catchup_ledger`, with
plenum/server/catchup/ledger_leecher_service.py:72-90, `start`. -/
def St.leech (s : St) (lid : Nat) : St :=
  match s.till.get? lid with
  | none => { s.setJob lid .deciding with caught := s.caught.set lid 0 }
  | some t =>
    match s.calcSizes lid with
    | none => { s with raised := true }
    | some z => s.begin lid (if t.start = t.final then none else some t) z

/-- plenum/server/catchup/node_leecher_service.py:139-146, in `_get_next_ledger`: the ledgers
but for audit, pool, config and the frozen ones; `none` when one of the three is not
registered. -/
def St.rest (s : St) : Option (List Nat) :=
  if AUDIT ∈ s.ids ∧ POOL ∈ s.ids ∧ CONFIG ∈ s.ids then
    some (s.frozen.foldl (fun l k => l.erase k) (((s.ids.erase AUDIT).erase POOL).erase CONFIG))
  else none

/-- plenum/server/catchup/node_leecher_service.py:148-158, the end of `_get_next_ledger`; the
outer `none` is a `ValueError` of `index`. -/
def nextIn (l : List Nat) (cur : Option Nat) : Option (Option Nat) :=
  if l.length = 0 then some none
  else match cur with
    | none => some (l[0]?)
    | some c => if c ∈ l then some (l[l.idxOf c + 1]?) else none

/-- The states other than `SyncingOthers` and `Idle`:
plenum/server/catchup/node_leecher_service.py:160-175, `_enter_state`. `PreSyncingPool` starts
the leecher of the pool ledger without a target, which is what `_catchup_ledger` does after a
start. -/
def St.enter (s : St) (p : Phase) (lid : Nat) : St := { s with phase := p }.leech lid

/-- plenum/server/catchup/node_leecher_service.py:78-89, `start`, with the mode set by
plenum/server/node.py:2600-2608, `_do_start_catchup`. `_current_ledger` is not reset. -/
def St.doStart (s : St) (initial : Bool) : St :=
  let s := { s with synced := false, till := [], sizes := [], caught := [], log := s.log ++ [Out.started initial] }
  if initial then s.enter .prePool POOL else s.enter .audit AUDIT

/-- plenum/server/node.py:2610-2618, `start_catchup`. -/
def St.start (s : St) (initial : Bool) : St :=
  if ¬ s.synced ∧ ¬ initial then s else s.doStart initial

/-- plenum/server/node.py:1886-1892, `is_catchup_needed`. -/
def St.again (s : St) : Bool := decide (s.audit.length = 0) && decide (0 < (s.caught.map Prod.snd).sum)

/-- plenum/server/node.py:1790-1828, `allLedgersCaughtUp`: the mode, and whether another
catchup follows at once. -/
def St.allCaughtUp (s : St) : St :=
  let s := { s with synced := true, log := s.log ++ [Out.complete] }
  if s.again then s.start false else s

/-- plenum/server/catchup/node_leecher_service.py:131-137, `_sync_next_ledger`. -/
def St.syncNext (s : St) : St :=
  match s.rest with
  | none => { s with raised := true }
  | some l =>
    match nextIn l s.current with
    | none => { s with raised := true }
    | some none => { s with current := none, phase := .idle }.allCaughtUp
    | some (some n) => { s with current := some n }.leech n

/-- plenum/server/catchup/node_leecher_service.py:117-129, `_validate_catchup_complete`: the
ledger whose completion is expected. -/
def St.expected (s : St) : Option Nat :=
  match s.phase with
  | .idle => none
  | .prePool => some POOL
  | .audit => some AUDIT
  | .pool => some POOL
  | .config => some CONFIG
  | .others => s.current

/-- plenum/server/catchup/node_leecher_service.py:97-115, `_on_ledger_catchup_complete`. -/
def St.onComplete (s : St) (lid : Nat) : St :=
  if s.expected ≠ some lid then s
  else match s.phase with
    | .idle => s
    | .prePool => s.enter .audit AUDIT
    | .audit => { s with till := Audit.calcCatchupTill s.audit s.own }.enter .pool POOL
    | .pool => s.enter .config CONFIG
    | .config => { s with phase := .others }.syncNext
    | .others => s.syncNext

/-- What happens to the service. -/
inductive Ev where
  /-- plenum/server/node.py:2610, `start_catchup`; with `true` by plenum/server/node.py:950,
  `start` -/
  | start (initial : Bool)
  /-- the nested call that handles a finished ledger -/
  | settle
  /-- the `ConsProofService` of a ledger has decided:
  plenum/server/catchup/ledger_leecher_service.py:97-100, `_on_catchup_start` -/
  | decided (lid : Nat) (till : Option Till) (sizes : Dict Name Nat)
  /-- a CATCHUP_REP has brought in transactions of a ledger, after which it is like this -/
  | reply (lid : Nat) (o : Own) (frozen : List Nat)
  /-- a CATCHUP_REP has brought in audit transactions -/
  | replyAudit (txns : List Txn)
  /-- batches have been ordered -/
  | ordered (txns : List Txn) (own : Nat → Option Own) (frozen : List Nat)

/-- plenum/server/catchup/catchup_rep_service.py:80-103, `process_catchup_rep`, its end: the
ledger is finished when it has reached its target. -/
def St.replied (s : St) (lid : Nat) : St :=
  match s.job lid with
  | .fetching n => if n ≤ s.size lid then s.finish lid n else s
  | _ => s

/-- One event with no finished ledger pending. The number of transactions of a reply that is
finished is counted from the size at its start in the code and taken as the target here:
`is_catchup_needed` only asks whether it is positive. -/
def St.act (s : St) (e : Ev) : St :=
  match e with
  | .start i => s.start i
  | .settle => s
  | .decided lid till z => if s.job lid = .deciding then s.begin lid till z else s
  | .reply lid o fz =>
    match s.job lid with
    | .fetching _ =>
      if lid = AUDIT then s
      else { s with own := fun k => if k = lid then some o else s.own k
                    frozen := if lid = CONFIG then fz else s.frozen }.replied lid
    | _ => s
  | .replyAudit txns =>
    match s.job AUDIT with
    | .fetching _ => { s with audit := s.audit ++ txns }.replied AUDIT
    | _ => s
  | .ordered txns own fz =>
    if s.phase = .idle then { s with audit := txns, own := own, frozen := fz } else s

/-- One event. -/
def St.step (s : St) (e : Ev) : St :=
  if s.raised then s
  else match s.pending with
    | some lid =>
      match e with
      | .settle => { s with pending := none }.onComplete lid
      | _ => s
    | none => s.act e

def St.run (s : St) (l : List Ev) : St := l.foldl St.step s

end Verif.Leecher
