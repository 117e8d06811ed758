import Verif.Model.ConsProof
/-!
# Model of the questions of `plenum/server/catchup/cons_proof_service.py`

Adds to `Model/ConsProof.lean` what the service sends to other nodes and the timers
that repeat the questions. A timer is modelled by whether it is set; that it fires is an
event that can come at any time while it is set, so the intervals are left out. Which
nodes are eligible for a request for consistency proofs is left out.
-/
namespace Verif.ConsAsk
open Verif.Catchup (Name)
open Verif.ConsProof (Proof Status Msg Key)

/-- What the service sends. -/
inductive Req
  /-- cons_proof_service.py:168-175, `_request_ledger_status_from_nodes`: to all or to the nodes given. -/
  | askStatus (to : Option (List Name))
  /-- cons_proof_service.py:215-221, `_process_newer_ledger_status`, and
  cons_proof_service.py:378-383, `_reask_for_last_consistency_proof`: its own ledger status. -/
  | ownStatus (to : List Name)
  /-- cons_proof_service.py:290-297, `_try_asking_for_cons_proofs_without_timeout`, and
  cons_proof_service.py:410-416, `_request_CPs_if_needed`: the request for consistency proofs. -/
  | askProof (start final : Nat)
  deriving DecidableEq, Repr

/-- cons_proof_service.py:24-60, the fields, with the timers and what was sent. `others`
are the names of the other nodes. -/
structure Ask where
  cp : ConsProof.State := {}
  others : List Name := []
  asked : Bool := false
  statusTimer : Bool := false
  proofTimer : Bool := false
  cpTimer : Bool := false
  sent : List Req := []
  deriving Repr

/-- cons_proof_service.py:452-457, `_cancel_reask`. -/
def Ask.cancel (a : Ask) : Ask := { a with statusTimer := false, proofTimer := false, cpTimer := false }

/-- cons_proof_service.py:65-77, `start`, with `_schedule_reask_ledger_status`
(cons_proof_service.py:442-445). -/
def Ask.start (a : Ask) (request : Bool) (n size root : Nat) : Ask :=
  { a with cp := a.cp.start n size root, asked := false, statusTimer := true
           sent := if request then a.sent ++ [.askStatus none] else a.sent }

def insertDesc (x : Nat) : List Nat → List Nat
  | [] => [x]
  | y :: l => if x ≥ y then x :: y :: l else y :: insertDesc x l

/-- `sort(reverse=True)`. -/
def sortDesc : List Nat → List Nat
  | [] => []
  | x :: l => insertDesc x (sortDesc l)

/-- The sizes in `_try_asking_for_cons_proofs_without_timeout` (cons_proof_service.py:280-281). -/
def sizes (own : Nat) (proofs : Dict Name (Option Proof)) : List Nat :=
  proofs.map (fun e => match e.2 with | some p => p.seqEnd | none => own)

/-- cons_proof_service.py:273-298, `_try_asking_for_cons_proofs_without_timeout`. If there
are not enough sizes the Python would raise; `tryAsk_in_range` shows that this does not happen. -/
def Ask.tryAsk (a : Ask) : Ask :=
  if a.asked then a
  else if a.cp.proofs.length < a.cp.q.n - a.cp.q.f - 1 then a
  else match (sortDesc (sizes a.cp.size a.cp.proofs))[a.cp.q.f]? with
    | none => a
    | some final =>
      if a.cp.size ≥ final then a
      else { a with sent := a.sent ++ [.askProof a.cp.size final], asked := true }

/-- cons_proof_service.py:300-301, `_should_schedule_reask_cons_proofs`. -/
def Ask.shouldSchedule (a : Ask) : Bool :=
  (a.cp.proofs.filter (fun e => e.2.isSome)).length = a.cp.q.f + 1

/-- cons_proof_service.py:428-440, `_schedule_reask_cons_proof`. -/
def Ask.schedule (a : Ask) : Ask := { a.cancel with cpTimer := true }

/-- cons_proof_service.py:88-109, `process_consistency_proof`. -/
def Ask.processProof (a : Ask) (p : Proof) (frm : Name) : Ask :=
  if ¬ a.cp.working then a
  else if p.seqStart > a.cp.size then a
  else if p.seqEnd ≤ p.seqStart then a
  else
    let a := { a with cp := { a.cp with proofs := a.cp.proofs.set frm (some p) } }
    if ¬ a.cp.catchupNeeded then { a.cancel with cp := a.cp.finishNoCatchup }
    else
      let a := a.tryAsk
      let a := if a.shouldSchedule then a.schedule else a
      match a.cp.proofForCatchup with
      | none => a
      | some till => { a.cancel with cp := a.cp.finish (some till) }

/-- cons_proof_service.py:79-86, `process_ledger_status`: what is sent and what becomes of
the timers; what becomes of the rest is in `Model/ConsProof.lean`. `_finish` stops the timers. -/
def Ask.processStatus (a : Ask) (st : Status) (frm : Name) : Ask :=
  if ¬ a.cp.working then a
  else if a.cp.size < st.size then { a with sent := a.sent ++ [.ownStatus [frm]], proofTimer := true }
  else
    let cp := a.cp.processStatus st frm
    if cp.working then { a with cp := cp } else { a.cancel with cp := cp }

/-- cons_proof_service.py:372-376, `_reask_for_ledger_status`, when its timer fires. -/
def Ask.tickStatus (a : Ask) : Ask :=
  if ¬ a.statusTimer then a
  else { a with sent := a.sent ++ [.askStatus (some (a.others.filter (· ∉ a.cp.same)))] }

/-- cons_proof_service.py:378-383, `_reask_for_last_consistency_proof`, when its timer fires. -/
def Ask.tickProof (a : Ask) : Ask :=
  if ¬ a.proofTimer then a
  else { a with sent := a.sent ++ [.ownStatus (a.others.filter (fun x => ¬ a.cp.proofs.has x))] }

/-- The key of the sort in `_get_consistency_proof_request_params`. -/
def most (g : Dict Key Nat) : Nat := (g.map Prod.snd).foldl max 0

def insertBy (e : (Nat × Nat) × Dict Key Nat) :
    List ((Nat × Nat) × Dict Key Nat) → List ((Nat × Nat) × Dict Key Nat)
  | [] => [e]
  | y :: l => if most e.2 ≤ most y.2 then e :: y :: l else y :: insertBy e l

/-- `sorted` with that key; equal ones keep their order. -/
def sortBy : List ((Nat × Nat) × Dict Key Nat) → List ((Nat × Nat) × Dict Key Nat)
  | [] => []
  | e :: l => insertBy e (sortBy l)

/-- cons_proof_service.py:418-426, `_get_consistency_proof_request_params`: the end asked for. -/
def requestEnd (g : Dict (Nat × Nat) (Dict Key Nat)) : Option Nat :=
  ((sortBy g)[(sortBy g).length / 2]?).map (fun e => e.1.2)

/-- cons_proof_service.py:385-416, `_request_CPs_if_needed`, when its timer fires. This timer
is not repeated. -/
def Ask.tickCp (a : Ask) : Ask :=
  if ¬ a.cpTimer then a
  else
    let a := { a with cpTimer := false }
    if ¬ a.cp.working then a
    else if a.cp.proofs = [] then a
    else if ¬ a.cp.catchupNeeded then a
    else
      let g := ConsProof.group a.cp.proofs
      if a.cp.q.ledgerStatus.isReached (ConsProof.nullProofs a.cp.proofs) ∨ g.length = 0 then a
      else if (a.cp.latestReliable g).isSome then a
      else match requestEnd g with
        | none => a
        | some final => { a with sent := a.sent ++ [.askProof a.cp.size final] }

inductive Ev
  | msg (frm : Name) (m : Msg)
  | tickStatus
  | tickProof
  | tickCp
  deriving DecidableEq, Repr

def Ask.step (a : Ask) : Ev → Ask
  | .msg frm (.status st) => a.processStatus st frm
  | .msg frm (.proof p) => a.processProof p frm
  | .tickStatus => a.tickStatus
  | .tickProof => a.tickProof
  | .tickCp => a.tickCp

def Ask.run (a : Ask) (evs : List Ev) : Ask := evs.foldl Ask.step a

end Verif.ConsAsk
