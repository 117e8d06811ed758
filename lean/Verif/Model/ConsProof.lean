import Verif.Model.Catchup
import Verif.Model.Quorums
/-!
# Model of `plenum/server/catchup/cons_proof_service.py`

One `ConsProofService`, for one ledger. Messages for other ledgers are ignored by the
code and left out. Asking other nodes and the timers that repeat the questions are in
`Model/ConsAsk.lean`. The size and root of the node's own ledger do not
change while the service works, so they are given when it starts. Roots are numbers.
-/
namespace Verif.ConsProof
open Verif.Catchup (Name)

/-- node_messages.py:384-395, `ConsistencyProof`, without the ledger id. -/
structure Proof where
  seqStart : Nat
  seqEnd : Nat
  viewNo : Nat
  ppSeqNo : Nat
  oldRoot : Nat
  newRoot : Nat
  hashes : List Nat
  deriving DecidableEq, Repr

/-- node_messages.py:366-380, `LedgerStatus`, without the ledger id and the protocol version. -/
structure Status where
  size : Nat
  viewNo : Option Nat
  ppSeqNo : Option Nat
  root : Nat
  deriving DecidableEq, Repr

inductive Msg
  | status (s : Status)
  | proof (p : Proof)
  deriving DecidableEq, Repr

/-- utils.py:14-17, `CatchupTill`. -/
structure Till where
  start : Nat
  final : Nat
  root : Nat
  deriving DecidableEq, Repr

/-- cons_proof_service.py:24-60, the fields, and the `LedgerCatchupStart` messages put out. -/
structure State where
  working : Bool := false
  n : Nat := 4
  size : Nat := 0
  root : Nat := 0
  same : List Name := []
  proofs : Dict Name (Option Proof) := []
  last3pc : Dict Name (Option Nat × Option Nat) := []
  out : List (Option Till × Dict Name Nat) := []
  deriving Repr

def State.q (s : State) : Quorums := Quorums.ofN s.n

/-- cons_proof_service.py:65-77, `start`. -/
def State.start (s : State) (n size root : Nat) : State :=
  { s with working := true, n := n, size := size, root := root, same := [], proofs := [], last3pc := [] }

/-- The key of `_get_group_consistency_proofs` inside a range of sequence numbers. -/
abbrev Key := Nat × Nat × Nat × Nat × List Nat

def Proof.key (p : Proof) : Key := (p.viewNo, p.ppSeqNo, p.oldRoot, p.newRoot, p.hashes)

/-- One round of the loop of `_get_group_consistency_proofs`. -/
def groupAdd (g : Dict (Nat × Nat) (Dict Key Nat)) (p : Proof) : Dict (Nat × Nat) (Dict Key Nat) :=
  let r := (g.get? (p.seqStart, p.seqEnd)).getD []
  g.set (p.seqStart, p.seqEnd) (r.set p.key ((r.get? p.key).getD 0 + 1))

/-- cons_proof_service.py:317-341, `_get_group_consistency_proofs`: the counts. -/
def group (proofs : Dict Name (Option Proof)) : Dict (Nat × Nat) (Dict Key Nat) :=
  (proofs.filterMap Prod.snd).foldl groupAdd []

/-- cons_proof_service.py:317-341, `_get_group_consistency_proofs`: the number of null proofs. -/
def nullProofs (proofs : Dict Name (Option Proof)) : Nat := (proofs.filter (fun e => e.2.isNone)).length

/-- cons_proof_service.py:343-354, `_get_reliable_proofs`: for every range the first
value that enough nodes sent. -/
def State.reliable (s : State) (g : Dict (Nat × Nat) (Dict Key Nat)) : List ((Nat × Nat) × Key) :=
  g.filterMap (fun e => (e.2.find? (fun k => s.q.sameConsistencyProof.isReached k.2)).map (fun k => (e.1, k.1)))

/-- One round of the loop of `_get_latest_reliable_proof`. -/
def latestStep (size : Nat) (latest : Option ((Nat × Nat) × Key)) (e : (Nat × Nat) × Key) :
    Option ((Nat × Nat) × Key) :=
  if e.1.1 ≠ size then latest
  else match latest with
    | none => some e
    | some l => if l.1.2 < e.1.2 then some e else some l

/-- cons_proof_service.py:356-370, `_get_latest_reliable_proof`. -/
def State.latestReliable (s : State) (g : Dict (Nat × Nat) (Dict Key Nat)) : Option ((Nat × Nat) × Key) :=
  (s.reliable g).foldl (latestStep s.size) none

/-- cons_proof_service.py:254-271, `_is_catchup_needed`. -/
def State.catchupNeeded (s : State) : Bool :=
  if s.q.ledgerStatus.isReached s.same.length then false
  else if ¬ s.q.consistencyProof.isReached s.proofs.length then true
  else if s.q.ledgerStatus.isReached (nullProofs s.proofs) then false
  else true

/-- cons_proof_service.py:111-131, `_finish`. -/
def State.finish (s : State) (till : Option Till) : State :=
  { s with working := false, same := [], proofs := []
           out := s.out ++ [(till, s.proofs.filterMap (fun e => e.2.map (fun p => (e.1, p.seqEnd))))] }

/-- cons_proof_service.py:151-166, `_get_last_txn_3PC_key`: whether there is one. -/
def State.hasLast3pc (s : State) : Bool :=
  (s.last3pc.map Prod.snd).any (fun k =>
    s.q.ledgerStatusLast3PC.isReached ((s.last3pc.map Prod.snd).filter (· = k)).length &&
      k.1.isSome && k.2.isSome)

/-- cons_proof_service.py:133-149, `_finish_no_catchup`. -/
def State.finishNoCatchup (s : State) : State :=
  if ¬ s.hasLast3pc then s.finish none else s.finish (some ⟨s.size, s.size, s.root⟩)

/-- cons_proof_service.py:303-315, `_get_cons_proof_for_catchup`, as the target it leads to. -/
def State.proofForCatchup (s : State) : Option Till :=
  if ¬ s.q.consistencyProof.isReached s.proofs.length then none
  else (s.latestReliable (group s.proofs)).map (fun l => ⟨l.1.1, l.1.2, l.2.2.2.2.1⟩)

/-- cons_proof_service.py:79-86, `process_ledger_status`, with `_process_same_ledger_status`
(cons_proof_service.py:223-237). A newer status is only answered. -/
def State.processStatus (s : State) (st : Status) (frm : Name) : State :=
  if ¬ s.working then s
  else if s.size < st.size then s
  else
    let s := { s with same := if frm ∈ s.same then s.same else s.same ++ [frm]
                      proofs := s.proofs.set frm none }
    let s := if s.size = st.size then { s with last3pc := s.last3pc.set frm (st.viewNo, st.ppSeqNo) } else s
    if s.catchupNeeded then s else s.finishNoCatchup

/-- cons_proof_service.py:88-109, `process_consistency_proof`, with `_can_process_consistency_proof`
(cons_proof_service.py:187-213). -/
def State.processProof (s : State) (p : Proof) (frm : Name) : State :=
  if ¬ s.working then s
  else if p.seqStart > s.size then s
  else if p.seqEnd ≤ p.seqStart then s
  else
    let s := { s with proofs := s.proofs.set frm (some p) }
    if ¬ s.catchupNeeded then s.finishNoCatchup
    else match s.proofForCatchup with
      | none => s
      | some till => s.finish (some till)

/-- One message. -/
def State.step (s : State) (m : Name × Msg) : State :=
  match m.2 with
  | .status st => s.processStatus st m.1
  | .proof p => s.processProof p m.1

def State.run (s : State) (ms : List (Name × Msg)) : State := ms.foldl State.step s

end Verif.ConsProof
