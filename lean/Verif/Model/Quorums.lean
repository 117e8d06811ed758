/-!
# Model of `plenum/server/quorums.py`
-/
namespace Verif

/-- `plenum/common/util.py:220-231`, `getMaxFailures`. The Python divides
floats and floors; the model divides naturals (equal below 2^53). -/
def getMaxFailures (nodeCount : Nat) : Nat :=
  if nodeCount ≥ 4 then (nodeCount - 1) / 3 else 0

/-- `plenum/server/quorums.py:4-9`, `Quorum`. -/
structure Quorum where
  value : Nat
  deriving DecidableEq, Repr

/-- `plenum/server/quorums.py:8-9`, `is_reached`. -/
def Quorum.isReached (q : Quorum) (msgCount : Nat) : Bool := msgCount ≥ q.value

/-- `plenum/server/quorums.py:15-40`, `Quorums`. Python's integers may go
negative for `n = 0`; pools have `n ≥ 1`. -/
structure Quorums where
  n : Nat
  f : Nat
  weak : Quorum
  strong : Quorum
  propagate : Quorum
  prepare : Quorum
  commit : Quorum
  reply : Quorum
  viewChange : Quorum
  election : Quorum
  viewChangeAck : Quorum
  viewChangeDone : Quorum
  sameConsistencyProof : Quorum
  consistencyProof : Quorum
  ledgerStatus : Quorum
  ledgerStatusLast3PC : Quorum
  checkpoint : Quorum
  timestamp : Quorum
  blsSignatures : Quorum
  observerData : Quorum
  backupInstanceFaulty : Quorum

/-- `plenum/server/quorums.py:16-40`, `Quorums.__init__`. -/
def Quorums.ofN (n : Nat) : Quorums :=
  let f := getMaxFailures n
  { n := n, f := f
    weak := ⟨f + 1⟩
    strong := ⟨n - f⟩
    propagate := ⟨f + 1⟩
    prepare := ⟨n - f - 1⟩
    commit := ⟨n - f⟩
    reply := ⟨f + 1⟩
    viewChange := ⟨n - f⟩
    election := ⟨n - f⟩
    viewChangeAck := ⟨n - f - 1⟩
    viewChangeDone := ⟨n - f⟩
    sameConsistencyProof := ⟨f + 1⟩
    consistencyProof := ⟨f + 1⟩
    ledgerStatus := ⟨n - f - 1⟩
    ledgerStatusLast3PC := ⟨f + 1⟩
    checkpoint := ⟨n - f - 1⟩
    timestamp := ⟨f + 1⟩
    blsSignatures := ⟨n - f⟩
    observerData := ⟨f + 1⟩
    backupInstanceFaulty := ⟨f + 1⟩ }

/-- All the quorums of a pool, for statements about each of them. -/
def Quorums.all (q : Quorums) : List Quorum :=
  [q.weak, q.strong, q.propagate, q.prepare, q.commit, q.reply, q.viewChange, q.election,
   q.viewChangeAck, q.viewChangeDone, q.sameConsistencyProof, q.consistencyProof, q.ledgerStatus,
   q.ledgerStatusLast3PC, q.checkpoint, q.timestamp, q.blsSignatures, q.observerData,
   q.backupInstanceFaulty]

end Verif
