import Verif.Model.Quorums
import Verif.Model.Dict
/-!
# Multi-signatures of state roots

`BlsBftReplicaPlenum` of plenum/bls/bls_bft_replica_plenum.py, as the ordering service
uses it, and `BlsStore`. Names, root hashes, keys and signatures are numbers; signing,
checking and joining signatures are parameters. A signed value is the structure itself,
not its serialization. PRE-PREPAREs carry the root of the pool state, as those of this
version do.
-/
namespace Verif.Bls
open Verif

/-- crypto/bls/bls_multi_signature.py:7-53, `MultiSignatureValue`. -/
structure Value where
  ledgerId : Nat
  stateRoot : Nat
  poolRoot : Nat
  txnRoot : Nat
  time : Int
deriving Repr, DecidableEq

/-- crypto/bls/bls_multi_signature.py:76-106, `MultiSignature`. -/
structure MultiSig where
  signature : Nat
  participants : List Nat
  value : Value
deriving Repr, DecidableEq

/-- A key of `blsSigs` in a COMMIT: the number it denotes and how it is spelled. The
spelling 0 is `str(n)`; `"01"`, `" 1"` or the number itself are others. The schema
(plenum/common/messages/fields.py:605-610) admits all that `int` reads. -/
structure LidKey where
  id : Nat
  spelling : Nat
deriving Repr, DecidableEq

/-- What of a PRE-PREPARE is used. -/
structure PrePrepare where
  viewNo : Nat
  ppSeqNo : Nat
  time : Int
  poolRoot : Nat
  multiSigs : List MultiSig := []
deriving Repr, DecidableEq

/-- What of an audit transaction is used. -/
structure AuditTxn where
  ppSeqNo : Nat
  stateRoots : Dict Nat Nat
  ledgerRoots : Dict Nat Nat
deriving Repr, DecidableEq

/-- What the code uses from elsewhere. -/
structure Env where
  /-- the own name -/
  me : Nat
  isMaster : Bool
  /-- `can_sign_bls` -/
  canSign : Bool
  /-- plenum/bls/bls_key_register_pool_manager.py:23-31, `get_key_by_name`: a key of a node
  under a root of the pool state -/
  keyOf : Nat → Nat → Option Nat
  sign : Value → Nat
  verify : Nat → Value → Nat → Bool
  verifyMulti : Nat → Value → List Nat → Bool
  aggregate : List Nat → Nat

/-- The signatures of a batch: by ledger, by sender. -/
abbrev Sigs := Dict LidKey (Dict Nat Nat)

/-- plenum/bls/bls_bft_replica_plenum.py:22-34, `__init__`; the store; the last ordered
number; and two logs of what was saved: calculated here, with the number of nodes at
that time, and taken from a PRE-PREPARE. -/
structure State where
  n : Nat
  lastOrdered : Nat := 0
  allSignatures : Dict (Nat × Nat) Sigs := []
  latest : Option (List MultiSig) := none
  store : Dict Nat MultiSig := []
  savedLocal : List (MultiSig × Nat) := []
  savedShared : List MultiSig := []
deriving Repr, DecidableEq

/-- plenum/bls/bls_bft_replica_plenum.py:318-329, `_get_correct_audit_transaction`: the last
one of the uncommitted audit ledger with this number. -/
def getCorrectAudit (ledger : List AuditTxn) (ppSeqNo : Nat) : Option AuditTxn :=
  ledger.reverse.find? (fun t => t.ppSeqNo == ppSeqNo)

/-- The value signed for a ledger: plenum/bls/bls_bft_replica_plenum.py:332-352,
`_create_fake_pre_prepare_for_multi_sig`, and 186-192,
`_create_multi_sig_value_for_pre_prepare`. `none`: a root is missing. -/
def valueFor (pp : PrePrepare) (audit : AuditTxn) (lid : Nat) : Option Value :=
  match audit.stateRoots.get? lid, audit.ledgerRoots.get? lid with
  | some s, some t => some ⟨lid, s, pp.poolRoot, t, pp.time⟩
  | _, _ => none

/-- plenum/bls/bls_bft_replica_plenum.py:194-210, `_validate_signature`. -/
def validateSignature (env : Env) (sender sig : Nat) (v : Value) : Bool :=
  match env.keyOf v.poolRoot sender with
  | none => false
  | some k => env.verify sig v k

/-- One signature of a COMMIT, plenum/bls/bls_bft_replica_plenum.py:64-76. -/
def checkSig (env : Env) (pp : PrePrepare) (audit : AuditTxn) (sender : Nat) (e : LidKey × Nat) : Bool :=
  match valueFor pp audit e.1.id with
  | none => false
  | some v => validateSignature env sender e.2 v

/-- plenum/bls/bls_bft_replica_plenum.py:54-75, `validate_commit`: is the COMMIT good?
`sigs` is `none` when the field is absent. -/
def validateCommit (env : Env) (ledger : List AuditTxn) (pp : PrePrepare) (sender : Nat) (sigs : Option (Dict LidKey Nat)) : Bool :=
  match sigs with
  | none => true
  | some d => match getCorrectAudit ledger pp.ppSeqNo with
    | none => true
    | some a => d.all (checkSig env pp a sender)

/-- Body of the loop, plenum/bls/bls_bft_replica_plenum.py:149-152. -/
def addSig (sender : Nat) (sigs : Sigs) (e : LidKey × Nat) : Sigs :=
  sigs.set e.1 (((sigs.get? e.1).getD []).set sender e.2)

/-- plenum/bls/bls_bft_replica_plenum.py:144-152, `process_commit`. -/
def processCommit (s : State) (key : Nat × Nat) (sender : Nat) (sigs : Option (Dict LidKey Nat)) : State :=
  match sigs with
  | none => s
  | some d => { s with allSignatures := s.allSignatures.set key (d.foldl (addSig sender) ((s.allSignatures.get? key).getD [])) }

/-- `has_already_ordered`, plenum/server/consensus/ordering_service_msg_validator.py:172-174. -/
def alreadyOrdered (s : State) (pp : PrePrepare) : Bool := pp.ppSeqNo ≤ s.lastOrdered

/-- A COMMIT of another node for a prepared batch, plenum/server/consensus/ordering_service.py:469-490
and 1440-1452, `_add_to_commits`, up to the attempt to order. The sender has sent none
before. -/
def onCommit (env : Env) (s : State) (ledger : List AuditTxn) (pp : PrePrepare) (sender : Nat) (sigs : Option (Dict LidKey Nat)) :
    State :=
  if alreadyOrdered s pp || validateCommit env ledger pp sender sigs then
    processCommit s (pp.viewNo, pp.ppSeqNo) sender sigs
  else s

/-- The own signatures, plenum/bls/bls_bft_replica_plenum.py:117-131. `none`: a root is missing,
which raises. -/
def ownSigs (env : Env) (pp : PrePrepare) (audit : AuditTxn) : List Nat → Option (Dict LidKey Nat)
  | [] => some []
  | lid :: r =>
    match valueFor pp audit lid, ownSigs env pp audit r with
    | some v, some d => some ((⟨lid, 0⟩, env.sign v) :: d)
    | _, _ => none

/-- plenum/bls/bls_bft_replica_plenum.py:98-132, `update_commit`: `blsSigs` of the own COMMIT. -/
def updateCommit (env : Env) (ledger : List AuditTxn) (pp : PrePrepare) : Option (Dict LidKey Nat) :=
  if !env.canSign then none
  else match getCorrectAudit ledger pp.ppSeqNo with
    | none => none
    | some a => ownSigs env pp a a.stateRoots.keys

/-- The own COMMIT, plenum/server/consensus/ordering_service.py:1416-1438, `_do_commit`. -/
def onOwnCommit (env : Env) (s : State) (ledger : List AuditTxn) (pp : PrePrepare) : State :=
  processCommit s (pp.viewNo, pp.ppSeqNo) env.me (updateCommit env ledger pp)

/-- plenum/bls/bls_bft_replica_plenum.py:233-259, `_can_calculate_multi_sig`. -/
def canCalculate (s : State) (key : Nat × Nat) : Option Sigs :=
  match s.allSignatures.get? key with
  | none => none
  | some sigs => if sigs.all (fun e => (Quorums.ofN s.n).blsSignatures.isReached e.2.length) then some sigs else none

/-- plenum/bls/bls_bft_replica_plenum.py:278-288, `_calculate_single_multi_sig`. -/
def single (env : Env) (v : Value) (sigs : Dict Nat Nat) : MultiSig :=
  ⟨env.aggregate (sigs.map Prod.snd), sigs.keys, v⟩

/-- plenum/bls/bls_bft_replica_plenum.py:261-276, `_calculate_all_multi_sigs`. `none`: a root is
missing, which raises. -/
def calculateAll (env : Env) (pp : PrePrepare) (audit : AuditTxn) : Sigs → Option (List MultiSig)
  | [] => some []
  | (lid, d) :: r =>
    match valueFor pp audit lid.id, calculateAll env pp audit r with
    | some v, some l => some (single env v d :: l)
    | _, _ => none

/-- `self._all_bls_latest_multi_sigs` and the store after calculation,
plenum/bls/bls_bft_replica_plenum.py:163-172. Without the audit transaction the list is
empty. -/
def saveLocal (s : State) (l : List MultiSig) : State :=
  { s with
    latest := some l
    store := l.foldl (fun d m => d.set m.value.stateRoot m) s.store
    savedLocal := s.savedLocal ++ l.map (fun m => (m, s.n)) }

/-- The list calculated for a batch. -/
def multiSigsFor (env : Env) (ledger : List AuditTxn) (pp : PrePrepare) (sigs : Sigs) : Option (List MultiSig) :=
  match getCorrectAudit ledger pp.ppSeqNo with
  | none => some []
  | some a => calculateAll env pp a sigs

/-- plenum/bls/bls_bft_replica_plenum.py:154-172, `process_order`. -/
def processOrder (env : Env) (s : State) (ledger : List AuditTxn) (pp : PrePrepare) : State :=
  match canCalculate s (pp.viewNo, pp.ppSeqNo) with
  | none => s
  | some sigs => match multiSigsFor env ledger pp sigs with
    | none => s
    | some l => if env.isMaster then saveLocal s l else s

/-- Ordering a batch, plenum/server/consensus/ordering_service.py:1467-1530: only if it is not
ordered yet. -/
def onOrder (env : Env) (s : State) (ledger : List AuditTxn) (pp : PrePrepare) : State :=
  if alreadyOrdered s pp then s
  else processOrder env { s with lastOrdered := pp.ppSeqNo } ledger pp

/-- plenum/bls/bls_bft_replica_plenum.py:212-225, `_validate_multi_sig`. Without participants
`from_list` raises. -/
def validateMultiSig (env : Env) (m : MultiSig) : Bool :=
  !m.participants.isEmpty && env.verifyMulti m.signature m.value (m.participants.filterMap (env.keyOf m.value.poolRoot))

/-- A PRE-PREPARE: plenum/bls/bls_bft_replica_plenum.py:43-49, `validate_pre_prepare`, and, when
it is applied on the master instance, 306-316, `_save_multi_sig_shared`. -/
def onPrePrepare (env : Env) (s : State) (pp : PrePrepare) : State :=
  if pp.multiSigs.all (validateMultiSig env) && env.isMaster then
    { s with
      store := pp.multiSigs.foldl (fun d m => d.set m.value.stateRoot m) s.store
      savedShared := s.savedShared ++ pp.multiSigs }
  else s

/-- plenum/bls/bls_bft_replica_plenum.py:176-182, `gc`, with `compare_3PC_keys`: only the
sequence numbers count. -/
def gc (s : State) (key : Nat × Nat) : State :=
  { s with allSignatures := s.allSignatures.filter (fun e => !(e.1.2 ≤ key.2)) }

/-- plenum/bls/bls_bft_replica_plenum.py:80-92, `update_pre_prepare`: what the own
PRE-PREPARE carries. -/
def updatePrePrepare (s : State) : Option (List MultiSig) × State := (s.latest, { s with latest := none })

/-- What happens. Each event has the uncommitted audit ledger of that moment. -/
inductive Event where
  | commit (ledger : List AuditTxn) (pp : PrePrepare) (sender : Nat) (sigs : Option (Dict LidKey Nat))
  | ownCommit (ledger : List AuditTxn) (pp : PrePrepare)
  | order (ledger : List AuditTxn) (pp : PrePrepare)
  | prePrepare (pp : PrePrepare)
  | share
  | gc (key : Nat × Nat)
  /-- catch-up ends with a greater number ordered -/
  | caughtUp (ppSeqNo : Nat)
  /-- the number of nodes changes -/
  | pool (n : Nat)
deriving Repr, DecidableEq

/-- One event. -/
def step (env : Env) (s : State) : Event → State
  | .commit l pp x sigs => onCommit env s l pp x sigs
  | .ownCommit l pp => onOwnCommit env s l pp
  | .order l pp => onOrder env s l pp
  | .prePrepare pp => onPrePrepare env s pp
  | .share => (updatePrePrepare s).2
  | .gc key => gc s key
  | .caughtUp n => { s with lastOrdered := max s.lastOrdered n }
  | .pool n => { s with n := n }

/-- A history. -/
def run (env : Env) (n : Nat) (h : List Event) : State := h.foldl (step env) { n := n }

end Verif.Bls
