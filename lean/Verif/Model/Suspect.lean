import Verif.Model.ThreePC
import Verif.Model.InstanceChange
/-!
# Model of suspicions: which PRE-PREPARE makes a node vote for a view change

`process_preprepare` of plenum/server/consensus/ordering_service.py names the reason why a PRE-PREPARE is refused; a
reason becomes a suspicion; the node votes for a view change on some of them.

The replica is that of `Verif.Model.ThreePC`, the votes are those of `Verif.Model.InstanceChange`. Left out: the log
messages, the requests for missing messages, and the exceptions of a `discarded` field that does not decode.
-/
namespace Verif.Suspect

open Verif.TPC (Replica PrePrepare)

abbrev Node := Nat

/-- Why a PRE-PREPARE is not taken. Models the constants PP_APPLY_WRONG_DIGEST, PP_CHECK_NOT_FROM_PRIMARY,
PP_CHECK_DUPLICATE, PP_CHECK_WRONG_TIME, PP_CHECK_OLD, PP_CHECK_REQUEST_NOT_FINALIZED, PP_CHECK_NOT_NEXT,
PP_CHECK_INCORRECT_POOL_STATE_ROOT and PPR_BLS_MULTISIG_WRONG, as returned by
plenum/server/consensus/ordering_service.py:818-866, `_can_process_pre_prepare`. -/
inductive Why
  | wrongDigest | notFromPrimary | duplicate | wrongTime | old | notFinalised | notNext | wrongPoolRoot | wrongMultiSig
deriving DecidableEq, Repr

/-- Why an applied PRE-PREPARE is not kept. Models the constants returned by
plenum/server/consensus/ordering_service.py:892-930, `_apply_and_validate_applied_pre_prepare`. -/
inductive WhyNotApplied
  | subSeqNo | notFinal | alreadyOrdered | reject | state | root | audit
deriving DecidableEq, Repr

/-- What the rest of the node answers while a PRE-PREPARE is handled, and the fields of the message that
`TPC.PrePrepare` leaves out. -/
structure Env where
  /-- plenum/server/consensus/ordering_service.py:1098-1118, `_is_pre_prepare_time_acceptable` -/
  timeOk : Bool := true
  /-- the pool state root is absent or right -/
  poolRootOk : Bool := true
  /-- plenum/bls/bls_bft_replica_plenum.py:43-49, `validate_pre_prepare` -/
  multiSigOk : Bool := true
  /-- `_requests`: the payload digest of a known request, and whether it is finalised -/
  request : Nat → Option (Nat × Bool) := fun k => some (k, true)
  /-- the requests recorded as ordered, by payload digest and by digest -/
  payloadOrdered : Nat → Bool := fun _ => false
  fullOrdered : Nat → Bool := fun _ => false
  /-- `sub_seq_no` and `final` of the message -/
  subSeqNo : Nat := 0
  final : Bool := true
  /-- a request turned out to be ordered before while it was applied -/
  suspicious : Bool := false
  /-- how many requests were refused when applied, and how many the message says -/
  invalid : Nat := 0
  discarded : Nat := 0
  /-- the roots after applying are those of the message -/
  stateOk : Bool := true
  txnOk : Bool := true
  auditOk : Bool := true

/-- Models plenum/server/consensus/ordering_service.py:1120-1126, `_non_finalised_reqs` (whether there are any). -/
def Env.unknown (env : Env) (pp : PrePrepare) : Bool := pp.reqs.any (fun k => (env.request k).isNone)

/-- Models plenum/server/consensus/ordering_service.py:818-866, `_can_process_pre_prepare`. -/
def whyNot (cfg : TPC.Cfg) (r : Replica) (pp : PrePrepare) (sender : Node) (env : Env) : Option Why :=
  if r.alreadyOrdered pp.seqNo then none
  else if cfg.digest pp.reqs pp.origView pp.time ≠ pp.content.digest then some .wrongDigest
  else if !r.fromPrimary cfg sender then some .notFromPrimary
  else if r.recvPP.has pp.key then some .duplicate
  else if !env.timeOk then some .wrongTime
  else if pp.seqNo < r.lastPP3pc.2 then some .old
  else if env.unknown pp then some .notFinalised
  else if !r.isNextPP pp.seqNo then some .notNext
  else if !env.poolRootOk then some .wrongPoolRoot
  else if !env.multiSigOk then some .wrongMultiSig
  else none

/-- Models plenum/server/consensus/ordering_service.py:1183-1198, `_validate_applied_pre_prepare`, on the master. -/
def validateApplied (env : Env) : Option WhyNotApplied :=
  if env.invalid ≠ env.discarded then some .reject
  else if !env.stateOk then some .state
  else if !env.txnOk then some .root
  else if !env.auditOk then some .audit
  else none

/-- Models plenum/server/consensus/ordering_service.py:892-930, `_apply_and_validate_applied_pre_prepare`: what it
returns. -/
def whyNotApplied (env : Env) : Option WhyNotApplied :=
  if env.subSeqNo ≠ 0 then some .subSeqNo
  else if !env.final then some .notFinal
  else if env.suspicious then some .alreadyOrdered
  else validateApplied env

/-- A request of the message is not finalised, or unknown, and recorded as ordered. Models
plenum/server/consensus/ordering_service.py:568-609, of `process_preprepare`. -/
def orderedBefore (env : Env) (pp : PrePrepare) : Bool :=
  pp.reqs.any (fun k => match env.request k with
    | none => env.fullOrdered k
    | some (payload, fin) => !fin && env.payloadOrdered payload)

/-- The suspicion of a refused message, if there is one: its code in plenum/server/suspicion_codes.py. Models
plenum/server/consensus/ordering_service.py:558-644, of `process_preprepare`. -/
def codeOf (env : Env) (pp : PrePrepare) : Why → Option Nat
  | .wrongDigest => some 11
  | .notFromPrimary => some 9
  | .duplicate => some 2
  | .wrongPoolRoot => some 41
  | .old => none
  | .notFinalised => if orderedBefore env pp then some 42 else none
  | .notNext => none
  | .wrongTime => some 18
  | .wrongMultiSig => some 29

/-- The same for a message refused after it was applied. Models
plenum/server/consensus/ordering_service.py:535-556, of `process_preprepare`. -/
def codeOfApplied : WhyNotApplied → Option Nat
  | .reject => some 20
  | .state => some 21
  | .root => some 22
  | .subSeqNo => some 37
  | .notFinal => none
  | .audit => some 44
  | .alreadyOrdered => some 42

/-- The suspicion that the master raises on a PRE-PREPARE. Models
plenum/server/consensus/ordering_service.py:501-645, `process_preprepare`, with 871-876,
`_process_valid_preprepare`. -/
def suspicion (cfg : TPC.Cfg) (r : Replica) (pp : PrePrepare) (sender : Node) (env : Env) : Option Nat :=
  if !r.admits pp.viewNo pp.seqNo then none
  else match whyNot cfg r pp sender env with
    | some w => codeOf env pp w
    | none =>
      if r.alreadyOrdered pp.seqNo then none
      else match whyNotApplied env with
        | some w => codeOfApplied w
        | none => none

/-- The suspicions on which a node votes. Models plenum/server/node.py:2890-2901, of `reportSuspiciousNode`. -/
def primarySuspicions : List Nat := [11, 20, 22, 21, 35, 37, 38, 42, 44, 29, 18]

/-- What a suspicion comes to: the reason of a vote, if the node votes. Models plenum/server/replica.py:640-644,
`report_suspicious_node`, and plenum/server/node.py:2859-2903, `reportSuspiciousNode`. -/
def report (isMaster : Bool) (code : Option Nat) : Option Nat :=
  match code with
  | none => none
  | some c => if isMaster && primarySuspicions.contains c then some c else none

/-! ## A node and a pool -/

/-- A pool: its size, how long votes count, the primary of each view, and
plenum/server/consensus/ordering_service.py:2313-2315, `generate_pp_digest`. -/
structure Pool where
  n : Nat
  interval : Nat := 7200
  primary : Nat → Node
  digest : List Nat → Nat → Nat → Nat

/-- The settings of the ordering service of one node. -/
def Pool.tpc (p : Pool) (i : Node) : TPC.Cfg :=
  { name := i, n := p.n, primary := p.primary, cert := fun _ => 0, digest := p.digest, bls := false, maxInFlight := none }

/-- The settings of the view change trigger of one node. -/
def Pool.ic (p : Pool) (i : Node) : IC.Cfg := { name := i, n := p.n, interval := p.interval }

/-- A node: the ordering service of its master instance and its view change trigger. -/
structure Nd where
  rep : Replica := {}
  ic : IC.State := {}

/-- The view, whether the node waits for a NEW_VIEW and whether it takes part are data the two services share
(plenum/server/consensus/consensus_shared_data.py:20-80); the trigger has them here. -/
def Nd.replica (d : Nd) : Replica :=
  { d.rep with view := d.ic.view, waiting := d.ic.waiting, participating := d.ic.participating }

/-- What a node sees. `rep`: the ordering service has moved on, anyhow. `other`: anything the trigger sees besides. -/
inductive Ev
  | pp (isMaster : Bool) (pp : PrePrepare) (sender : Node) (env : Env)
  | rep (r : Replica)
  | other (e : IC.Event)

/-- Models plenum/server/consensus/ordering_service.py:501-645, `process_preprepare`, up to
plenum/server/consensus/view_change_trigger_service.py:63-74, `process_vote_for_view_change`. The suspicions of a
PRE-PREPARE are not STATE_SIGS_ARE_NOT_UPDATED. What the ordering service does with a PRE-PREPARE it takes is
`Ev.rep`. -/
def Nd.step (p : Pool) (i : Node) (d : Nd) : Ev → Nd
  | .pp m pp sender env =>
    match report m (suspicion (p.tpc i) d.replica pp sender env) with
    | none => d
    | some c => { d with ic := d.ic.processVote (p.ic i) false c none }
  | .rep r => { d with rep := r }
  | .other e => { d with ic := d.ic.step (p.ic i) e }

/-- All nodes. -/
abbrev State := Node → Nd

/-- One node moves. -/
def step (p : Pool) (s : State) (e : Node × Ev) : State :=
  fun j => if j = e.1 then (s j).step p j e.2 else s j

/-- A run. -/
def run (p : Pool) (s : State) (es : List (Node × Ev)) : State := es.foldl (step p) s

/-- The pool in view `v`, with connections between all nodes and no votes. -/
def start (v : Nat) (p : Pool) : State :=
  fun _ => { ic := { view := v, connected := List.range p.n } }

end Verif.Suspect
