import Verif.Model.Suspect
/-!
# What a vote against the primary should rest on

Words for the property C101. Nothing here uses the functions that decide about a vote.
-/
namespace Verif.Spec.Suspect

open Verif.TPC (Replica PrePrepare)
open Verif.Suspect (Env Pool Node Ev)

/-- The digest in the PRE-PREPARE is that of its requests, its time and its original view. -/
def DigestRight (p : Pool) (pp : PrePrepare) : Prop := p.digest pp.reqs pp.origView pp.time = pp.content.digest

/-- The PRE-PREPARE is one the replica works on now: of its view, while it takes part in it, within the watermarks, not
ordered, and not beyond the first batch of the view while that is not ordered. -/
structure Current (r : Replica) (pp : PrePrepare) : Prop where
  view : pp.viewNo = r.view
  active : r.participating = true ∧ r.waiting = false
  low : r.lowWM < pp.seqNo
  high : pp.seqNo ≤ r.highWM
  new : r.lastOrdered.2 < pp.seqNo
  first : r.view = 0 ∨ pp.seqNo ≤ r.prevCert + 1 ∨ r.prevCert + 1 ≤ r.lastOrdered.2

/-- The batch is wrong: one of its parts, a request ordered before, a number of refused requests or a root that differs
from what the replica finds. -/
def WrongBatch (env : Env) : Prop :=
  env.subSeqNo ≠ 0 ∨
    (env.final = true ∧ (env.suspicious = true ∨ env.invalid ≠ env.discarded ∨ env.stateOk = false ∨
      env.txnOk = false ∨ env.auditOk = false))

/-- A request of the batch is recorded as ordered, and not at hand. -/
def Repeats (env : Env) (pp : PrePrepare) : Prop :=
  ∃ k ∈ pp.reqs, (env.request k = none ∧ env.fullOrdered k = true) ∨
    ∃ d, env.request k = some (d, false) ∧ env.payloadOrdered d = true

/-- All requests are at hand. -/
def Known (env : Env) (pp : PrePrepare) : Prop := ∀ k ∈ pp.reqs, env.request k ≠ none

/-- The message is the first one of the primary for this place, and it proves that the primary is at fault. -/
def PrimaryAtFault (p : Pool) (r : Replica) (pp : PrePrepare) (sender : Node) (env : Env) : Prop :=
  sender = p.primary r.view ∧ pp.key ∉ r.recvPP.keys ∧
    (env.timeOk = false ∨
      (r.lastPP3pc.2 ≤ pp.seqNo ∧
        ((¬ Known env pp ∧ Repeats env pp) ∨
         (Known env pp ∧ (pp.seqNo = 1 ∨ pp.seqNo = r.lastPP3pc.2 + 1) ∧ env.poolRootOk = true ∧
           (env.multiSigOk = false ∨ WrongBatch env)))))

/-- Nothing is wrong with a PRE-PREPARE as far as the node can check. -/
structure Fine (env : Env) (pp : PrePrepare) : Prop where
  time : env.timeOk = true
  multiSig : env.multiSigOk = true
  batch : ¬ WrongBatch env
  fresh : ¬ Repeats env pp

/-- What the network may do to a pool whose nodes in `F` are faulty: an InstanceChange of another node was sent by it, and
nothing else makes a node vote (its monitor finds no fault, no view change times out, no node is lost). The view of a node is
set by its view change only. -/
def Allowed (F : Node → Prop) (s : Verif.Suspect.State) : Node × Ev → Prop
  | (_, .pp _ _ _ _) => True
  | (_, .rep _) => True
  | (_, .other (.ic v _ w)) => F w ∨ v ∈ (s w).ic.sent
  | (_, .other (.vote _ _ _)) => False
  | (_, .other (.setView _ _)) => False
  | (_, .other (.setDegraded b)) => b = false
  | (_, .other _) => True

/-- Each event is allowed when it happens. -/
def AllowedRun (F : Node → Prop) (p : Pool) : Verif.Suspect.State → List (Node × Ev) → Prop
  | _, [] => True
  | s, e :: es => Allowed F s e ∧ AllowedRun F p (Verif.Suspect.step p s e) es

end Verif.Spec.Suspect
