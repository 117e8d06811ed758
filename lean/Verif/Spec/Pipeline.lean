import Verif.Model.Pipeline
/-!
# What the databases of a node should hold

The batches a node accepted are followed through what it showed: a batch is
pending when it was accepted and neither committed nor reverted since. The
committed part of every database comes from the committed batches alone, and
the uncommitted part from the pending ones alone, in the order of acceptance.
-/
namespace Verif.Spec.Pipeline
open Verif.Pipeline

/-- A batch as it was accepted. -/
structure Batch (α : Type) where
  key : Key
  lid : Nat
  txns : List Txn
  audit : Option α
deriving DecidableEq, Repr

/-- Follow one thing shown: accepted batches queue up, a commit takes the oldest, a revert the newest. -/
def follow {α : Type} (x : List (Batch α) × List (Batch α)) : Out α → List (Batch α) × List (Batch α)
  | .accepted k l ts a => (x.1, x.2 ++ [⟨k, l, ts, a⟩])
  | .committed _ _ => (x.1 ++ x.2.take 1, x.2.drop 1)
  | .reverted _ => (x.1, x.2.dropLast)
  | _ => x

/-- The batches executed. -/
def done {α : Type} (log : List (Out α)) : List (Batch α) := (log.foldl follow ([], [])).1

/-- The batches accepted and neither executed nor reverted. -/
def pending {α : Type} (log : List (Out α)) : List (Batch α) := (log.foldl follow ([], [])).2

/-- The transactions of some batches on one ledger. -/
def txnsOn {α : Type} (bs : List (Batch α)) (l : Nat) : List Txn :=
  (bs.filter (fun b => b.lid = l)).flatMap (fun b => b.txns)

/-- The state of one ledger after some transactions. -/
def stateAfter {σ : Type} (upd : σ → Txn → σ) (s : σ) (ts : List Txn) : σ := ts.foldl upd s

/-- The databases are `base` with the batches `ex` committed and the batches `pe` applied on top, and nothing else. -/
structure Exactly {σ α : Type} (upd : σ → Txn → σ) (base db : Dbs σ α) (ex pe : List (Batch α)) : Prop where
  /-- the committed ledgers -/
  ledger : ∀ l, (db.led l).com = (base.led l).com ++ txnsOn ex l
  /-- the uncommitted transactions -/
  uncommitted : ∀ l, (db.led l).unc = txnsOn pe l
  /-- the committed states -/
  state : ∀ l, (db.st l).com = stateAfter upd (base.st l).com (txnsOn ex l)
  /-- the heads of the states -/
  head : ∀ l, (db.st l).head = stateAfter upd (base.st l).com (txnsOn (ex ++ pe) l)
  /-- the audit ledger, one transaction for a batch -/
  audit : db.audCom = base.audCom ++ ex.filterMap (fun b => b.audit)
  /-- the uncommitted audit transactions -/
  auditUnc : db.audUnc = pe.filterMap (fun b => b.audit)

/-- Databases with nothing uncommitted. -/
structure Clean {σ α : Type} (db : Dbs σ α) : Prop where
  led : ∀ l, (db.led l).unc = []
  st : ∀ l, (db.st l).head = (db.st l).com
  aud : db.audUnc = []
  trk : db.trk = ⟨db.audCom.length, []⟩

/-- A PRE-PREPARE as an honest primary makes them: whole, with an audit root, with requests of its own ledger, and with
different indices of its requests as the discarded ones. -/
def Regular {σ : Type} (pp : PP σ) : Prop :=
  pp.subSeqNo = 0 ∧ pp.final = true ∧ pp.auditRoot.isSome = true ∧ (∀ r ∈ pp.reqs, r.lid = pp.lid) ∧
    ∃ d, pp.discarded = some d ∧ d.Nodup ∧ ∀ i ∈ d, i < pp.reqs.length

/-- All PRE-PREPAREs received are regular. -/
def RegularHistory {σ : Type} (evs : List (Event σ)) : Prop := ∀ pp, Event.preprepare pp ∈ evs → Regular pp

end Verif.Spec.Pipeline
