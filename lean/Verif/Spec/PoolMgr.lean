import Verif.Model.PoolMgr
import Verif.Spec.NodeTxn
/-!
# What a node should know of the validators
-/
namespace Verif.Spec.PoolMgr
open Verif Verif.NodeTxn Verif.PoolMgr Verif.Spec.NodeTxn

/-- The pool state says that the node is a validator. -/
def inService (pool : Pool) (nym : Bytes) : Bool :=
  match (pool.get? nym).bind (·.get? .services) with
  | some (.list l) => l.contains (ascii "VALIDATOR")
  | _ => false

/-- The nyms in the order of their first transactions. -/
def joinOrder (ledger : List Req) : List Bytes :=
  ledger.foldl (fun l r => if r.dest ∈ l then l else l ++ [r.dest]) []

/-- The registry holds the validators of the pool state, by name, with their addresses
there, and nothing else. -/
def Lists (pool : Pool) (addr : Rec → Option Fv × Option Fv) (reg : Dict Fv (Fv × Fv)) : Prop :=
  ∀ name ha, reg.get? name = some ha ↔ ∃ nym rec, pool.get? nym = some rec ∧ rec.get? .alias = some name ∧
    inService pool nym = true ∧ addr rec = (some ha.1, some ha.2)

/-- What a node should know, by the ledger and by the state made by it: all nodes in the
order in which they joined, with their names, the addresses of the validators for nodes
and for clients, and the order of the ranks. -/
structure Knows (ledger : List Req) (pool : Pool) (m : Mgr) : Prop where
  names : m.ids.map (fun e => (e.1, some e.2)) =
    (joinOrder ledger).map (fun nym => (nym, (pool.get? nym).bind (·.get? .alias)))
  nodes : Lists pool nodeAddr m.reg
  clients : Lists pool clientAddr m.cli
  ranks : (ranked m).map (·.1) = (joinOrder ledger).filter (inService pool)

/-- Every transaction passed the checks in the state made by those before it. -/
def Accepted (env : Env) (ledger : List Req) : Prop :=
  ∀ pre r post, ledger = pre ++ r :: post → check env (applyAll [] pre) r = none

/-- A transaction that makes a validator of a node none of whose transactions stated its
services has the addresses of the node. -/
def Stated (ledger : List Req) : Prop :=
  ∀ pre r post rec l, ledger = pre ++ r :: post → (applyAll [] pre).get? r.dest = some rec →
    r.data.get? .services = some (.list l) → ascii "VALIDATOR" ∈ l →
    (∃ v, rec.get? .services = some v) ∨ ∃ v, r.data.get? .nodeIp = some v

end Verif.Spec.PoolMgr
