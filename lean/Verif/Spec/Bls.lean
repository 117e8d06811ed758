import Verif.Model.Bls
/-!
# What backs a multi-signature
-/
namespace Verif.Spec.Bls
open Verif Verif.Bls

/-- `a` is the last audit transaction with this number. -/
def LastAudit (ledger : List AuditTxn) (ppSeqNo : Nat) (a : AuditTxn) : Prop :=
  ∃ pre post, ledger = pre ++ a :: post ∧ a.ppSeqNo = ppSeqNo ∧ ∀ t ∈ post, t.ppSeqNo ≠ ppSeqNo

/-- The batch an event is about, with the audit ledger of that moment. -/
def about : Event → Option (List AuditTxn × PrePrepare)
  | .commit l pp _ _ => some (l, pp)
  | .ownCommit l pp => some (l, pp)
  | .order l pp => some (l, pp)
  | _ => none

/-- Whenever the history deals with the batch `v`, `n`, its PRE-PREPARE is `pp` and its audit
transaction is `a`. -/
def Fixed (h : List Event) (v n : Nat) (pp : PrePrepare) (a : AuditTxn) : Prop :=
  ∀ e ∈ h, ∀ l pp', about e = some (l, pp') → pp'.viewNo = v → pp'.ppSeqNo = n → pp' = pp ∧ LastAudit l n a

/-- Each batch has one PRE-PREPARE and one audit transaction as long as COMMITs for it are
taken in: within a view only one PRE-PREPARE is accepted for a number, and its audit
transaction is in the ledger from when it is applied. -/
def Steady (h : List Event) : Prop := ∀ v n, ∃ pp a, Fixed h v n pp a

/-- A multi-signature joins the signatures of at least `n - f` different nodes, each of
which is valid for its value under the node's key in the pool state the value names, or
is the own one. -/
def Backed (env : Env) (n : Nat) (m : MultiSig) : Prop :=
  ∃ sigs : List (Nat × Nat), m.participants = sigs.map Prod.fst ∧ (sigs.map Prod.fst).Nodup ∧
    n - getMaxFailures n ≤ sigs.length ∧ m.signature = env.aggregate (sigs.map Prod.snd) ∧
    ∀ p s, (p, s) ∈ sigs →
      (p = env.me ∧ s = env.sign m.value) ∨ ∃ k, env.keyOf m.value.poolRoot p = some k ∧ env.verify s m.value k = true

/-- The value a node signs for a ledger in a batch. -/
def IsValueOf (pp : PrePrepare) (a : AuditTxn) (lid : Nat) (v : Value) : Prop :=
  v.ledgerId = lid ∧ v.poolRoot = pp.poolRoot ∧ v.time = pp.time ∧
  a.stateRoots.get? lid = some v.stateRoot ∧ a.ledgerRoots.get? lid = some v.txnRoot

end Verif.Spec.Bls
