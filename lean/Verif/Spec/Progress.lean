import Verif.Model.Network
/-!
# Specification: what a pool needs to make progress

The words of `C93`: messages arrive, in a form and at a time in which they are
looked at.
-/
namespace Verif.TPC

/-- The (view, sequence number) a message is about. -/
def Msg.key : Msg → Key
  | .prePrepare p => p.key
  | .prepare p => p.key
  | .commit c => c.key

/-- A node after the first `x` events of its history. -/
def Pool.after (P : Pool) (i : Node) (x : Nat) : Replica := run (P.cfg i) ((P.hist i).take x)

/-- Event number `x` of node `i` is the arrival of message `m` of node `w`, at a
time when `i` looks at messages of this number or has ordered the batch already.
The requests of a PRE-PREPARE are known, its time and roots are found right. -/
structure Pool.Arrives (P : Pool) (i w : Node) (m : Msg) (x : Nat) : Prop where
  event : ∃ env, (P.hist i)[x]? = some (.deliver m w env) ∧ ∀ pp, m = .prePrepare pp → env = {}
  ready : (P.after i x).admits m.key.1 m.key.2 = true ∨ m.key.2 ≤ (P.after i x).lastOrdered.2

/-- A PREPARE or COMMIT arrives; at the primary not before it made the batch. -/
def Pool.Gets (P : Pool) (i w : Node) (m : Msg) (pp : PrePrepare) : Prop :=
  ∃ x, P.Arrives i w m x ∧ (i = P.primary pp.viewNo → .prePrepare pp ∈ (P.after i x).out)

/-- Every catchup brought the node to a batch of a view up to `v`, and those
that ended in view `v` to a batch of view `v`. -/
def Pool.CaughtUp (P : Pool) (v : Nat) (i : Node) : Prop :=
  ∀ a b k l, P.hist i = a ++ .caughtUp k l :: b → k.1 ≤ v ∧ ((run (P.cfg i) a).view = v → k.1 = v)

/-- The nodes `L` of view `v` work: they are honest, enough, the primary is one
of them, and what they send about the batches `base + 1, …, s`, which are
`pp (base + 1), …, pp s`, arrives. -/
structure Pool.Works (P : Pool) (v base s : Nat) (L : List Node) (pp : Nat → PrePrepare) : Prop where
  nodup : L.Nodup
  honest : ∀ i ∈ L, P.Honest i
  enough : P.n - getMaxFailures P.n ≤ L.length
  primary : P.primary v ∈ L
  inView : ∀ i ∈ L, (P.node i).view = v ∧ (P.node i).participating = true
  fresh : ∀ i, P.Honest i → P.top i v ≤ base
  start : ∀ i ∈ L, base ≤ (P.node i).lastOrdered.2
  caught : ∀ i ∈ L, P.CaughtUp v i
  made : ∀ t, base < t → t ≤ s → (pp t).key = (v, t) ∧ .prePrepare (pp t) ∈ P.sent (P.primary v)
  /-- the PRE-PREPAREs arrive one after the other -/
  prePrepares : ∀ i ∈ L, i ≠ P.primary v → ∃ x : Nat → Nat, ∀ t, base < t → t ≤ s →
    P.Arrives i (P.primary v) (.prePrepare (pp t)) (x t) ∧
    (if t = base + 1 then base ≤ (P.after i (x t)).lastOrdered.2 else x (t - 1) < x t)
  prepares : ∀ i ∈ L, ∀ j ∈ L, i ≠ j → ∀ t, base < t → t ≤ s → ∀ p, .prepare p ∈ P.sent j → p.key = (v, t) →
    P.Gets i j (.prepare p) (pp t)
  commits : ∀ i ∈ L, ∀ j ∈ L, i ≠ j → ∀ t, base < t → t ≤ s → ∀ c, .commit c ∈ P.sent j → c.key = (v, t) →
    P.Gets i j (.commit c) (pp t)

/-- Batch `t` is not lost on the others when one of `L` orders it: each of `L`
that has ordered it sent a COMMIT for it, or one that has ordered it saw no COMMIT
for it that the others do not get. -/
def Pool.Spread (P : Pool) (v t : Nat) (L : List Node) (pp : PrePrepare) : Prop :=
  (∀ j ∈ L, t ≤ (P.node j).lastOrdered.2 → ∃ c, .commit c ∈ P.sent j ∧ c.key = (v, t)) ∨
  ∃ j ∈ L, pp ∈ P.orderedBy j ∧ ∀ i ∈ L, ∀ w c, w ≠ i → c.key = (v, t) → Delivered (P.hist j) w (.commit c) →
    P.Gets i w (.commit c) pp

end Verif.TPC
