import Verif.Model.Crash
/-!
# What should survive crashes
-/
namespace Verif.Spec.Crash
open Verif Verif.Crash

/-- The state that the transactions give. -/
def replay {σ : Type} (E : Env σ) (ts : List Txn) : σ := ts.foldl E.upd E.empty

/-- Every state is the one its ledger gives. -/
def StatesFit {σ : Type} (E : Env σ) (P : Pool) (d : Disk σ) : Prop := ∀ l ∈ P.lids, d.state l = replay E (d.ledger l)

/-- Every request in a ledger is found, by its payload digest and by its digest. -/
def RequestsKnown {σ : Type} (P : Pool) (d : Disk σ) : Prop :=
  ∀ l ∈ P.lids, ∀ i t p f, (d.ledger l)[i]? = some t → t.id = some (p, f) → d.seq.get? p = some (l, i + 1) ∧ f ∈ d.full

/-- For every time of a transaction the state after the last transaction of that time is found. -/
def TimesKnown {σ : Type} (E : Env σ) (P : Pool) (d : Disk σ) : Prop :=
  ∀ l ∈ P.lids, l ∈ P.tsLids → ∀ i t time, (d.ledger l)[i]? = some t → t.time = some time →
    (∀ j t', i < j → (d.ledger l)[j]? = some t' → t'.time ≠ some time) →
    d.ts.get? (l, time) = some (replay E ((d.ledger l).take (i + 1)))

/-- A pool as it should be: batches go to known ledgers, and genesis transactions have no request and no time. -/
structure Proper (P : Pool) : Prop where
  lids : P.lids.Nodup
  batches : ∀ b ∈ P.batches, b.lid ∈ P.lids
  genesis : ∀ l, ∀ t ∈ P.genesis l, t.id = none ∧ t.time = none
  requests : ∀ b ∈ P.batches, ∀ t ∈ b.txns, t.id.isSome ∧ t.time = some b.time
  once : ((P.batches.flatMap (·.txns)).filterMap fun t => t.id.map (·.1)).Nodup
  times : (P.batches.map (·.time)).Pairwise (· ≤ ·)

/-- A crash between two of the groups of writes. -/
def Between {σ : Type} (groups : List (List (Write σ))) : Option Nat → Prop
  | none => True
  | some j => ∃ i, j = (groups.take i).flatten.length

/-- How writes are grouped: a ledger with its state, or everything about a batch or a transaction. -/
inductive Grain where
  | ledgerState | whole

/-- The groups. -/
def Grain.groups {σ : Type} (steps : Steps σ) : Grain → List (List (Write σ))
  | .ledgerState => steps.flatten
  | .whole => steps.map (·.flatten)

/-- No crash inside a group. -/
def Tidy {σ : Type} [DecidableEq σ] (E : Env σ) (P : Pool) (g : Grain) : Node σ → List Ev → Prop
  | _, [] => True
  | n, e :: es =>
    (match stepsOf E P n e with
     | none => True
     | some (steps, stop, _) => Between (g.groups steps) stop) ∧ Tidy E P g (step E P n e) es

end Verif.Spec.Crash
