import Verif.Model.NodeReg
/-!
# What the node registry is to be

The specification keeps the batches, with their requests, and computes every registry from them.
-/
namespace Verif.Spec.NodeReg
open Verif.NodeReg (Req Op change)

/-- A batch: its requests and its view. -/
structure Batch where
  reqs : List Req
  view : Nat
deriving DecidableEq, Repr

/-- The registry after some batches. -/
def registry (reg : List String) (bs : List Batch) : List String := bs.foldl (fun r b => b.reqs.foldl change r) reg

/-- What the last request about a node which names services says of it. -/
def says (rs : List Req) (x : String) : Option Bool :=
  (rs.reverse.find? (fun r => decide (r.alias = x) && r.validator.isSome)).bind (·.validator)

/-- Committed and pending batches. -/
structure Live where
  done : List Batch
  pending : List Batch
deriving DecidableEq, Repr

/-- All of them. -/
def Live.all (l : Live) : List Batch := l.done ++ l.pending

/-- Commit takes the oldest pending batch, reject the newest. -/
def Live.step (l : Live) : Op → Live
  | .apply reqs view => { l with pending := l.pending ++ [⟨reqs, view⟩] }
  | .reject => { l with pending := l.pending.dropLast }
  | .commit _ => ⟨l.done ++ l.pending.take 1, l.pending.drop 1⟩

/-- The batches after a history. -/
def live (ops : List Op) : Live := ops.foldl Live.step ⟨[], []⟩

/-- The last view with a batch, view 0 if there is none. -/
def lastView (bs : List Batch) : Nat := (bs.getLast?.map (·.view)).getD 0

/-- The registry at the beginning of a view: with the batches of all earlier views. -/
def atBeginning (reg : List String) (bs : List Batch) (view : Nat) : List String :=
  registry reg (bs.filter (·.view < view))

/-- A history: views do not go down, and a commit names the view of the oldest pending batch. -/
def History : Live → List Op → Prop
  | _, [] => True
  | l, o :: rest =>
    (match o with
      | .apply _ view => lastView l.all ≤ view
      | .reject => l.pending ≠ []
      | .commit view => ∃ b, l.pending.head? = some b ∧ b.view = view) ∧
    History (l.step o) rest

/-- The restriction needed because of the shared list: between a rejection which leaves batches pending and the next
one which leaves none, no batch changes the registry. -/
def NoChangeAfterPartialRevert (reg : List String) : Bool → Live → List Op → Prop
  | _, _, [] => True
  | partly, l, o :: rest =>
    (match o with
      | .apply reqs _ => partly = true → reqs.foldl change (registry reg l.all) = registry reg l.all
      | _ => True) ∧
    NoChangeAfterPartialRevert reg
      (match o with
        | .reject => decide (1 < l.pending.length)
        | _ => partly)
      (l.step o) rest

/-- The audited batches `bs` are those of the registry: the same views, and with each batch the registry after it is
recorded. Registry views do not go down. -/
structure Recorded (reg : List String) (bs : List Verif.Audit.Batch) (rb : List Batch) : Prop where
  len : bs.length = rb.length
  view : ∀ (k : Nat) b c, bs[k]? = some b → rb[k]? = some c → b.origView.getD b.viewNo = c.view
  reg : ∀ (k : Nat) b, bs[k]? = some b → b.nodeReg = some (registry reg (rb.take (k + 1)))
  sorted : rb.Pairwise (fun a b => a.view ≤ b.view)

/-- Every view has other primaries than the one before with an audited batch. -/
def PrimariesChange (bs : List Verif.Audit.Batch) : Prop :=
  ∀ (k : Nat) a b, bs[k]? = some a → bs[k + 1]? = some b →
    a.origView.getD a.viewNo ≠ b.origView.getD b.viewNo → a.primaries ≠ b.primaries

end Verif.Spec.NodeReg
