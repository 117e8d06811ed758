import Verif.Model.Observer
/-!
# What an observer may apply
-/
namespace Verif.Spec.Obs
open Verif Verif.Obs

/-- The reports of a history: who reported which batch. -/
def reports : List Event → List (Nat × Batch)
  | [] => []
  | .report x b :: r => (x, b) :: reports r
  | .pool _ :: r => reports r

/-- At least f+1 different senders, f for `n` nodes, reported this very batch. -/
def Confirmed (R : List (Nat × Batch)) (n : Nat) (b : Batch) : Prop :=
  ∃ S : List Nat, S.Nodup ∧ getMaxFailures n + 1 ≤ S.length ∧ ∀ x ∈ S, (x, b) ∈ R

/-- Each batch begins where the one before ended. -/
def InSequence (l : List Batch) : Prop :=
  ∀ pre a b post, l = pre ++ a :: b :: post → b.start = a.stop + 1

/-- All reports are parts of one sequence of batches: two different batches do not
overlap, and sequence numbers begin at 1. -/
def Honest (R : List (Nat × Batch)) : Prop :=
  (∀ e ∈ R, 1 ≤ e.2.start ∧ e.2.start ≤ e.2.stop) ∧
  ∀ e ∈ R, ∀ e' ∈ R, e.2 = e'.2 ∨ e.2.stop < e'.2.start ∨ e'.2.stop < e.2.start

end Verif.Spec.Obs
