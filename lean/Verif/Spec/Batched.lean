import Verif.Spec.Merkle
/-!
# Specification: batches on the wire
-/
namespace Verif.Spec
open Verif

/-- What is transmitted for a group of messages: a single message as it is, several
packed together. -/
def wire (pack : List Bytes → Bytes) : List Bytes → Bytes
  | [m] => m
  | msgs => pack msgs

/-- `out` transmits `msgs`: cut into groups, none empty, nothing lost, repeated or
reordered, and every transmission within the limit. -/
def Transmits (pack : List Bytes → Bytes) (limit : Nat) (msgs out : List Bytes) : Prop :=
  ∃ groups : List (List Bytes), groups.flatten = msgs ∧ (∀ g ∈ groups, g ≠ []) ∧
    out = groups.map (wire pack) ∧ ∀ b ∈ out, b.length ≤ limit

end Verif.Spec
