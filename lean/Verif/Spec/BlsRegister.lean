import Verif.Spec.Listing
/-!
# Whose BLS key is asked for

A user names a node and a root hash of the pool state. The answer is the key that this pool state has for the node.
-/
namespace Verif.Spec.BlsRegister
open Verif.Rlp Verif.Trie Verif.Spec.State

/-- What of the data of a node is used. `blsKey` is `none` when the field is absent and `some none` when it is null. -/
structure NodeData where
  alias : Option Nat
  blsKey : Option (Option Bytes)
  proof : Option Bytes
deriving Repr, DecidableEq

/-- How the code reads: `parse` reads the data of a node, `verKey` reads a key; both may fail. `noProof`: keys count
without a proof of possession. -/
structure Reader where
  parse : Bytes → Except Err NodeData
  verKey : Bytes → Except Err Nat
  noProof : Bool

/-- The pool state has data of this node. -/
def Holds (R : Reader) (m : Content) (d : NodeData) : Prop := ∃ k v, m k = some v ∧ R.parse v = .ok d

/-- The key in the data of a node: none without a proof, if one is needed. -/
inductive Usable (R : Reader) (d : NodeData) : Option Nat → Prop
  | unproved (h : R.noProof = false) (p : d.proof = none) : Usable R d none
  | null (h : d.blsKey = some none) : Usable R d none
  | key (b : Bytes) (x : Nat) (h : d.blsKey = some (some b)) (p : R.noProof = true ∨ d.proof ≠ none)
      (hx : R.verKey b = .ok x) : Usable R d (some x)

/-- The right answer for a name: the key of a node with this alias, and none if no such node has one. -/
def Answer (R : Reader) (m : Content) (name : Nat) (o : Option Nat) : Prop :=
  (∃ d, Holds R m d ∧ d.alias = some name ∧ d.blsKey ≠ none ∧ Usable R d o) ∨
    ((∀ d, Holds R m d → d.alias = some name → d.blsKey = none) ∧ o = none)

/-- All data can be read. -/
def Readable (R : Reader) (m : Content) : Prop :=
  ∀ k v, m k = some v → ∃ d, R.parse v = .ok d ∧ d.alias ≠ none ∧ ∀ b, d.blsKey = some (some b) → ∃ x, R.verKey b = .ok x

/-- No two nodes have the same alias. -/
def OneEach (R : Reader) (m : Content) : Prop :=
  ∀ d d', Holds R m d → Holds R m d' → d.alias = d'.alias → d = d'

/-- The recursion allowed is deep enough for the content. -/
def Deep (f : Nat) (m : Content) : Prop := ∃ n, m.Within n ∧ 2 * n < f

end Verif.Spec.BlsRegister
