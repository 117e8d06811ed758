import Verif.Spec.State
/-!
# What it means to list a content
-/
namespace Verif.Spec.State
open Verif.Rlp

/-- The dictionary has each key once, and for every key what the content has; `form` is the form of the values. -/
def Complete {α : Type} (form : Bytes → α) (m : Content) (d : Dict Bytes α) : Prop :=
  d.keys.Nodup ∧ ∀ k, d.get? k = (m k).map form

/-- The part of a content whose keys start with `p`. -/
def Content.below (m : Content) (p : Bytes) : Content := fun k => if p <+: k then m k else none

/-- No key is longer than `n` bytes. -/
def Content.Within (m : Content) (n : Nat) : Prop := ∀ k v, m k = some v → k.length ≤ n

/-- A value as a leaf of the trie has it: the list with the value alone, encoded. -/
def leafForm (v : Bytes) : Item := .str (encode (.list [.str v]))

end Verif.Spec.State
