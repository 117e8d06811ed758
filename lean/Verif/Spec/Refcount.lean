import Verif.Model.Refcount
/-!
# What a store that counts references should keep
-/
namespace Verif.Spec.Refcount
open Verif.Refcount

/-- One use more: how many references there are and what was last put. -/
def refStep (k : Key) (a : Nat × Val) : Op → Nat × Val
  | .put j v => if j = k then (a.1 + 1, v) else a
  | .del j => if j = k then (a.1 - 1, a.2) else a
  | _ => a

/-- The references to a key, and the value last put. -/
def refs (h : List Op) (k : Key) : Nat × Val := h.foldl (refStep k) (0, 0)

/-- Nobody deletes what is not referred to. -/
def Fair (h : List Op) : Prop := ∀ h1 k h2, h = h1 ++ .del k :: h2 → 0 < (refs h1 k).1

end Verif.Spec.Refcount
