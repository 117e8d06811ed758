import Verif.Model.PyVal
/-!
# Specification: equal Python values

`Same a b` is Python's `==` on the values that travel in messages: lists are equal
item by item, dicts are equal when they have the same keys with equal values,
whatever the order in which the keys were inserted.
-/
namespace Verif.Spec
open Verif

/-- Equal up to the insertion order of dict keys, at every depth. -/
inductive Same : Val → Val → Prop
  | refl (v : Val) : Same v v
  | list (l m : List Val) :
      l.length = m.length → (∀ (i : Nat) (v w : Val), l[i]? = some v → m[i]? = some w → Same v w) → Same (.list l) (.list m)
  | dict (d e : List (List UInt8 × Val)) :
      (∀ k, k ∈ d.map Prod.fst ↔ k ∈ e.map Prod.fst) →
      (∀ k v w, (k, v) ∈ d → (k, w) ∈ e → Same v w) → Same (.dict d) (.dict e)

/-- The keys of every dict inside the value are different, as in any Python dict. -/
inductive WF : Val → Prop
  | none : WF .none
  | bool (b) : WF (.bool b)
  | int (n) : WF (.int n)
  | float (f) : WF (.float f)
  | str (s) : WF (.str s)
  | bin (s) : WF (.bin s)
  | list (l : List Val) : (∀ v ∈ l, WF v) → WF (.list l)
  | dict (d : List (List UInt8 × Val)) : (d.map Prod.fst).Nodup → (∀ e ∈ d, WF e.2) → WF (.dict d)

/-- No dict anywhere inside the value. -/
inductive NoDict : Val → Prop
  | none : NoDict .none
  | bool (b) : NoDict (.bool b)
  | int (n) : NoDict (.int n)
  | float (f) : NoDict (.float f)
  | str (s) : NoDict (.str s)
  | bin (s) : NoDict (.bin s)
  | list (l : List Val) : (∀ v ∈ l, NoDict v) → NoDict (.list l)

/-- No dict is reached through two lists in a row: a list that is an item of
another list, or that is serialized on its own, holds no dict. -/
inductive Regular : Val → Prop
  | plain (v : Val) : NoDict v → Regular v
  | dict (d : List (List UInt8 × Val)) :
      (∀ e ∈ d, (∀ l, e.2 ≠ .list l) → Regular e.2) →
      (∀ e ∈ d, ∀ l, e.2 = .list l → ∀ v ∈ l, Regular v) → Regular (.dict d)

end Verif.Spec
