import Verif.Spec.PyVal
/-!
# Specification: values whose signing bytes can be told apart
-/
namespace Verif.Spec
open Verif

/-- A text without the three characters `,` `:` `|`. -/
def PlainText (s : List UInt8) : Prop := ∀ c ∈ s, c ≠ 44 ∧ c ≠ 58 ∧ c ≠ 124

/-- Made of `None`, booleans, integers, texts, lists and dicts; no text or key holds
one of `,` `:` `|`. -/
inductive Plain : Val → Prop
  | none : Plain .none
  | bool (b) : Plain (.bool b)
  | int (n) : Plain (.int n)
  | str (s) : PlainText s → Plain (.str s)
  | list (l : List Val) : (∀ v ∈ l, Plain v) → Plain (.list l)
  | dict (d : List (List UInt8 × Val)) : (∀ e ∈ d, PlainText e.1) → (∀ e ∈ d, Plain e.2) → Plain (.dict d)

/-- The same types, list lengths and dict keys at every place. -/
inductive SameShape : Val → Val → Prop
  | none : SameShape .none .none
  | bool (a b) : SameShape (.bool a) (.bool b)
  | int (a b) : SameShape (.int a) (.int b)
  | str (a b) : SameShape (.str a) (.str b)
  | list (l m : List Val) :
      l.length = m.length → (∀ (i : Nat) (v w : Val), l[i]? = some v → m[i]? = some w → SameShape v w) →
      SameShape (.list l) (.list m)
  | dict (d e : List (List UInt8 × Val)) :
      (∀ k, k ∈ d.map Prod.fst ↔ k ∈ e.map Prod.fst) →
      (∀ k v w, (k, v) ∈ d → (k, w) ∈ e → SameShape v w) → SameShape (.dict d) (.dict e)

end Verif.Spec
