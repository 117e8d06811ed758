import Verif.Model.PyVal
/-!
# Messages that end the process

The JSON values that, received by a node, raise where nothing catches. Written without
the model: about the JSON value alone.
-/
namespace Verif.Entry.Spec

open Verif (Val ascii)

/-- A JSON value that counts as false in Python. -/
def Falsy (v : Val) : Prop :=
  v = .none ∨ v = .bool false ∨ v = .int 0 ∨ v = .float 0 ∨ v = .float 0x8000000000000000 ∨
  v = .str [] ∨ v = .bin [] ∨ v = .list [] ∨ v = .dict []

/-- The value of a field of a JSON object: the first item with that key. -/
def Field (d : List (List UInt8 × Val)) (k : List UInt8) (v : Val) : Prop :=
  ∃ a b, d = a ++ (k, v) :: b ∧ ∀ e ∈ a, e.1 ≠ k

/-- The object has no such field. -/
def NoField (d : List (List UInt8 × Val)) (k : List UInt8) : Prop := ∀ e ∈ d, e.1 ≠ k

/-- A number, `true`, `false` or `null`; a text with "op" in it; an array with the element
"op". -/
def NoObject (v : Val) : Prop :=
  match v with
  | .dict _ => False
  | .str s => ∃ a b, s = a ++ ascii "op" ++ b
  | .list l => Val.str (ascii "op") ∈ l
  | _ => True

/-- An object with no identifier and with signatures that are neither empty nor an
object. -/
def BadSigs (d : List (List UInt8 × Val)) : Prop :=
  (NoField d (ascii "identifier") ∨ ∃ v, Field d (ascii "identifier") v ∧ Falsy v) ∧
  ∃ v, Field d (ascii "signatures") v ∧ ¬ Falsy v ∧ ∀ e, v ≠ .dict e

end Verif.Entry.Spec
