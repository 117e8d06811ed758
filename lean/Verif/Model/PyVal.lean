import Verif.Spec.Merkle
import Verif.Model.KvStore
/-!
# Python values that travel in messages and transactions

What `json` and `msgpack` deliver: `None`, booleans, integers, floats, texts, byte
strings, lists and dicts with text keys. A text is given by its UTF-8 bytes. UTF-8
is injective, keeps concatenation, and the order of texts by code points is the
order of their bytes, so nothing the code does with texts is lost. A float is given
by its 64 bits.
-/
namespace Verif

/-- The values `SigningSerializer` and `MsgPackSerializer` are given:
common/serializers/signing_serializer.py: `acceptableTypes`, and byte strings,
which only msgpack accepts. A dict is the list of its items in insertion order;
`Val.WF` says that its keys are different. -/
inductive Val where
  | none
  | bool (b : Bool)
  | int (n : Int)
  | float (bits : UInt64)
  | str (s : List UInt8)
  | bin (s : List UInt8)
  | list (l : List Val)
  | dict (d : List (List UInt8 × Val))
deriving Repr, Inhabited

namespace Val

mutual
/-- Equality test, for computing on literals. -/
def beq : Val → Val → Bool
  | .none, .none => true
  | .bool a, .bool b => a == b
  | .int a, .int b => a == b
  | .float a, .float b => a == b
  | .str a, .str b => a == b
  | .bin a, .bin b => a == b
  | .list a, .list b => beqList a b
  | .dict a, .dict b => beqDict a b
  | _, _ => false
def beqList : List Val → List Val → Bool
  | [], [] => true
  | a :: s, b :: t => beq a b && beqList s t
  | _, _ => false
def beqDict : List (List UInt8 × Val) → List (List UInt8 × Val) → Bool
  | [], [] => true
  | (k, a) :: s, (l, b) :: t => k == l && beq a b && beqDict s t
  | _, _ => false
end

mutual
theorem beq_iff : ∀ a b : Val, beq a b = true ↔ a = b
  | .none, b => by cases b <;> simp [beq]
  | .bool _, b => by cases b <;> simp [beq]
  | .int _, b => by cases b <;> simp [beq]
  | .float _, b => by cases b <;> simp [beq]
  | .str _, b => by cases b <;> simp [beq]
  | .bin _, b => by cases b <;> simp [beq]
  | .list l, b => by
    cases b <;> simp [beq]
    exact beqList_iff l _
  | .dict d, b => by
    cases b <;> simp [beq]
    exact beqDict_iff d _
theorem beqList_iff : ∀ a b : List Val, beqList a b = true ↔ a = b
  | [], [] => by simp [beqList]
  | [], _ :: _ => by simp [beqList]
  | _ :: _, [] => by simp [beqList]
  | a :: s, b :: t => by simp [beqList, beq_iff a b, beqList_iff s t]
theorem beqDict_iff : ∀ a b : List (List UInt8 × Val), beqDict a b = true ↔ a = b
  | [], [] => by simp [beqDict]
  | [], _ :: _ => by simp [beqDict]
  | _ :: _, [] => by simp [beqDict]
  | (k, a) :: s, (l, b) :: t => by simp [beqDict, beq_iff a b, beqDict_iff s t]
end

instance : DecidableEq Val := fun a b => decidable_of_iff _ (beq_iff a b)

end Val

/-- `sorted(d.items())`, used at common/serializers/msgpack_serializer.py:47, and
`keys.sort()`, common/serializers/signing_serializer.py:69. The keys of a dict are
different, so the values are never compared. -/
def sortItems {α : Type} : List (List UInt8 × α) → List (List UInt8 × α)
  | [] => []
  | (k, v) :: r => Kv.put Kv.bytewise k v (sortItems r)

/-- The UTF-8 bytes of an ASCII text. -/
def ascii (s : String) : List UInt8 := s.toList.map (fun c => UInt8.ofNat c.toNat)

end Verif
