import Verif.Model.Did
/-!
# What it means that a message is signed for a DID
-/
namespace Verif.Spec.Did
open Verif Verif.Did

/-- The number that bytes stand for, the first byte counts most. -/
inductive BigEndian : Bytes → Nat → Prop
  | nil : BigEndian [] 0
  | snoc {bs : Bytes} {n : Nat} (b : UInt8) : BigEndian bs n → BigEndian (bs ++ [b]) (256 * n + b.toNat)

/-- The verification key of a DID with a key record: the record is the whole key, or `~` and
the second half of the key whose first half is the DID, or it is empty and the DID is the key. -/
inductive KeyOf (did : Bytes) : (record key : Bytes) → Prop
  | whole {record key : Bytes} : b58decode record = some key → KeyOf did record key
  | half {text a b : Bytes} : b58decode did = some a → b58decode text = some b → KeyOf did (ascii "~" ++ text) (a ++ b)
  | cryptonym {key : Bytes} : b58decode did = some key → KeyOf did [] key

/-- A signature of a message for a key: 64 bytes that pass the check of Ed25519. -/
def Signs (valid : Bytes → Bytes → Bytes → Bool) (key sig msg : Bytes) : Prop :=
  sig.length = 64 ∧ valid key sig msg = true

end Verif.Spec.Did
