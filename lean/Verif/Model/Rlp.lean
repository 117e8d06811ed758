import Verif.Spec.Merkle
/-!
# RLP encoding

`state/util/fast_rlp.py`: nested lists of byte strings to byte strings and back.
-/
namespace Verif.Rlp

/-- A nested list of byte strings: what RLP encodes. -/
inductive Item
  | str (b : Bytes)
  | list (xs : List Item)
  deriving Repr

mutual
/-- Equality of values can be decided. -/
def decEqItem : (x y : Item) → Decidable (x = y)
  | .str a, .str b => if h : a = b then isTrue (by rw [h]) else isFalse (by intro e; cases e; exact h rfl)
  | .str _, .list _ => isFalse (by intro e; cases e)
  | .list _, .str _ => isFalse (by intro e; cases e)
  | .list xs, .list ys => match decEqItems xs ys with
    | isTrue h => isTrue (by rw [h])
    | isFalse h => isFalse (by intro e; cases e; exact h rfl)

/-- The same for lists. -/
def decEqItems : (xs ys : List Item) → Decidable (xs = ys)
  | [], [] => isTrue rfl
  | [], _ :: _ => isFalse (by intro e; cases e)
  | _ :: _, [] => isFalse (by intro e; cases e)
  | x :: xs, y :: ys => match decEqItem x y, decEqItems xs ys with
    | isTrue h, isTrue h' => isTrue (by rw [h, h'])
    | isFalse h, _ => isFalse (by intro e; cases e; exact h rfl)
    | _, isFalse h => isFalse (by intro e; cases e; exact h rfl)
end

instance : DecidableEq Item := decEqItem

/-- `int_to_big_endian`: the bytes of a positive number, most significant first, no leading zero.
Models state/util/utils.py:46-47, `int_to_big_endian`. -/
def toBE (n : Nat) : Bytes :=
  if n = 0 then [] else toBE (n / 256) ++ [UInt8.ofNat (n % 256)]

/-- The number written in big-endian bytes; leading zeros, which the code strips first, do not matter.
Models state/util/utils.py:41-43, `big_endian_to_int`. -/
def ofBE (b : Bytes) : Nat := b.foldl (fun n x => n * 256 + x.toNat) 0

/-- Models state/util/fast_rlp.py:20-31, `length_prefix`. -/
def lengthPrefix (length offset : Nat) : Bytes :=
  if length < 56 then [UInt8.ofNat (offset + length)]
  else UInt8.ofNat (offset + 56 - 1 + (toBE length).length) :: toBE length

mutual
/-- The encoder. Under Python 3 the name `encode_optimized` is bound to `rlp.codec.encode_raw` of the `rlp` library,
which does what this function of the repository says. The library refuses payloads of 2^64 bytes or more:
see `Fits`. Models state/util/fast_rlp.py:8-17, `_encode_optimized`. -/
def encode : Item → Bytes
  | .str b =>
    match b with
    | [x] => if x.toNat < 128 then [x] else lengthPrefix 1 128 ++ [x]
    | _ => lengthPrefix b.length 128 ++ b
  | .list xs => lengthPrefix (encodeAll xs).length 192 ++ encodeAll xs
/-- `b''.join([_encode_optimized(x) for x in item])`. Models state/util/fast_rlp.py:15. -/
def encodeAll : List Item → Bytes
  | [] => []
  | x :: xs => encode x ++ encodeAll xs
end

mutual
/-- The library's limit: every payload in the value is shorter than 2^64 bytes. Models state/util/fast_rlp.py:79. -/
def fits : Item → Bool
  | .str b => b.length < 2 ^ 64
  | .list xs => (encodeAll xs).length < 2 ^ 64 && fitsAll xs
/-- `fits` of each element. Models state/util/fast_rlp.py:79. -/
def fitsAll : List Item → Bool
  | [] => true
  | x :: xs => fits x && fitsAll xs
end

/-- `rlp[a:b]`. -/
def slice (rlp : Bytes) (a b : Nat) : Bytes := (rlp.take b).drop a

/-- The answer is (is it a list, payload length, payload start); `none` is the `IndexError` of reading past the end.
Models state/util/fast_rlp.py:47-71, `consume_length_prefix`. -/
def consumeLengthPrefix (rlp : Bytes) (start : Nat) : Option (Bool × Nat × Nat) :=
  match rlp[start]? with
  | none => none
  | some b0 =>
    let b0 := b0.toNat
    if b0 < 128 then some (false, 1, start)
    else if b0 < 128 + 56 then some (false, b0 - 128, start + 1)
    else if b0 < 192 then
      let ll := b0 - 128 - 56 + 1
      some (false, ofBE (slice rlp (start + 1) (start + 1 + ll)), start + 1 + ll)
    else if b0 < 192 + 56 then some (true, b0 - 192, start + 1)
    else
      let ll := b0 - 192 - 56 + 1
      some (true, ofBE (slice rlp (start + 1) (start + 1 + ll)), start + 1 + ll)

mutual
/-- The decoder. The recursion is bounded by the first argument; `decode` gives enough of it: each call is on a
shorter string. Models state/util/fast_rlp.py:34-44, `_decode_optimized`. -/
def decodeAux : Nat → Bytes → Option Item
  | 0, _ => none
  | f + 1, rlp =>
    match consumeLengthPrefix rlp 0 with
    | none => none
    | some (false, len, pos) => some (.str (slice rlp pos (pos + len)))
    | some (true, _, pos) => (decodeLoop f rlp pos).map .list
/-- The `while` loop: reads items to the end of the string, whatever length the list announced.
Models state/util/fast_rlp.py:40-43, `_decode_optimized`. -/
def decodeLoop : Nat → Bytes → Nat → Option (List Item)
  | 0, _, _ => none
  | f + 1, rlp, pos =>
    if pos < rlp.length then
      match consumeLengthPrefix rlp pos with
      | none => none
      | some (_, l, p) =>
        match decodeAux f (slice rlp pos (l + p)), decodeLoop f rlp (l + p) with
        | some x, some xs => some (x :: xs)
        | _, _ => none
    else some []
end

/-- Models state/util/fast_rlp.py:34-44, `_decode_optimized`. The library's `rlp.decode`, used for the nodes read from
the store, is modelled by the same function: the store holds only results of `encode`, on which both return what was
encoded. -/
def decode (rlp : Bytes) : Option Item := decodeAux (2 * rlp.length + 1) rlp

end Verif.Rlp
