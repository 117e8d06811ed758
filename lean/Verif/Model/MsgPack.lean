import Verif.Model.PyVal
import Verif.Model.Dict
/-!
# Serialization of transactions

`MsgPackSerializer` of common/serializers/msgpack_serializer.py, which produces the
bytes a ledger stores and hashes. The `msgpack` library is modelled from the
published format; `packb` picks the shortest form.
-/
namespace Verif.MsgPack
open Verif

/-- `n` in `w` bytes, most significant first. -/
def be : Nat → Nat → Bytes
  | 0, _ => []
  | w + 1, n => be w (n / 256) ++ [UInt8.ofNat n]

/-- The number written most significant byte first. -/
def ofBe (b : Bytes) : Nat := b.foldl (fun a x => a * 256 + x.toNat) 0

/-- What the first bytes of a msgpack item say. -/
inductive Head where
  | nil
  | bool (b : Bool)
  | int (n : Int)
  | float (f : UInt64)
  | str (n : Nat)
  | bin (n : Nat)
  | array (n : Nat)
  | map (n : Nat)
deriving Repr, DecidableEq

/-- `OverflowError` of an integer beyond 64 bits, `ValueError` of an object that is
too large. -/
inductive Err where
  | overflow
  | tooLarge
  | malformed
deriving Repr, DecidableEq

/-- First bytes of an item (msgpack format). -/
def putHead : Head → Except Err Bytes
  | .nil => .ok [0xc0]
  | .bool false => .ok [0xc2]
  | .bool true => .ok [0xc3]
  | .int (.ofNat n) =>
    if n < 2 ^ 7 then .ok [UInt8.ofNat n]
    else if n < 2 ^ 8 then .ok (0xcc :: be 1 n)
    else if n < 2 ^ 16 then .ok (0xcd :: be 2 n)
    else if n < 2 ^ 32 then .ok (0xce :: be 4 n)
    else if n < 2 ^ 64 then .ok (0xcf :: be 8 n)
    else .error .overflow
  | .int (.negSucc n) =>
    if n < 2 ^ 5 then .ok [UInt8.ofNat (255 - n)]
    else if n < 2 ^ 7 then .ok (0xd0 :: be 1 (2 ^ 8 - 1 - n))
    else if n < 2 ^ 15 then .ok (0xd1 :: be 2 (2 ^ 16 - 1 - n))
    else if n < 2 ^ 31 then .ok (0xd2 :: be 4 (2 ^ 32 - 1 - n))
    else if n < 2 ^ 63 then .ok (0xd3 :: be 8 (2 ^ 64 - 1 - n))
    else .error .overflow
  | .float f => .ok (0xcb :: be 8 f.toNat)
  | .str n =>
    if n < 32 then .ok [UInt8.ofNat (0xa0 + n)]
    else if n < 2 ^ 8 then .ok (0xd9 :: be 1 n)
    else if n < 2 ^ 16 then .ok (0xda :: be 2 n)
    else if n < 2 ^ 32 then .ok (0xdb :: be 4 n)
    else .error .tooLarge
  | .bin n =>
    if n < 2 ^ 8 then .ok (0xc4 :: be 1 n)
    else if n < 2 ^ 16 then .ok (0xc5 :: be 2 n)
    else if n < 2 ^ 32 then .ok (0xc6 :: be 4 n)
    else .error .tooLarge
  | .array n =>
    if n < 16 then .ok [UInt8.ofNat (0x90 + n)]
    else if n < 2 ^ 16 then .ok (0xdc :: be 2 n)
    else if n < 2 ^ 32 then .ok (0xdd :: be 4 n)
    else .error .tooLarge
  | .map n =>
    if n < 16 then .ok [UInt8.ofNat (0x80 + n)]
    else if n < 2 ^ 16 then .ok (0xde :: be 2 n)
    else if n < 2 ^ 32 then .ok (0xdf :: be 4 n)
    else .error .tooLarge

/-- `w` bytes as a number, and what follows. -/
def num (w : Nat) (b : Bytes) : Option (Nat × Bytes) :=
  if b.length < w then none else some (ofBe (b.take w), b.drop w)

/-- A number of `w` bytes in two's complement. -/
def signed (w n : Nat) : Int := if n < 2 ^ (8 * w - 1) then n else (n : Int) - 2 ^ (8 * w)

/-- Reading the first bytes of an item (msgpack format). Extension types are not
modelled: no code of the repository writes them. -/
def getHead : Bytes → Option (Head × Bytes)
  | [] => none
  | x :: r =>
    let b := x.toNat
    if b < 0x80 then some (.int b, r)
    else if b < 0x90 then some (.map (b - 0x80), r)
    else if b < 0xa0 then some (.array (b - 0x90), r)
    else if b < 0xc0 then some (.str (b - 0xa0), r)
    else if b = 0xc0 then some (.nil, r)
    else if b = 0xc2 then some (.bool false, r)
    else if b = 0xc3 then some (.bool true, r)
    else if b = 0xc4 then (num 1 r).map (fun p => (.bin p.1, p.2))
    else if b = 0xc5 then (num 2 r).map (fun p => (.bin p.1, p.2))
    else if b = 0xc6 then (num 4 r).map (fun p => (.bin p.1, p.2))
    else if b = 0xcb then (num 8 r).map (fun p => (.float (UInt64.ofNat p.1), p.2))
    else if b = 0xcc then (num 1 r).map (fun p => (.int p.1, p.2))
    else if b = 0xcd then (num 2 r).map (fun p => (.int p.1, p.2))
    else if b = 0xce then (num 4 r).map (fun p => (.int p.1, p.2))
    else if b = 0xcf then (num 8 r).map (fun p => (.int p.1, p.2))
    else if b = 0xd0 then (num 1 r).map (fun p => (.int (signed 1 p.1), p.2))
    else if b = 0xd1 then (num 2 r).map (fun p => (.int (signed 2 p.1), p.2))
    else if b = 0xd2 then (num 4 r).map (fun p => (.int (signed 4 p.1), p.2))
    else if b = 0xd3 then (num 8 r).map (fun p => (.int (signed 8 p.1), p.2))
    else if b = 0xd9 then (num 1 r).map (fun p => (.str p.1, p.2))
    else if b = 0xda then (num 2 r).map (fun p => (.str p.1, p.2))
    else if b = 0xdb then (num 4 r).map (fun p => (.str p.1, p.2))
    else if b = 0xdc then (num 2 r).map (fun p => (.array p.1, p.2))
    else if b = 0xdd then (num 4 r).map (fun p => (.array p.1, p.2))
    else if b = 0xde then (num 2 r).map (fun p => (.map p.1, p.2))
    else if b = 0xdf then (num 4 r).map (fun p => (.map p.1, p.2))
    else if b < 0xe0 then none
    else some (.int ((b : Int) - 256), r)

/-- Two encodings one after the other. -/
def cat (a b : Except Err Bytes) : Except Err Bytes :=
  match a, b with
  | .ok x, .ok y => .ok (x ++ y)
  | .error e, _ => .error e
  | _, .error e => .error e

mutual
/-- `msgpack.packb(data, use_bin_type=True)`,
used at common/serializers/msgpack_serializer.py:27. -/
def packb : Val → Except Err Bytes
  | .none => putHead .nil
  | .bool b => putHead (.bool b)
  | .int n => putHead (.int n)
  | .float f => putHead (.float f)
  | .str s => cat (putHead (.str s.length)) (.ok s)
  | .bin s => cat (putHead (.bin s.length)) (.ok s)
  | .list l => cat (putHead (.array l.length)) (packList l)
  | .dict d => cat (putHead (.map d.length)) (packDict d)
/-- The items of a list, in order. -/
def packList : List Val → Except Err Bytes
  | [] => .ok []
  | v :: r => cat (packb v) (packList r)
/-- The items of a dict, in iteration order. -/
def packDict : List (Bytes × Val) → Except Err Bytes
  | [] => .ok []
  | (k, v) :: r => cat (cat (cat (putHead (.str k.length)) (.ok k)) (packb v)) (packDict r)
end

/-- `n` raw bytes. -/
def takeRaw (n : Nat) (b : Bytes) : Option (Bytes × Bytes) :=
  if b.length < n then none else some (b.take n, b.drop n)

/-- A text key of a map. Byte-string keys, which `unpackb` would accept too, are not
modelled. -/
def takeKey (b : Bytes) : Option (Bytes × Bytes) :=
  match getHead b with
  | some (.str n, r) => takeRaw n r
  | _ => none

mutual
/-- One item of `msgpack.unpackb`. The fuel bounds the recursion; twice the
length of the input is enough. A text that is not UTF-8 would be refused; texts are bytes here. -/
def unpackItem : Nat → Bytes → Option (Val × Bytes)
  | 0, _ => none
  | f + 1, b =>
    match getHead b with
    | some (.nil, r) => some (.none, r)
    | some (.bool x, r) => some (.bool x, r)
    | some (.int n, r) => some (.int n, r)
    | some (.float x, r) => some (.float x, r)
    | some (.str n, r) => (takeRaw n r).map (fun p => (.str p.1, p.2))
    | some (.bin n, r) => (takeRaw n r).map (fun p => (.bin p.1, p.2))
    | some (.array n, r) => (unpackList f n r).map (fun p => (.list p.1, p.2))
    | some (.map n, r) => (unpackDict f n r).map (fun p => (.dict (decodeToSorted p.1), p.2))
    | none => none
/-- The items of an array. -/
def unpackList : Nat → Nat → Bytes → Option (List Val × Bytes)
  | _, 0, b => some ([], b)
  | 0, _ + 1, _ => none
  | f + 1, n + 1, b =>
    match unpackItem f b with
    | none => none
    | some (v, r) => (unpackList f n r).map (fun p => (v :: p.1, p.2))
/-- The pairs of a map. -/
def unpackDict : Nat → Nat → Bytes → Option (List (Bytes × Val) × Bytes)
  | _, 0, b => some ([], b)
  | 0, _ + 1, _ => none
  | f + 1, n + 1, b =>
    match takeKey b with
    | none => none
    | some (k, r) =>
      match unpackItem f r with
      | none => none
      | some (v, r') => (unpackDict f n r').map (fun p => ((k, v) :: p.1, p.2))
/-- `OrderedDict(obj)`, common/serializers/msgpack_serializer.py:9-10,
`decode_to_sorted`: a repeated key keeps its place and takes the last value. -/
def decodeToSorted (l : List (Bytes × Val)) : List (Bytes × Val) :=
  l.foldl (fun d e => Dict.set d e.1 e.2) []
end

/-- `msgpack.unpackb(data, raw=False, object_pairs_hook=decode_to_sorted)`: one item
and nothing after it. -/
def unpackb (b : Bytes) : Except Err Val :=
  match unpackItem (2 * b.length + 2) b with
  | some (v, []) => .ok v
  | _ => .error .malformed

mutual
/-- common/serializers/msgpack_serializer.py:44-53, `_sort_dict`. The values are
sorted before the items are put in order of their keys; the order of the two makes
no difference, since the keys do not change. -/
def sortDict : Val → Val
  | .dict d => .dict (sortItems (sortFields d))
  | v => v
/-- Body of the loop of `_sort_dict`, common/serializers/msgpack_serializer.py:48-52. -/
def sortField : Val → Val
  | .dict d => .dict (sortItems (sortFields d))
  | .list l => .list (sortAll l)
  | v => v
/-- The loop over the items of a dict. -/
def sortFields : List (Bytes × Val) → List (Bytes × Val)
  | [] => []
  | (k, v) :: r => (k, sortField v) :: sortFields r
/-- `[self._sort_dict(sub_v) for sub_v in v]`. -/
def sortAll : List Val → List Val
  | [] => []
  | v :: r => sortDict v :: sortAll r
end

/-- common/serializers/msgpack_serializer.py:19-27, `serialize`: `_sort_dict` leaves
what is not a dict alone. -/
def serialize (data : Val) : Except Err Bytes := packb (sortDict data)

/-- common/serializers/msgpack_serializer.py:29-38, `deserialize`, of bytes. -/
def deserialize (b : Bytes) : Except Err Val := unpackb b

end Verif.MsgPack
