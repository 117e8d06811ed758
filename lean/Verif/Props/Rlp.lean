import Verif.Proofs.Rlp
import Verif.Proofs.HexPrefix
/-!
# C09, C10: the encodings of state nodes
-/
namespace Verif.Props
open Verif.Rlp Verif.Trie

/-- **C09.** Decoding the RLP encoding of a nested list of byte strings gives it back, whatever its shape, if each
payload is shorter than 2^64 bytes (longer ones cannot be encoded). -/
theorem rlp_round_trip (x : Item) (hx : fits x = true) : decode (encode x) = some x := decode_encode hx

/-- **C09.** Two different values have different encodings. -/
theorem rlp_injective (x y : Item) (hx : fits x = true) (hy : fits y = true) (h : encode x = encode y) : x = y :=
  encode_inj hx hy h

/-- **C09.** No encoding is a proper prefix of another: it determines where it ends. -/
theorem rlp_prefix_free (x y : Item) (hx : fits x = true) (hy : fits y = true) (rest : Bytes)
    (h : encode x = encode y ++ rest) : rest = [] := by
  obtain ⟨t, l, p, h1, h2⟩ := consume_item hx [] []
  obtain ⟨t', l', p', h3, h4⟩ := consume_item hy [] rest
  simp only [List.nil_append, List.append_nil, List.length_nil, Nat.zero_add] at h1 h2 h3 h4
  rw [h, h3] at h1
  cases h1
  have := congrArg List.length h
  rw [List.length_append] at this
  exact List.length_eq_zero_iff.1 (by omega)

/-- A value with payloads on both sides of the boundary 55/56 and a nested list: it fits, and its encoding is as the
format says. -/
example : fits (.list [.str (List.replicate 55 7), .str (List.replicate 56 7), .list [.str []], .str [5]]) = true ∧
    encode (.str (List.replicate 55 7)) = 183 :: List.replicate 55 7 ∧
    encode (.str (List.replicate 56 7)) = 184 :: 56 :: List.replicate 56 7 ∧
    encode (.list [.list [.str []], .str [5]]) = [195, 193, 128, 5] := by decide +kernel

/-- The statement needs the exact forms: another encoding of the byte 5 decodes to the same value. -/
example : decode [129, 5] = some (.str [5]) ∧ encode (.str [5]) = [5] := ⟨rfl, rfl⟩

/-- **C10.** Packing a path of nibbles, with or without the mark of a leaf, and unpacking gives the same path and mark,
for even and odd lengths. Only the empty path without the mark cannot be packed. -/
theorem path_round_trip (c : List Nat) (hc : ∀ n ∈ c, n < 16) (leaf : Bool) (hne : c ≠ [] ∨ leaf = true) :
    ∃ b, packNibbles (c ++ if leaf then [16] else []) = .ok b ∧
      unpackToNibbles b = .ok (c ++ if leaf then [16] else []) := by
  have e : c ++ (if leaf then [16] else []) = term c leaf := by unfold term; cases leaf <;> simp [terminator]
  rw [e]
  exact ⟨hexPrefix c leaf, pack_term hc hne.symm, unpack_hexPrefix hc leaf⟩

/-- **C10.** So paths that differ, or a leaf and an inner node with the same path, are packed differently. -/
theorem path_injective (c c' : List Nat) (hc : ∀ n ∈ c, n < 16) (hc' : ∀ n ∈ c', n < 16) (l l' : Bool) (b : Bytes)
    (h : packNibbles (c ++ if l then [16] else []) = .ok b) (h' : packNibbles (c' ++ if l' then [16] else []) = .ok b) :
    c = c' ∧ l = l' := by
  have key : ∀ (c : List Nat) (l : Bool), (∀ n ∈ c, n < 16) → packNibbles (c ++ if l then [16] else []) = .ok b →
      b = hexPrefix c l := by
    intro c l hc h
    have hne : l = true ∨ c ≠ [] := by
      cases l with
      | true => exact .inl rfl
      | false =>
        right; rintro rfl
        simp [packNibbles] at h
    have e : c ++ (if l then [16] else []) = term c l := by unfold term; cases l <;> simp [terminator]
    rw [e, pack_term hc hne] at h
    exact (Except.ok.inj h).symm
  have h1 := key c l hc h
  rw [key c' l' hc' h'] at h1
  have := hexPrefix_inj hc' hc h1
  exact ⟨this.1.symm, this.2.symm⟩

/-- **C10.** The nibbles of a key determine it. -/
theorem key_nibbles_injective (a b : Bytes) (h : binToNibbles a = binToNibbles b) : a = b := binToNibbles_inj h

example : packNibbles ([1, 2, 3] ++ [16]) = .ok [0x31, 0x23] ∧ packNibbles [1, 2, 3] = .ok [0x11, 0x23] ∧
    packNibbles ([1, 2] ++ [16]) = .ok [0x20, 0x12] ∧ packNibbles [16] = .ok [0x20] ∧
    packNibbles [] = .error .index := ⟨rfl, rfl, rfl, rfl, rfl⟩

end Verif.Props
