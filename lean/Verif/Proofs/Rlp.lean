import Verif.Model.Rlp
/-!
# Decoding inverts encoding
-/
namespace Verif.Rlp

/-! ## Numbers -/

theorem toBE_zero : toBE 0 = [] := by unfold toBE; simp

theorem toBE_pos {n : Nat} (h : n ≠ 0) : toBE n = toBE (n / 256) ++ [UInt8.ofNat (n % 256)] := by
  rw [toBE, if_neg h]

theorem ofBE_snoc (b : Bytes) (x : UInt8) : ofBE (b ++ [x]) = ofBE b * 256 + x.toNat := by
  simp [ofBE, List.foldl_append]

theorem ofBE_toBE (n : Nat) : ofBE (toBE n) = n := by
  induction n using Nat.strongRecOn with
  | _ n ih =>
    by_cases h : n = 0
    · subst h; rw [toBE_zero]; rfl
    · rw [toBE_pos h, ofBE_snoc, ih (n / 256) (by omega)]
      simp only [UInt8.toNat_ofNat']
      omega

theorem toBE_length_le (k : Nat) : ∀ n, n < 256 ^ k → (toBE n).length ≤ k := by
  induction k with
  | zero => intro n h; have : n = 0 := by simpa using h
            subst this; rw [toBE_zero]; simp
  | succ k ih =>
    intro n h
    by_cases h0 : n = 0
    · subst h0; rw [toBE_zero]; simp
    · rw [toBE_pos h0, List.length_append]
      have := ih (n / 256) (by rw [Nat.pow_succ] at h; omega)
      simp only [List.length_singleton]; omega

theorem toBE_length_pos {n : Nat} (h : n ≠ 0) : 0 < (toBE n).length := by
  rw [toBE_pos h, List.length_append]; simp

theorem lengthPrefix_length {n off : Nat} : 0 < (lengthPrefix n off).length := by
  unfold lengthPrefix; split <;> simp

/-! ## Reading a prefix in the middle of a string -/

theorem get_mid (pre : Bytes) (x : UInt8) (post : Bytes) : (pre ++ x :: post)[pre.length]? = some x := by simp

theorem slice_mid (pre m post : Bytes) : slice (pre ++ (m ++ post)) pre.length (pre.length + m.length) = m := by
  unfold slice
  rw [← List.append_assoc, List.take_append_of_le_length (by simp), List.take_of_length_le (by simp)]
  simp

theorem ofNat_toNat {n : Nat} (h : n < 256) : (UInt8.ofNat n).toNat = n := by
  simp only [UInt8.toNat_ofNat']; omega

/-- Reading the prefix of a string payload. -/
theorem consume_str {n : Nat} (hn : n < 2 ^ 64) (pre post : Bytes) :
    consumeLengthPrefix (pre ++ (lengthPrefix n 128 ++ post)) pre.length =
      some (false, n, pre.length + (lengthPrefix n 128).length) := by
  unfold lengthPrefix
  split
  · next h =>
    unfold consumeLengthPrefix
    simp only [List.singleton_append, get_mid, ofNat_toNat (show 128 + n < 256 by omega), List.length_singleton]
    rw [if_neg (by omega), if_pos (by omega)]
    rw [Nat.add_sub_cancel_left]
  · next h =>
    have hl : (toBE n).length ≤ 8 := toBE_length_le 8 n (by simpa using hn)
    have hp : 0 < (toBE n).length := toBE_length_pos (by omega)
    unfold consumeLengthPrefix
    simp only [List.cons_append, get_mid, ofNat_toNat (show 128 + 56 - 1 + (toBE n).length < 256 by omega),
      List.length_cons]
    rw [if_neg (by omega), if_neg (by omega), if_pos (by omega)]
    have e : 128 + 56 - 1 + (toBE n).length - 128 - 56 + 1 = (toBE n).length := by omega
    rw [e]
    have := slice_mid (pre ++ [UInt8.ofNat (128 + 56 - 1 + (toBE n).length)]) (toBE n) post
    simp only [List.append_assoc, List.singleton_append, List.length_append, List.length_singleton] at this
    rw [this, ofBE_toBE]
    rw [show pre.length + ((toBE n).length + 1) = pre.length + 1 + (toBE n).length by omega]

/-- Reading the prefix of a list payload. -/
theorem consume_list {n : Nat} (hn : n < 2 ^ 64) (pre post : Bytes) :
    consumeLengthPrefix (pre ++ (lengthPrefix n 192 ++ post)) pre.length =
      some (true, n, pre.length + (lengthPrefix n 192).length) := by
  unfold lengthPrefix
  split
  · next h =>
    unfold consumeLengthPrefix
    simp only [List.singleton_append, get_mid, ofNat_toNat (show 192 + n < 256 by omega), List.length_singleton]
    rw [if_neg (by omega), if_neg (by omega), if_neg (by omega), if_pos (by omega)]
    rw [Nat.add_sub_cancel_left]
  · next h =>
    have hl : (toBE n).length ≤ 8 := toBE_length_le 8 n (by simpa using hn)
    have hp : 0 < (toBE n).length := toBE_length_pos (by omega)
    unfold consumeLengthPrefix
    simp only [List.cons_append, get_mid, ofNat_toNat (show 192 + 56 - 1 + (toBE n).length < 256 by omega),
      List.length_cons]
    rw [if_neg (by omega), if_neg (by omega), if_neg (by omega), if_neg (by omega)]
    have e : 192 + 56 - 1 + (toBE n).length - 192 - 56 + 1 = (toBE n).length := by omega
    rw [e]
    have := slice_mid (pre ++ [UInt8.ofNat (192 + 56 - 1 + (toBE n).length)]) (toBE n) post
    simp only [List.append_assoc, List.singleton_append, List.length_append, List.length_singleton] at this
    rw [this, ofBE_toBE]
    rw [show pre.length + ((toBE n).length + 1) = pre.length + 1 + (toBE n).length by omega]

/-- A one-byte string below 128 is its own prefix. -/
theorem consume_byte {x : UInt8} (h : x.toNat < 128) (pre post : Bytes) :
    consumeLengthPrefix (pre ++ (x :: post)) pre.length = some (false, 1, pre.length) := by
  unfold consumeLengthPrefix
  simp [h]

/-! ## Whole items -/

/-- The encoding of a string: either the byte itself or a prefix and the bytes. -/
theorem encode_str (b : Bytes) :
    (∃ x : UInt8, x.toNat < 128 ∧ b = [x] ∧ encode (.str b) = [x]) ∨
    encode (.str b) = lengthPrefix b.length 128 ++ b := by
  unfold encode
  match b with
  | [] => exact .inr rfl
  | [x] =>
    simp only
    split
    · next h => exact .inl ⟨x, h, rfl, rfl⟩
    · exact .inr rfl
  | x :: y :: l => exact .inr rfl

theorem encode_pos (x : Item) : 0 < (encode x).length := by
  cases x with
  | str b =>
    rcases encode_str b with ⟨y, -, -, e⟩ | e
    · rw [e]; simp
    · rw [e, List.length_append]; have := @lengthPrefix_length b.length 128; omega
  | list xs =>
    unfold encode
    rw [List.length_append]
    have := @lengthPrefix_length (encodeAll xs).length 192; omega

/-- Reading the prefix of an encoded item anywhere in a string finds where it ends. -/
theorem consume_item {x : Item} (hx : fits x = true) (pre post : Bytes) :
    ∃ t l p, consumeLengthPrefix (pre ++ (encode x ++ post)) pre.length = some (t, l, p) ∧
      l + p = pre.length + (encode x).length := by
  cases x with
  | str b =>
    rcases encode_str b with ⟨y, hy, -, e⟩ | e
    · exact ⟨_, _, _, by rw [e]; exact consume_byte hy pre post, by rw [e]; simp; omega⟩
    · have hb : b.length < 2 ^ 64 := by simpa [fits] using hx
      refine ⟨_, _, _, by rw [e, List.append_assoc]; exact consume_str hb pre (b ++ post), ?_⟩
      rw [e, List.length_append]; omega
  | list xs =>
    have hb : (encodeAll xs).length < 2 ^ 64 := by
      simp only [fits, Bool.and_eq_true, decide_eq_true_eq] at hx; exact hx.1
    refine ⟨_, _, _, by unfold encode; rw [List.append_assoc]; exact consume_list hb pre _, ?_⟩
    unfold encode
    rw [List.length_append]; omega

mutual
theorem decodeAux_encode : ∀ (x : Item), fits x = true → ∀ f, 2 * (encode x).length ≤ f →
    decodeAux f (encode x) = some x
  | .str b, hx, f, hf => by
    have hp := encode_pos (.str b)
    obtain ⟨f, rfl⟩ : ∃ g, f = g + 1 := ⟨f - 1, by omega⟩
    have hb : b.length < 2 ^ 64 := by simpa [fits] using hx
    unfold decodeAux
    rcases encode_str b with ⟨y, hy, rfl, e⟩ | e
    · rw [e]
      have := consume_byte hy [] []
      simp only [List.nil_append, List.length_nil] at this
      rw [this]
      simp [slice]
    · rw [e]
      have := consume_str hb [] b
      simp only [List.nil_append, List.length_nil] at this
      rw [this]
      have h2 := slice_mid (lengthPrefix b.length 128) b []
      simp only [List.append_nil] at h2
      simp only [Nat.zero_add, h2]
  | .list xs, hx, f, hf => by
    have hp := encode_pos (.list xs)
    obtain ⟨f, rfl⟩ : ∃ g, f = g + 1 := ⟨f - 1, by omega⟩
    simp only [fits, Bool.and_eq_true, decide_eq_true_eq] at hx
    unfold decodeAux
    have e : encode (.list xs) = lengthPrefix (encodeAll xs).length 192 ++ encodeAll xs := by rw [encode]
    rw [e] at hf ⊢
    have := consume_list hx.1 [] (encodeAll xs)
    simp only [List.nil_append, List.length_nil] at this
    rw [this]
    have hl := @lengthPrefix_length (encodeAll xs).length 192
    rw [List.length_append] at hf
    simp only [Nat.zero_add]
    rw [decodeLoop_encode xs hx.2 _ f (by omega)]
    rfl
theorem decodeLoop_encode : ∀ (xs : List Item), fitsAll xs = true → ∀ (pre : Bytes) f,
    2 * (encodeAll xs).length + 1 ≤ f → decodeLoop f (pre ++ encodeAll xs) pre.length = some xs
  | [], _, pre, f, hf => by
    obtain ⟨f, rfl⟩ : ∃ g, f = g + 1 := ⟨f - 1, by omega⟩
    unfold decodeLoop
    simp [encodeAll]
  | x :: xs, hx, pre, f, hf => by
    obtain ⟨f, rfl⟩ : ∃ g, f = g + 1 := ⟨f - 1, by omega⟩
    simp only [fitsAll, Bool.and_eq_true] at hx
    have hp := encode_pos x
    unfold decodeLoop
    simp only [encodeAll, List.length_append] at hf ⊢
    rw [if_pos (by omega)]
    obtain ⟨t, l, p, e1, e2⟩ := consume_item hx.1 pre (encodeAll xs)
    rw [e1]
    simp only [e2, slice_mid]
    have h1 := decodeAux_encode x hx.1 f (by omega)
    have h2 := decodeLoop_encode xs hx.2 (pre ++ encode x) f (by omega)
    rw [List.append_assoc, List.length_append] at h2
    rw [h1, h2]
end

theorem decode_encode {x : Item} (hx : fits x = true) : decode (encode x) = some x :=
  decodeAux_encode x hx _ (by omega)

theorem encode_inj {x y : Item} (hx : fits x = true) (hy : fits y = true) (h : encode x = encode y) : x = y := by
  have := decode_encode hx
  rw [h, decode_encode hy] at this
  exact (Option.some.inj this).symm

end Verif.Rlp
