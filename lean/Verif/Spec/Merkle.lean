/-!
# Specification: RFC 6962 Merkle tree heads

Independent of the model. `Bytes` are lists of octets. A hash function is an
arbitrary function `H : Bytes → Bytes`; nothing is assumed about it here.
-/
namespace Verif

/-- Byte strings. -/
abbrev Bytes := List UInt8

namespace Spec

/-- RFC 6962 section 2.1, leaf hash: `H(0x00 || d)`. -/
def leafInput (d : Bytes) : Bytes := 0 :: d

/-- RFC 6962 section 2.1, interior node hash input: `0x01 || left || right`. -/
def nodeInput (l r : Bytes) : Bytes := 1 :: (l ++ r)

/-- The largest power of two strictly smaller than `n` (for `n ≥ 2`). -/
def splitPoint (n : Nat) : Nat := 2 ^ Nat.log2 (n - 1)

theorem splitPoint_pos (n : Nat) : 0 < splitPoint n := Nat.two_pow_pos _

theorem splitPoint_lt {n : Nat} (h : 2 ≤ n) : splitPoint n < n := by
  have : 2 ^ Nat.log2 (n - 1) ≤ n - 1 := Nat.log2_self_le (by omega)
  unfold splitPoint; omega

theorem le_two_splitPoint {n : Nat} : n ≤ 2 * splitPoint n := by
  unfold splitPoint
  have := @Nat.lt_log2_self (n - 1)
  rw [Nat.pow_succ] at this
  omega

/-- RFC 6962 section 2.1: the Merkle Tree Hash of a list of entries.
`MTH({}) = H()`, `MTH({d}) = H(0x00 || d)`,
`MTH(D[n]) = H(0x01 || MTH(D[0:k]) || MTH(D[k:n]))`, `k` the largest power of
two smaller than `n`. -/
def mth (H : Bytes → Bytes) : List Bytes → Bytes
  | [] => H []
  | [d] => H (leafInput d)
  | a :: b :: l =>
    let D := a :: b :: l
    let k := splitPoint D.length
    H (nodeInput (mth H (D.take k)) (mth H (D.drop k)))
termination_by D => D.length
decreasing_by
  · have := splitPoint_lt (n := (a :: b :: l).length) (by simp)
    simp only [List.length_take]; omega
  · have := splitPoint_pos (a :: b :: l).length
    simp only [List.length_drop, List.length_cons] at *; omega

/-- All byte strings that are hashed while computing `mth H D`. -/
def mthInputs (H : Bytes → Bytes) : List Bytes → List Bytes
  | [] => [[]]
  | [d] => [leafInput d]
  | a :: b :: l =>
    let D := a :: b :: l
    let k := splitPoint D.length
    nodeInput (mth H (D.take k)) (mth H (D.drop k)) ::
      (mthInputs H (D.take k) ++ mthInputs H (D.drop k))
termination_by D => D.length
decreasing_by
  · have := splitPoint_lt (n := (a :: b :: l).length) (by simp)
    simp only [List.length_take]; omega
  · have := splitPoint_pos (a :: b :: l).length
    simp only [List.length_drop, List.length_cons] at *; omega

/-- Two different byte strings, one from each list, with the same hash. -/
def Collision (H : Bytes → Bytes) (S T : List Bytes) : Prop :=
  ∃ x ∈ S, ∃ y ∈ T, x ≠ y ∧ H x = H y

end Spec
end Verif
