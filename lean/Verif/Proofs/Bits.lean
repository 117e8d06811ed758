import Verif.Model.Merkle
/-! Lemmas about the bit helpers. -/
namespace Verif.Merkle

theorem splitPoint_unique {n j : Nat} (h1 : 2 ^ j < n) (h2 : n ≤ 2 * 2 ^ j) :
    Spec.splitPoint n = 2 ^ j := by
  unfold Spec.splitPoint
  congr 1
  rw [Nat.log2_eq_iff (by omega)]
  rw [Nat.pow_succ]; omega

theorem splitPoint_isPow (n : Nat) : ∃ j, Spec.splitPoint n = 2 ^ j := ⟨_, rfl⟩

theorem splitPoint_half {n : Nat} (h : 3 ≤ n) :
    Spec.splitPoint n = 2 * Spec.splitPoint ((n + 1) / 2) := by
  obtain ⟨j, hj⟩ := splitPoint_isPow ((n + 1) / 2)
  have h1 := Spec.splitPoint_lt (n := (n + 1) / 2) (by omega)
  have h2 := Spec.le_two_splitPoint (n := (n + 1) / 2)
  rw [hj] at h1 h2
  rw [hj, splitPoint_unique (j := j + 1)]
  · rw [Nat.pow_succ]; omega
  · rw [Nat.pow_succ]; omega
  · rw [Nat.pow_succ]; omega

/-- Every positive number is `2^e * (2q+1)`. -/
theorem exists_odd_factor (n : Nat) (h : n ≠ 0) : ∃ e q, n = 2 ^ (e + 1) * q + 2 ^ e := by
  induction n using Nat.strongRecOn with
  | ind n ih =>
    by_cases hp : n % 2 = 1
    · exact ⟨0, n / 2, by simp; omega⟩
    · obtain ⟨e, q, hq⟩ := ih (n / 2) (by omega) (by omega)
      refine ⟨e + 1, q, ?_⟩
      have : n = 2 * (n / 2) := by omega
      rw [this, hq, Nat.pow_succ 2 (e + 1), Nat.pow_succ 2 e]
      clear ih hq this; grind

theorem and_pred (e q : Nat) :
    (2 ^ (e + 1) * q + 2 ^ e) &&& (2 ^ (e + 1) * q + 2 ^ e - 1) = 2 ^ (e + 1) * q := by
  have hp : 0 < 2 ^ e := Nat.two_pow_pos e
  have hlt : 2 ^ e < 2 ^ (e + 1) := by rw [Nat.pow_succ]; omega
  have e1 : 2 ^ (e + 1) * q + 2 ^ e - 1 = 2 ^ (e + 1) * q + (2 ^ e - 1) := by omega
  rw [e1]
  apply Nat.eq_of_testBit_eq
  intro i
  rw [Nat.testBit_and, Nat.testBit_two_pow_mul_add _ hlt, Nat.testBit_two_pow_mul_add _ (by omega)]
  have h0 := Nat.testBit_two_pow_mul_add q (i := e + 1) (b := 0) (by omega) i
  simp only [Nat.add_zero, Nat.zero_testBit] at h0
  rw [h0]
  by_cases hi : i < e + 1
  · simp only [hi, if_true]
    rw [Nat.testBit_two_pow, Nat.testBit_two_pow_sub_one]
    by_cases h : e = i <;> simp [h]
  · simp [hi]

theorem lowestBitSet_eq (e q : Nat) : lowestBitSet (2 ^ (e + 1) * q + 2 ^ e) = e + 1 := by
  unfold lowestBitSet
  rw [and_pred, Nat.add_sub_cancel_left, highestBitSet_eq _ (Nat.ne_of_gt (Nat.two_pow_pos e)), Nat.log2_two_pow]

theorem lowestBitSet_zero : lowestBitSet 0 = 0 := by
  simp [lowestBitSet, highestBitSet]

theorem countBitsSet_zero : countBitsSet 0 = 0 := by rw [countBitsSet]; simp

theorem countBitsSet_eq (e q : Nat) :
    countBitsSet (2 ^ (e + 1) * q + 2 ^ e) = countBitsSet (2 ^ (e + 1) * q) + 1 := by
  have hp : 0 < 2 ^ e := Nat.two_pow_pos e
  conv => lhs; rw [countBitsSet]
  rw [dif_neg (by omega), and_pred]

theorem countBitsSet_two_pow (e : Nat) : countBitsSet (2 ^ e) = 1 := by
  have := countBitsSet_eq e 0
  simpa [countBitsSet_zero] using this

theorem lowestBitSet_two_pow (e : Nat) : lowestBitSet (2 ^ e) = e + 1 := by
  have := lowestBitSet_eq e 0
  simpa using this

theorem countBitsSet_double (n : Nat) : countBitsSet (2 * n) = countBitsSet n := by
  induction n using Nat.strongRecOn with
  | ind n ih =>
    by_cases h : n = 0
    · subst h; rfl
    · obtain ⟨e, q, hq⟩ := exists_odd_factor n h
      have h2 : 2 * n = 2 ^ (e + 1 + 1) * q + 2 ^ (e + 1) := by
        rw [hq, Nat.pow_succ 2 (e + 1), Nat.pow_succ 2 e]
        clear ih hq; grind
      have h3 : 2 ^ (e + 1 + 1) * q = 2 * (2 ^ (e + 1) * q) := by
        rw [Nat.pow_succ 2 (e + 1)]; grind
      rw [h2, countBitsSet_eq, h3, ih (2 ^ (e + 1) * q)
        (by have := Nat.two_pow_pos e; omega), hq, countBitsSet_eq]

theorem countBitsSet_div (n : Nat) : countBitsSet n = n % 2 + countBitsSet (n / 2) := by
  by_cases hp : n % 2 = 0
  · have : n = 2 * (n / 2) := by omega
    rw [hp, this, countBitsSet_double]; simp
  · have h1 : n % 2 = 1 := by omega
    have : n = 2 ^ (0 + 1) * (n / 2) + 2 ^ 0 := by simp; omega
    rw [h1]
    conv => lhs; rw [this, countBitsSet_eq]
    rw [show 2 ^ (0 + 1) * (n / 2) = 2 * (n / 2) by simp, countBitsSet_double]; omega

theorem countBitsSet_le (n : Nat) : countBitsSet n ≤ n := by
  induction n using Nat.strongRecOn with
  | ind n ih =>
    by_cases h : n = 0
    · subst h; simp [countBitsSet_zero]
    · rw [countBitsSet_div]
      have := ih (n / 2) (by omega)
      omega

/-- A leading bit adds one. -/
theorem countBitsSet_add (p r : Nat) (h : r < 2 ^ p) :
    countBitsSet (2 ^ p + r) = 1 + countBitsSet r := by
  induction p generalizing r with
  | zero =>
    have : r = 0 := by simpa using h
    subst this
    simp [countBitsSet_zero]
    simpa using countBitsSet_two_pow 0
  | succ p ih =>
    rw [countBitsSet_div, countBitsSet_div r]
    rw [Nat.pow_succ] at h ⊢
    have h1 : (2 ^ p * 2 + r) / 2 = 2 ^ p + r / 2 := by omega
    have h2 : (2 ^ p * 2 + r) % 2 = r % 2 := by omega
    rw [h1, h2, ih (r / 2) (by omega)]
    omega

theorem expectedNodeCount_eq (n : Nat) : expectedNodeCount n + countBitsSet n = n := by
  induction n using Nat.strongRecOn with
  | ind n ih =>
    rw [expectedNodeCount]
    by_cases h : n > 1
    · simp only [h, dite_true]
      have := ih (n / 2) (by omega)
      rw [countBitsSet_div n]
      omega
    · simp only [h, dite_false]
      have : n = 0 ∨ n = 1 := by omega
      rcases this with h | h <;> subst h
      · simp [countBitsSet_zero]
      · simpa using countBitsSet_two_pow 0

/-- Number of nodes written by the append that makes size `n`. -/
theorem expectedNodeCount_succ (e q : Nat) :
    expectedNodeCount (2 ^ (e + 1) * q + 2 ^ e) =
      expectedNodeCount (2 ^ (e + 1) * q + 2 ^ e - 1) + e := by
  have h1 := expectedNodeCount_eq (2 ^ (e + 1) * q + 2 ^ e)
  have h2 := expectedNodeCount_eq (2 ^ (e + 1) * q + 2 ^ e - 1)
  rw [countBitsSet_eq] at h1
  have hp : 0 < 2 ^ e := Nat.two_pow_pos e
  have h3 : countBitsSet (2 ^ (e + 1) * q + 2 ^ e - 1) = countBitsSet (2 ^ (e + 1) * q) + e := by
    have : ∀ k, k ≤ e → countBitsSet (2 ^ (e + 1) * q + 2 ^ e - 2 ^ (e - k)) =
        countBitsSet (2 ^ (e + 1) * q) + k := by
      intro k
      induction k with
      | zero => intro _; simp
      | succ k ih =>
        intro hk
        have ih := ih (by omega)
        rw [← Nat.add_assoc, ← ih]
        have e1 : e - k = (e - (k + 1)) + 1 := by omega
        generalize hd : e - (k + 1) = d at *
        have hd2 : e = d + 1 + k := by omega
        have : 2 ^ (e + 1) * q + 2 ^ e - 2 ^ (e - k) = 2 ^ (d + 1) * (2 ^ (k + 1) * q + 2 ^ k - 1) := by
          rw [e1, hd2, Nat.mul_sub, Nat.mul_add, ← Nat.mul_assoc, ← Nat.pow_add, ← Nat.pow_add]
          simp
          grind
        rw [this, ← countBitsSet_eq, ← this, e1]
        congr 1
        have l1 : 2 ^ (d + 1) ≤ 2 ^ e := Nat.pow_le_pow_right (by omega) (by omega)
        rw [Nat.pow_succ] at l1 ⊢
        omega
    have := this e (Nat.le_refl _)
    simpa using this
  omega

/-- `getNodePosition` is the number of nodes created before leaf `start`, plus
the height. -/
theorem getNodePosition_eq (start height : Nat) (h0 : 0 < start) (hh : 0 < height) :
    getNodePosition start height = expectedNodeCount (start - 1) + height := by
  induction start using Nat.strongRecOn generalizing height with
  | ind n ih =>
    rw [getNodePosition]
    have hh' : height ≠ 0 := by omega
    simp only [show n ≠ 0 by omega, dite_false, hh', if_false]
    rw [highestBitSet_eq n (by omega), Nat.add_sub_cancel]
    have hle : 2 ^ n.log2 ≤ n := Nat.log2_self_le (by omega)
    have hlt : n < 2 ^ (n.log2 + 1) := Nat.lt_log2_self
    rw [Nat.pow_succ] at hlt
    generalize hp : n.log2 = p at *
    have hpp : p < 2 ^ p := Nat.lt_two_pow_self
    by_cases hn : n = 2 ^ p
    · rw [if_pos (by rw [hn, countBitsSet_two_pow])]
      have h1 := expectedNodeCount_eq (n - 1)
      have h2 : countBitsSet (n - 1) = p := by
        have a := expectedNodeCount_succ p 0
        have b := expectedNodeCount_eq (2 ^ p)
        rw [countBitsSet_two_pow] at b
        simp only [Nat.mul_zero, Nat.zero_add] at a
        rw [← hn] at a b
        omega
      omega
    · have hr : 0 < n - 2 ^ p := by omega
      have hc : countBitsSet n = 1 + countBitsSet (n - 2 ^ p) := by
        have := countBitsSet_add p (n - 2 ^ p) (by omega)
        rwa [Nat.add_sub_cancel' hle] at this
      have hc1 : countBitsSet (n - 2 ^ p) ≠ 0 := by
        rw [countBitsSet]; simp [show n - 2 ^ p ≠ 0 by omega]
      rw [if_neg (by omega)]
      rw [ih (n - 2 ^ p) (by have := Nat.two_pow_pos p; omega) height hr hh]
      unfold getNodePosition.getNodePosition'
      rw [highestBitSet_eq _ (Nat.ne_of_gt (Nat.two_pow_pos p)), Nat.log2_two_pow, Nat.add_sub_cancel]
      have h1 := expectedNodeCount_eq (n - 1)
      have h2 := expectedNodeCount_eq (n - 2 ^ p - 1)
      have h3 := countBitsSet_add p (n - 2 ^ p - 1) (by omega)
      rw [show 2 ^ p + (n - 2 ^ p - 1) = n - 1 by omega] at h3
      omega

end Verif.Merkle
