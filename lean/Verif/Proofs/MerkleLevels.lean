import Verif.Proofs.Bits
/-! Merkle tree hashes over lists of hashes, and their level-by-level structure. -/
namespace Verif.Merkle
open Spec (splitPoint splitPoint_pos splitPoint_lt le_two_splitPoint)

variable {α : Type} (th : TreeHasher α)

/-- `MTH` over a list of leaf *hashes*. -/
def mthN : List α → α
  | [] => th.hashEmpty
  | [h] => h
  | a :: b :: l =>
    let D := a :: b :: l
    let k := splitPoint D.length
    th.hashChildren (mthN (D.take k)) (mthN (D.drop k))
termination_by D => D.length
decreasing_by
  · have := splitPoint_lt (n := (a :: b :: l).length) (by simp)
    simp only [List.length_take]; omega
  · have := splitPoint_pos (a :: b :: l).length
    simp only [List.length_drop, List.length_cons] at *; omega

theorem mthN_nil : mthN th [] = th.hashEmpty := by rw [mthN]
theorem mthN_one (h : α) : mthN th [h] = h := by rw [mthN]
theorem mthN_ge2 {L : List α} (h : 2 ≤ L.length) :
    mthN th L = th.hashChildren (mthN th (L.take (splitPoint L.length)))
      (mthN th (L.drop (splitPoint L.length))) := by
  match L, h with
  | a :: b :: l, _ => conv => lhs; rw [mthN]

/-- Splitting off a left block of power-of-two size. -/
theorem mthN_append {A B : List α} {j : Nat} (hA : A.length = 2 ^ j) (hB : B ≠ [])
    (hle : B.length ≤ 2 ^ j) : mthN th (A ++ B) = th.hashChildren (mthN th A) (mthN th B) := by
  have hpos : 0 < B.length := List.length_pos_iff.2 hB
  have : 0 < 2 ^ j := Nat.two_pow_pos j
  rw [mthN_ge2 th (by simp; omega)]
  have hs : splitPoint (A ++ B).length = A.length := by
    rw [hA]; apply splitPoint_unique <;> simp <;> omega
  rw [hs]; simp

/-- One level up: pair neighbours, keep an odd last element. -/
def pairUp : List α → List α
  | [] => []
  | [a] => [a]
  | a :: b :: l => th.hashChildren a b :: pairUp l

theorem pairUp_length (L : List α) : (pairUp th L).length = (L.length + 1) / 2 := by
  induction L using pairUp.induct with
  | case1 => simp [pairUp]
  | case2 => simp [pairUp]
  | case3 a b l ih => simp [pairUp, ih]; omega

theorem pairUp_append {A B : List α} (h : A.length % 2 = 0) :
    pairUp th (A ++ B) = pairUp th A ++ pairUp th B := by
  induction A using pairUp.induct with
  | case1 => simp [pairUp]
  | case2 => simp at h
  | case3 a b l ih =>
    simp only [List.length_cons] at h
    simp [pairUp, ih (by omega)]

theorem pairUp_take {L : List α} {k : Nat} (h : k % 2 = 0) (hk : k ≤ L.length) :
    (pairUp th L).take (k / 2) = pairUp th (L.take k) := by
  conv => lhs; rw [← List.take_append_drop k L]
  rw [pairUp_append th (by simp; omega)]
  rw [List.take_append_of_le_length (by rw [pairUp_length]; simp; omega)]
  rw [List.take_of_length_le]
  rw [pairUp_length]; simp; omega

theorem pairUp_drop {L : List α} {k : Nat} (h : k % 2 = 0) (hk : k ≤ L.length) :
    (pairUp th L).drop (k / 2) = pairUp th (L.drop k) := by
  conv => lhs; rw [← List.take_append_drop k L]
  rw [pairUp_append th (by simp; omega)]
  rw [List.drop_append_of_le_length (by rw [pairUp_length]; simp; omega)]
  rw [List.drop_of_length_le]
  · simp
  rw [pairUp_length]; simp; omega

theorem pairUp_get_pair {L : List α} {i : Nat} (h : 2 * i + 1 < L.length) :
    (pairUp th L)[i]? = some (th.hashChildren L[2 * i] L[2 * i + 1]) := by
  induction L using pairUp.induct generalizing i with
  | case1 => simp at h
  | case2 => simp at h
  | case3 a b l ih =>
    match i with
    | 0 => simp [pairUp]
    | i + 1 =>
      simp only [List.length_cons] at h
      simp only [pairUp, List.getElem?_cons_succ]
      rw [ih (by omega)]
      simp [show 2 * (i + 1) = 2 * i + 1 + 1 by omega]

theorem pairUp_get_last {L : List α} {i : Nat} (h : 2 * i + 1 = L.length) :
    (pairUp th L)[i]? = L[2 * i]? := by
  induction L using pairUp.induct generalizing i with
  | case1 => simp at h
  | case2 =>
    have : i = 0 := by simp at h; omega
    subst this; simp [pairUp]
  | case3 a b l ih =>
    match i with
    | 0 => simp at h
    | i + 1 =>
      simp only [List.length_cons] at h
      simp only [pairUp, List.getElem?_cons_succ]
      rw [ih (by omega)]
      simp [show 2 * (i + 1) = 2 * i + 1 + 1 by omega]

/-- Facts about the split point used at every level. -/
theorem split_facts {n : Nat} (h : 3 ≤ n) :
    splitPoint n % 2 = 0 ∧ 2 ≤ splitPoint n ∧ splitPoint n < n ∧
      splitPoint ((n + 1) / 2) = splitPoint n / 2 := by
  have h1 := splitPoint_half h
  have h2 := splitPoint_pos ((n + 1) / 2)
  have h3 := splitPoint_lt (n := n) (by omega)
  omega

theorem mthN_pairUp (L : List α) : mthN th (pairUp th L) = mthN th L := by
  induction hn : L.length using Nat.strongRecOn generalizing L with
  | ind n ih =>
    match L, hn with
    | [], _ => simp [pairUp]
    | [a], _ => simp [pairUp]
    | [a, b], _ =>
      rw [mthN_ge2 th (L := [a, b]) (by simp)]
      have : splitPoint 2 = 1 := by simp [splitPoint, Nat.log2_def]
      simp [pairUp, this, mthN_one]
    | a :: b :: c :: l, hn =>
      have h3 : 3 ≤ n := by simp at hn; omega
      generalize hL : a :: b :: c :: l = L at *
      obtain ⟨he, h2, hlt, hh⟩ := split_facts h3
      rw [mthN_ge2 th (L := L) (by omega), mthN_ge2 th (L := pairUp th L) (by rw [pairUp_length]; omega)]
      rw [pairUp_length, hn, hh, pairUp_take th he (by omega), pairUp_drop th he (by omega)]
      rw [ih _ (by simp; omega) _ rfl, ih _ (by simp; omega) _ rfl]

/-! ## Audit paths -/

/-- RFC 6962 `PATH(m, D[n])` over leaf hashes. -/
def pathN (m : Nat) (L : List α) : List α :=
  if _h : L.length < 2 then []
  else
    if m < splitPoint L.length then
      pathN m (L.take (splitPoint L.length)) ++ [mthN th (L.drop (splitPoint L.length))]
    else pathN (m - splitPoint L.length) (L.drop (splitPoint L.length)) ++
      [mthN th (L.take (splitPoint L.length))]
termination_by L.length
decreasing_by
  · have := splitPoint_lt (n := L.length) (by omega)
    simp only [List.length_take]; omega
  · have := splitPoint_pos L.length
    simp only [List.length_drop]; omega

/-- The sibling at the bottom level, if there is one. -/
def sib (m : Nat) (L : List α) : List α :=
  if m % 2 = 1 then (L[m - 1]?).toList else (L[m + 1]?).toList

theorem pathN_lt2 {m : Nat} {L : List α} (h : L.length < 2) : pathN th m L = [] := by
  rw [pathN]; simp [h]

theorem pathN_ge2 {m : Nat} {L : List α} (h : 2 ≤ L.length) : pathN th m L =
    if m < splitPoint L.length then
      pathN th m (L.take (splitPoint L.length)) ++ [mthN th (L.drop (splitPoint L.length))]
    else pathN th (m - splitPoint L.length) (L.drop (splitPoint L.length)) ++
      [mthN th (L.take (splitPoint L.length))] := by
  rw [pathN]; simp [show ¬ L.length < 2 by omega]

theorem pathN_level (L : List α) (m : Nat) (hm : m < L.length) :
    pathN th m L = sib m L ++ pathN th (m / 2) (pairUp th L) := by
  induction hn : L.length using Nat.strongRecOn generalizing L m with
  | ind n ih =>
    match L, hn, hm with
    | [], _, hm => simp at hm
    | [a], _, hm =>
      have : m = 0 := by simpa using hm
      subst this
      simp [pairUp, sib, pathN_lt2]
    | [a, b], _, hm =>
      have hs : splitPoint 2 = 1 := by simp [splitPoint, Nat.log2_def]
      rw [pathN_ge2 th (L := [a, b]) (by simp), pathN_lt2 th (L := pairUp th [a, b]) (by simp [pairUp])]
      have : m = 0 ∨ m = 1 := by simp at hm; omega
      rcases this with h | h <;> subst h <;>
        simp [hs, mthN_one, pathN_lt2, sib]
    | a :: b :: c :: l, hn, hm =>
      have h3 : 3 ≤ n := by simp at hn; omega
      generalize hL : a :: b :: c :: l = L at *
      obtain ⟨he, h2, hlt, hh⟩ := split_facts h3
      rw [pathN_ge2 th (L := L) (by omega), pathN_ge2 th (L := pairUp th L) (by rw [pairUp_length]; omega)]
      rw [pairUp_length, hn, hh, pairUp_take th he (by omega), pairUp_drop th he (by omega)]
      rw [mthN_pairUp, mthN_pairUp]
      by_cases hmk : m < splitPoint n
      · rw [if_pos hmk, if_pos (by omega)]
        rw [ih (L.take (splitPoint n)).length (by simp; omega) _ _ (by simp; omega) rfl,
          List.append_assoc]
        congr 1
        unfold sib
        by_cases hp : m % 2 = 1
        · rw [if_pos hp, if_pos hp, List.getElem?_take_of_lt (by omega)]
        · rw [if_neg hp, if_neg hp, List.getElem?_take_of_lt (by omega)]
      · rw [if_neg hmk, if_neg (by omega)]
        rw [ih (L.drop (splitPoint n)).length (by simp; omega) _ _ (by simp; omega) rfl,
          List.append_assoc]
        rw [show m / 2 - splitPoint n / 2 = (m - splitPoint n) / 2 by omega]
        congr 1
        unfold sib
        by_cases hp : m % 2 = 1
        · rw [if_pos hp, if_pos (by omega), List.getElem?_drop]
          congr 2; omega
        · rw [if_neg hp, if_neg (by omega), List.getElem?_drop]
          congr 2; omega

/-! ## Consistency proofs -/

/-- RFC 6962 `SUBPROOF(m, D[n], b)` over leaf hashes. -/
def subproofN (m : Nat) (L : List α) (b : Bool) : List α :=
  if m = L.length then (if b then [] else [mthN th L])
  else if _h : L.length < 2 then []
  else
    if m ≤ splitPoint L.length then
      subproofN m (L.take (splitPoint L.length)) b ++ [mthN th (L.drop (splitPoint L.length))]
    else subproofN (m - splitPoint L.length) (L.drop (splitPoint L.length)) false ++
      [mthN th (L.take (splitPoint L.length))]
termination_by L.length
decreasing_by
  · have := splitPoint_lt (n := L.length) (by omega)
    simp only [List.length_take]; omega
  · have := splitPoint_pos L.length
    simp only [List.length_drop]; omega

theorem subproofN_eq {m : Nat} {L : List α} {b : Bool} (h : m = L.length) :
    subproofN th m L b = if b then [] else [mthN th L] := by
  rw [subproofN]; simp [h]

theorem subproofN_ge2 {m : Nat} {L : List α} {b : Bool} (h1 : m ≠ L.length) (h : 2 ≤ L.length) :
    subproofN th m L b = if m ≤ splitPoint L.length then
      subproofN th m (L.take (splitPoint L.length)) b ++ [mthN th (L.drop (splitPoint L.length))]
    else subproofN th (m - splitPoint L.length) (L.drop (splitPoint L.length)) false ++
      [mthN th (L.take (splitPoint L.length))] := by
  rw [subproofN]; simp [h1, show ¬ L.length < 2 by omega]

/-- Right children are in both trees: go one level up. -/
theorem subproofN_level (L : List α) (m : Nat) (b : Bool) (h0 : 0 < m) (hm : m ≤ L.length)
    (he : m % 2 = 0) : subproofN th m L b = subproofN th (m / 2) (pairUp th L) b := by
  induction hn : L.length using Nat.strongRecOn generalizing L m b with
  | ind n ih =>
    by_cases hmn : m = L.length
    · rw [subproofN_eq th hmn, subproofN_eq th (by rw [pairUp_length]; omega), mthN_pairUp]
    · have h3 : 3 ≤ n := by omega
      obtain ⟨hke, h2, hlt, hh⟩ := split_facts h3
      rw [subproofN_ge2 th hmn (by omega),
        subproofN_ge2 th (L := pairUp th L) (by rw [pairUp_length]; omega) (by rw [pairUp_length]; omega)]
      rw [pairUp_length, hn, hh, pairUp_take th hke (by omega), pairUp_drop th hke (by omega)]
      rw [mthN_pairUp, mthN_pairUp]
      by_cases hmk : m ≤ splitPoint n
      · rw [if_pos hmk, if_pos (by omega)]
        rw [ih _ (by simp; omega) _ _ _ h0 (by simp; omega) he rfl]
      · rw [if_neg hmk, if_neg (by omega)]
        rw [ih _ (by simp; omega) _ (m - splitPoint n) _ (by omega) (by simp; omega) (by omega) rfl]
        rw [show m / 2 - splitPoint n / 2 = (m - splitPoint n) / 2 by omega]

/-- An odd old size: the hash of the last old leaf, then its audit path. -/
theorem subproofN_odd (L : List α) (m : Nat) (b : Bool) (hm : m ≤ L.length)
    (ho : m % 2 = 1) (hne : m < L.length ∨ m = 1) (hb : b = true → 1 < m) :
    subproofN th m L b = (L[m - 1]?).toList ++ pathN th (m - 1) L := by
  induction hn : L.length using Nat.strongRecOn generalizing L m b with
  | ind n ih =>
    by_cases hmn : m = L.length
    · have hm1 : m = 1 := by omega
      subst hm1
      match L, hmn with
      | [a], _ =>
        rw [subproofN_eq th (by simp)]
        have : b = false := by
          cases b
          · rfl
          · have := hb rfl; omega
        subst this
        simp [mthN_one, pathN_lt2]
    · have h2 : 2 ≤ n := by omega
      have hlt := splitPoint_lt h2
      have hpos := splitPoint_pos n
      rw [subproofN_ge2 th hmn (by omega), pathN_ge2 th (by omega), hn]
      by_cases hmk : m ≤ splitPoint n
      · rw [if_pos hmk, if_pos (by omega)]
        have hne' : m < splitPoint n ∨ m = 1 := by
          by_cases h1 : m = 1
          · exact .inr h1
          · left
            have := (split_facts (n := n) (by omega)).1
            omega
        rw [ih _ (by simp; omega) _ _ _ (by simp; omega) ho (by simp; omega) hb rfl,
          List.append_assoc, List.getElem?_take_of_lt (by omega)]
      · rw [if_neg hmk, if_neg (by omega)]
        by_cases hk1 : splitPoint n = 1
        · -- n = 2, m = 1 contradiction
          have := @le_two_splitPoint n
          omega
        · have := (split_facts (n := n) (by
            by_cases h : n = 2
            · subst h; simp [splitPoint, Nat.log2_def] at hk1
            · omega)).1
          rw [ih _ (by simp; omega) _ (m - splitPoint n) _ (by simp; omega) (by omega) (by simp; omega)
            (by simp) rfl, List.append_assoc, List.getElem?_drop]
          rw [show splitPoint n + (m - splitPoint n - 1) = m - 1 by omega,
            show m - splitPoint n - 1 = m - 1 - splitPoint n by omega]

/-- Old size one: the plain audit path of leaf 0. -/
theorem subproofN_one (L : List α) (hL : L ≠ []) :
    subproofN th 1 L true = pathN th 0 L := by
  induction hn : L.length using Nat.strongRecOn generalizing L with
  | ind n ih =>
    have hpos : 0 < L.length := List.length_pos_iff.2 hL
    by_cases hmn : 1 = L.length
    · rw [subproofN_eq th hmn, pathN_lt2 th (by omega)]; simp
    · have hs := splitPoint_pos n
      have hlt := splitPoint_lt (n := n) (by omega)
      rw [subproofN_ge2 th hmn (by omega), pathN_ge2 th (by omega), hn]
      rw [if_pos (by omega), if_pos (by omega)]
      rw [ih _ (by simp; omega) _ (List.ne_nil_of_length_pos (by
        rw [List.length_take]; omega)) rfl]

end Verif.Merkle
