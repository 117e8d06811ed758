import Verif.Proofs.MerkleSound
/-! The compact Merkle tree: appends, extension, root. -/
namespace Verif.Merkle
open Spec (splitPoint splitPoint_pos splitPoint_lt le_two_splitPoint)

variable {α : Type} (th : TreeHasher α)

/-- Full subtrees of strictly decreasing size. -/
structure Blocks (bs : List (List α)) : Prop where
  dec : bs.Pairwise (fun A B => B.length < A.length)
  pow : ∀ A ∈ bs, ∃ e, A.length = 2 ^ e

theorem Blocks.nil : Blocks ([] : List (List α)) := ⟨by simp, by simp⟩

theorem Blocks.one {A : List α} {e : Nat} (h : A.length = 2 ^ e) : Blocks [A] :=
  ⟨by simp, by simpa using ⟨e, h⟩⟩

theorem Blocks.append_iff {as bs : List (List α)} :
    Blocks (as ++ bs) ↔ Blocks as ∧ Blocks bs ∧ ∀ A ∈ as, ∀ B ∈ bs, B.length < A.length := by
  constructor
  · intro h
    have := List.pairwise_append.1 h.dec
    exact ⟨⟨this.1, fun A hA => h.pow A (by simp [hA])⟩,
      ⟨this.2.1, fun A hA => h.pow A (by simp [hA])⟩, this.2.2⟩
  · rintro ⟨h1, h2, h3⟩
    refine ⟨List.pairwise_append.2 ⟨h1.dec, h2.dec, h3⟩, fun A hA => ?_⟩
    rcases List.mem_append.1 hA with h | h
    · exact h1.pow A h
    · exact h2.pow A h

theorem Blocks.cons_iff {A : List α} {bs : List (List α)} :
    Blocks (A :: bs) ↔ (∃ e, A.length = 2 ^ e) ∧ Blocks bs ∧ ∀ B ∈ bs, B.length < A.length := by
  have := Blocks.append_iff (as := [A]) (bs := bs)
  simp only [List.singleton_append, List.mem_singleton, forall_eq] at this
  rw [this]
  constructor
  · rintro ⟨h1, h2, h3⟩; exact ⟨by simpa using h1.pow, h2, h3⟩
  · rintro ⟨⟨e, he⟩, h2, h3⟩; exact ⟨Blocks.one he, h2, h3⟩

theorem two_pow_lt_iff {a b : Nat} : 2 ^ a < 2 ^ b ↔ a < b :=
  Nat.pow_lt_pow_iff_right (by omega)

/-- All blocks larger than `2^e` together have length divisible by `2^(e+1)`. -/
theorem blocks_dvd {bs : List (List α)} {e : Nat} (h : Blocks bs) (hl : ∀ A ∈ bs, 2 ^ e < A.length) :
    ∃ q, bs.flatten.length = 2 ^ (e + 1) * q := by
  induction bs with
  | nil => exact ⟨0, by simp⟩
  | cons A bs ih =>
    obtain ⟨⟨a, ha⟩, h2, _⟩ := Blocks.cons_iff.1 h
    obtain ⟨q, hq⟩ := ih h2 (fun B hB => hl B (by simp [hB]))
    have hea : e < a := by
      have := hl A (by simp); rw [ha] at this; exact two_pow_lt_iff.1 this
    refine ⟨2 ^ (a - (e + 1)) + q, ?_⟩
    rw [List.flatten_cons, List.length_append, ha, hq, Nat.mul_add, ← Nat.pow_add]
    congr 2; omega

theorem blocks_snoc_size {bs : List (List α)} {A : List α} {e : Nat} (h : Blocks (bs ++ [A]))
    (he : A.length = 2 ^ e) : ∃ q, bs.flatten.length = 2 ^ (e + 1) * q ∧
      (bs ++ [A]).flatten.length = 2 ^ (e + 1) * q + 2 ^ e := by
  obtain ⟨h1, _, h3⟩ := Blocks.append_iff.1 h
  obtain ⟨q, hq⟩ := blocks_dvd (e := e) h1 (fun B hB => by
    have := h3 B hB A (by simp); omega)
  exact ⟨q, hq, by simp [hq, he]⟩

theorem blocks_count {bs : List (List α)} (h : Blocks bs) :
    countBitsSet bs.flatten.length = bs.length := by
  induction hn : bs.length generalizing bs with
  | zero =>
    have : bs = [] := List.length_eq_zero_iff.1 hn
    subst this; simp [countBitsSet_zero]
  | succ n ih =>
    rcases List.eq_nil_or_concat bs with rfl | ⟨bs', A, rfl⟩
    · simp at hn
    · simp only [List.concat_eq_append] at *
      obtain ⟨h1, h2, h3⟩ := Blocks.append_iff.1 h
      obtain ⟨e, he⟩ := h2.pow A (by simp)
      obtain ⟨q, hq, hs⟩ := blocks_snoc_size h he
      rw [hs, countBitsSet_eq, ← hq, ih h1 (by simpa using hn)]

theorem blocks_lt {A : List α} {bs : List (List α)} (h : Blocks (A :: bs)) :
    bs.flatten.length < A.length := by
  induction bs generalizing A with
  | nil =>
    obtain ⟨⟨e, he⟩, _, _⟩ := Blocks.cons_iff.1 h
    have := Nat.two_pow_pos e
    rw [List.flatten_nil, List.length_nil]; omega
  | cons C bs ih =>
    obtain ⟨⟨e, he⟩, h2, h3⟩ := Blocks.cons_iff.1 h
    obtain ⟨⟨c, hc⟩, _, _⟩ := Blocks.cons_iff.1 h2
    have := ih h2
    have hlt := h3 C (by simp)
    rw [hc, he] at hlt
    have hce := two_pow_lt_iff.1 hlt
    have : 2 ^ (c + 1) ≤ 2 ^ e := Nat.pow_le_pow_right (by omega) (by omega)
    rw [Nat.pow_succ] at this
    simp only [List.flatten_cons, List.length_append]; omega

theorem blocks_fold {bs : List (List α)} (h : Blocks bs) (hne : bs ≠ []) :
    hashFold th (bs.map (mthN th)) = some (mthN th bs.flatten) := by
  induction bs with
  | nil => exact absurd rfl hne
  | cons A bs ih =>
    obtain ⟨⟨e, he⟩, h2, h3⟩ := Blocks.cons_iff.1 h
    match bs, ih, h2, h with
    | [], _, _, _ => simp [hashFold]
    | C :: bs, ih, h2, h =>
      have hlt := blocks_lt h
      obtain ⟨⟨c, hc⟩, _, _⟩ := Blocks.cons_iff.1 h2
      have hcp := Nat.two_pow_pos c
      rw [List.map_cons, List.map_cons, hashFold, ← List.map_cons, ih h2 (by simp), Option.map_some]
      · congr 1
        rw [List.flatten_cons (l := A), mthN_append th he]
        · exact List.ne_nil_of_length_pos (by simp; omega)
        · omega
      · simp

/-- The tree holds the leaf hashes `L`. -/
structure TreeInv (t : Tree α) (L : List α) : Prop where
  ex : ∃ bs, Blocks bs ∧ bs.flatten = L ∧ t.hashes = bs.map (mthN th)
  size : t.size = L.length

theorem TreeInv.empty : TreeInv th Tree.empty [] :=
  ⟨⟨[], Blocks.nil, rfl, rfl⟩, rfl⟩

theorem TreeInv.root {t : Tree α} {L : List α} (h : TreeInv th t L) : t.rootHash th = mthN th L := by
  obtain ⟨bs, hb, rfl, hh⟩ := h.ex
  unfold Tree.rootHash
  by_cases hne : bs = []
  · subst hne; simp [hh, hashFold, mthN_nil]
  · rw [hh, blocks_fold th hb hne]

theorem update_ok {bs : List (List α)} (h : Blocks bs) {n : Nat} (hn : n = bs.flatten.length) :
    Tree.update n (bs.map (mthN th)) = .ok ⟨n, bs.map (mthN th)⟩ := by
  unfold Tree.update
  rw [if_neg (by rw [hn, blocks_count h]; simp)]

/-- The interior nodes created by a push of height `s`, when the resulting
list `L` has length divisible by exactly `2^v`. -/
def newNodes (L : List α) (s v : Nat) : List (α × Nat) :=
  (List.range' (s + 1) (v - s)).map (fun h => (mthN th (L.drop (L.length - 2 ^ h)), h))

theorem pushSubtreeHash_spec (bs : List (List α)) (B : List α) (s : Nat) (hb : Blocks bs)
    (hB : B.length = 2 ^ s) (hge : ∀ A ∈ bs, 2 ^ s ≤ A.length) :
    ∃ bs' v q, Blocks bs' ∧ bs'.flatten = bs.flatten ++ B ∧ s ≤ v ∧
      (bs.flatten ++ B).length = 2 ^ (v + 1) * q + 2 ^ v ∧
      pushSubtreeHash th ⟨bs.flatten.length, bs.map (mthN th)⟩ (s + 1) (mthN th B) =
        .ok (⟨(bs.flatten ++ B).length, bs'.map (mthN th)⟩, newNodes th (bs.flatten ++ B) s v) := by
  induction hn : bs.length generalizing bs B s with
  | zero =>
    have : bs = [] := List.length_eq_zero_iff.1 hn
    subst this
    refine ⟨[B], s, 0, Blocks.one hB, by simp, by omega, by simp [hB], ?_⟩
    rw [pushSubtreeHash]
    simp only [List.flatten_nil, List.length_nil, lowestBitSet_zero, or_true, if_true, List.map_nil,
      List.nil_append, Nat.add_sub_cancel, Nat.zero_add]
    have := update_ok th (Blocks.one hB) (n := 1 <<< s) (by simp [hB, Nat.shiftLeft_eq])
    simp only [List.map_cons, List.map_nil] at this
    rw [this]
    simp [newNodes, hB, Nat.shiftLeft_eq]
  | succ n ih =>
    rcases List.eq_nil_or_concat bs with rfl | ⟨bs0, A, rfl⟩
    · simp at hn
    simp only [List.concat_eq_append] at *
    obtain ⟨h1, h2, h3⟩ := Blocks.append_iff.1 hb
    obtain ⟨e, he⟩ := h2.pow A (by simp)
    obtain ⟨q, hq, hs⟩ := blocks_snoc_size hb he
    have hes : s ≤ e := by
      have := hge A (by simp)
      rw [he] at this
      exact (Nat.pow_le_pow_iff_right (by omega)).1 this
    have hlow : lowestBitSet (bs0 ++ [A]).flatten.length = e + 1 := by rw [hs, lowestBitSet_eq]
    rw [pushSubtreeHash]
    simp only [hlow, Nat.add_sub_cancel, Nat.shiftLeft_eq, Nat.one_mul]
    by_cases hlt : s < e
    · have hb' : Blocks ((bs0 ++ [A]) ++ [B]) := by
        rw [Blocks.append_iff]
        refine ⟨hb, Blocks.one hB, ?_⟩
        intro X hX Y hY
        have : Y = B := by simpa using hY
        subst this
        have h2e : 2 ^ s < 2 ^ e := two_pow_lt_iff.2 hlt
        rcases List.mem_append.1 hX with h | h
        · have := h3 X h A (by simp); omega
        · have : X = A := by simpa using h
          subst this; omega
      obtain ⟨q', hq', hs'⟩ := blocks_snoc_size hb' hB
      refine ⟨(bs0 ++ [A]) ++ [B], s, q', hb', by simp, by omega, ?_, ?_⟩
      · rw [← hs']; simp
      · rw [if_pos (by omega)]
        have := update_ok th hb' (n := (bs0 ++ [A]).flatten.length + 2 ^ s) (by simp [hB]; omega)
        rw [List.map_append (l₂ := [B])] at this
        simp only [List.map_cons, List.map_nil] at this ⊢
        rw [this]
        simp [newNodes, hB, Nat.add_assoc]
    · have hse : s = e := by omega
      subst hse
      rw [if_neg (by omega), if_neg (by simp)]
      have hlast : ((bs0 ++ [A]).map (mthN th)).getLast? = some (mthN th A) := by simp
      have hdl : ((bs0 ++ [A]).map (mthN th)).dropLast = bs0.map (mthN th) := by simp
      have hsz : (bs0 ++ [A]).flatten.length - 2 ^ s = bs0.flatten.length := by rw [hs, hq]; omega
      have hABlen : (A ++ B).length = 2 ^ (s + 1) := by simp [he, hB, Nat.pow_succ]; omega
      have hAB : mthN th (A ++ B) = th.hashChildren (mthN th A) (mthN th B) :=
        mthN_append th he (List.ne_nil_of_length_pos (by have := Nat.two_pow_pos s; omega)) (by omega)
      obtain ⟨bs', v, q', hb', hfl, hv, hlen, heq⟩ := ih bs0 (A ++ B) (s + 1) h1 hABlen (by
        intro X hX
        have hlt' := h3 X hX A (by simp)
        obtain ⟨x, hx⟩ := h1.pow X hX
        rw [hx, he] at hlt'
        have := two_pow_lt_iff.1 hlt'
        rw [hx]; exact Nat.pow_le_pow_right (by omega) (by omega)) (by simpa using hn)
      have hLL : bs0.flatten ++ (A ++ B) = (bs0 ++ [A]).flatten ++ B := by simp
      rw [hLL] at hfl hlen heq
      refine ⟨bs', v, q', hb', hfl, by omega, hlen, ?_⟩
      rw [hsz, hdl]
      split
      · rename_i h; rw [hlast] at h; simp at h
      · rename_i prev h
        rw [hlast] at h
        simp only [Option.some.injEq] at h
        subst h
        rw [update_ok th h1 rfl]
        simp only
        have hnm : s + 1 < lowestBitSet bs0.flatten.length ∨ lowestBitSet bs0.flatten.length = 0 := by
          rcases List.eq_nil_or_concat bs0 with rfl | ⟨bs1, C, rfl⟩
          · right; simp [lowestBitSet_zero]
          · left
            simp only [List.concat_eq_append] at *
            obtain ⟨c, hc⟩ := h1.pow C (by simp)
            obtain ⟨q2, _, hs2⟩ := blocks_snoc_size h1 hc
            have hlt' := h3 C (by simp) A (by simp)
            rw [hc, he] at hlt'
            have := two_pow_lt_iff.1 hlt'
            rw [hs2, lowestBitSet_eq]; omega
        rw [if_neg (by rw [Classical.not_not]; exact hnm), ← hAB, heq]
        simp only [Except.ok.injEq, Prod.mk.injEq, true_and]
        unfold newNodes
        rw [show v - s = (v - (s + 1)) + 1 by omega, List.range'_succ, List.map_cons]
        congr 1
        congr 2
        rw [← hLL, List.length_append, hABlen, Nat.add_sub_cancel]
        simp

/-- One `append`. -/
theorem append_spec {t : Tree α} {L : List α} (h : TreeInv th t L) (leaf : Bytes) :
    ∃ t' v q, L.length + 1 = 2 ^ (v + 1) * q + 2 ^ v ∧
      TreeInv th t' (L ++ [th.hashLeaf leaf]) ∧
      append th t leaf = .ok (t.hashes.reverse, t',
        .leaf (th.hashLeaf leaf) ::
          (newNodes th (L ++ [th.hashLeaf leaf]) 0 v).map (fun p => .node (L.length + 1) p.2 p.1)) := by
  obtain ⟨bs, hb, rfl, hh⟩ := h.ex
  obtain ⟨bs', v, q, hb', hfl, hv, hlen, heq⟩ := pushSubtreeHash_spec th bs [th.hashLeaf leaf] 0 hb (by simp)
    (by
      intro A hA
      obtain ⟨e, he⟩ := hb.pow A hA
      rw [he]; exact Nat.one_le_two_pow)
  simp only [List.length_append, List.length_singleton] at hlen heq
  refine ⟨⟨bs.flatten.length + 1, bs'.map (mthN th)⟩, v, q, hlen,
    ⟨⟨bs', hb', hfl, rfl⟩, by simp⟩, ?_⟩
  obtain ⟨sz, hs⟩ := t
  simp only at hh
  have hsz := h.size
  simp only at hsz
  subst hh hsz
  have h1 : countBitsSet 1 = 1 := countBitsSet_two_pow 0
  have h2 : lowestBitSet 1 = 1 := lowestBitSet_two_pow 0
  unfold append pushSubtree
  simp only [List.length_singleton, h1, ne_eq, not_true, if_false, h2]
  rw [if_neg (by omega)]
  simp only [hashFull, mthN_one] at heq ⊢
  rw [heq]
  simp

theorem hashFull_ge2 {leaves : List Bytes} (h : 2 ≤ leaves.length) :
    hashFull th leaves =
      (th.hashChildren (hashFull th (leaves.take (splitPoint leaves.length))).1
        (hashFull th (leaves.drop (splitPoint leaves.length))).1,
       if splitPoint leaves.length * 2 = leaves.length then
        [th.hashChildren (hashFull th (leaves.take (splitPoint leaves.length))).1
          (hashFull th (leaves.drop (splitPoint leaves.length))).1]
       else (hashFull th (leaves.take (splitPoint leaves.length))).2 ++
        (hashFull th (leaves.drop (splitPoint leaves.length))).2) := by
  match leaves, h with
  | a :: b :: l, h =>
    conv => lhs; rw [hashFull]
    simp only [splitWidth_eq _ h]

/-- `_hash_full` computes the Merkle tree hash and its full-subtree hashes. -/
theorem hashFull_spec (D : List Bytes) :
    (hashFull th D).1 = mthN th (D.map th.hashLeaf) ∧
    (∃ bs, Blocks bs ∧ bs.flatten = D.map th.hashLeaf ∧ (hashFull th D).2 = bs.map (mthN th)) ∧
    (∀ e, D.length = 2 ^ e → (hashFull th D).2 = [(hashFull th D).1]) := by
  induction hn : D.length using Nat.strongRecOn generalizing D with
  | ind n ih =>
    by_cases h2 : n < 2
    · match D, hn with
      | [], hn =>
        refine ⟨by simp [hashFull, mthN_nil], ⟨[], Blocks.nil, by simp, by simp [hashFull]⟩, ?_⟩
        intro e he
        have := Nat.two_pow_pos e
        rw [List.length_nil] at hn
        omega
      | [a], _ =>
        exact ⟨by simp [hashFull, mthN_one], ⟨[[th.hashLeaf a]], Blocks.one (e := 0) (by simp), by simp,
          by simp [hashFull, mthN_one]⟩, by simp [hashFull]⟩
      | _ :: _ :: _, h => simp at h; omega
    · have h2 : 2 ≤ n := by omega
      have hlt := splitPoint_lt h2
      have hpos := splitPoint_pos n
      have hle := @le_two_splitPoint n
      obtain ⟨j, hj⟩ := splitPoint_isPow n
      obtain ⟨l1, l2, l3⟩ := ih _ (by simp; omega) (D.take (splitPoint n)) rfl
      obtain ⟨r1, r2, r3⟩ := ih _ (by simp; omega) (D.drop (splitPoint n)) rfl
      have hroot : th.hashChildren (hashFull th (D.take (splitPoint n))).1
          (hashFull th (D.drop (splitPoint n))).1 = mthN th (D.map th.hashLeaf) := by
        rw [mthN_ge2 th (L := D.map th.hashLeaf) (by simp; omega), l1, r1]
        simp [hn, List.map_take, List.map_drop]
      rw [hashFull_ge2 th (by omega), hn, hroot]
      by_cases hw : splitPoint n * 2 = n
      · simp only [hw, if_true, true_and]
        refine ⟨⟨[D.map th.hashLeaf], Blocks.one (e := j + 1) ?_, by simp, by simp⟩, by simp⟩
        rw [List.length_map, hn, Nat.pow_succ, ← hj, hw]
      · simp only [hw, if_false, true_and]
        refine ⟨?_, ?_⟩
        · have hl := l3 j (by rw [List.length_take]; omega)
          obtain ⟨bs, hb, hfl, hh⟩ := r2
          refine ⟨(D.take (splitPoint n)).map th.hashLeaf :: bs, ?_, ?_, ?_⟩
          · rw [Blocks.cons_iff]
            refine ⟨⟨j, by rw [List.length_map, List.length_take]; omega⟩, hb, ?_⟩
            intro B hB
            have h1 : B.length ≤ bs.flatten.length :=
              (List.sublist_flatten_of_mem hB).length_le
            rw [hfl] at h1
            simp only [List.length_map, List.length_take, List.length_drop] at *
            omega
          · rw [List.flatten_cons, hfl, ← List.map_append, List.take_append_drop]
          · rw [hl, hh, l1]; simp
        · intro e he
          exfalso
          apply hw
          match e with
          | 0 => simp at he; omega
          | e + 1 =>
            rw [Nat.pow_succ] at he
            have := splitPoint_unique (n := n) (j := e) (by have := Nat.two_pow_pos e; omega) (by omega)
            omega

theorem pushSubtree_spec {t : Tree α} {bs : List (List α)} (hb : Blocks bs)
    (ht : t = ⟨bs.flatten.length, bs.map (mthN th)⟩) (D : List Bytes) (s : Nat)
    (hD : D.length = 2 ^ s) (hge : ∀ A ∈ bs, 2 ^ s ≤ A.length) :
    ∃ bs' ws, Blocks bs' ∧ bs'.flatten = bs.flatten ++ D.map th.hashLeaf ∧
      pushSubtree th t D = .ok (⟨bs'.flatten.length, bs'.map (mthN th)⟩, ws) := by
  obtain ⟨bs', v, q, hb', hfl, hv, hlen, heq⟩ := pushSubtreeHash_spec th bs (D.map th.hashLeaf) s hb
    (by simp [hD]) hge
  suffices h : ∃ ws, pushSubtree th t D = .ok (⟨bs'.flatten.length, bs'.map (mthN th)⟩, ws) from by
    obtain ⟨ws, hw⟩ := h
    exact ⟨bs', ws, hb', hfl, hw⟩
  subst ht
  unfold pushSubtree
  simp only [hD, countBitsSet_two_pow, ne_eq, not_true, if_false, lowestBitSet_two_pow]
  rw [if_neg]
  · rw [(hashFull_spec th D).1, heq, hfl]
    exact ⟨_, rfl⟩
  · rintro ⟨h1, h2⟩
    rcases List.eq_nil_or_concat bs with rfl | ⟨bs0, A, rfl⟩
    · simp [lowestBitSet_zero] at h1
    · simp only [List.concat_eq_append] at *
      obtain ⟨e, he⟩ := hb.pow A (by simp)
      obtain ⟨q, hq, hs⟩ := blocks_snoc_size hb he
      have h4 := hge A (by simp)
      rw [he] at h4
      have := (Nat.pow_le_pow_iff_right (a := 2) (by omega)).1 h4
      rw [hs, lowestBitSet_eq] at h2
      omega

theorem extendLoop_spec (bs : List (List α)) (hb : Blocks bs) (rest : List Bytes) :
    ∃ bs' rest', Blocks bs' ∧
      extendLoop th ⟨bs.flatten.length, bs.map (mthN th)⟩ rest =
        .ok (⟨bs'.flatten.length, bs'.map (mthN th)⟩, rest') ∧
      bs'.flatten ++ rest'.map th.hashLeaf = bs.flatten ++ rest.map th.hashLeaf ∧
      (∀ A ∈ bs', rest'.length < A.length) := by
  induction hn : rest.length using Nat.strongRecOn generalizing bs rest with
  | ind n ih =>
    rw [extendLoop]
    simp only
    rcases List.eq_nil_or_concat bs with rfl | ⟨bs0, A, rfl⟩
    · refine ⟨[], rest, Blocks.nil, ?_, by simp, by simp⟩
      rw [dif_neg (by simp [lowestBitSet_zero])]
    · simp only [List.concat_eq_append] at *
      obtain ⟨h1, h2, h3⟩ := Blocks.append_iff.1 hb
      obtain ⟨e, he⟩ := h2.pow A (by simp)
      obtain ⟨q, hq, hs⟩ := blocks_snoc_size hb he
      have hlow : lowestBitSet (bs0 ++ [A]).flatten.length = e + 1 := by rw [hs, lowestBitSet_eq]
      have hmin : ∀ X ∈ bs0 ++ [A], 2 ^ e ≤ X.length := by
        intro X hX
        rcases List.mem_append.1 hX with h | h
        · have := h3 X h A (by simp); omega
        · have : X = A := by simpa using h
          subst this; omega
      by_cases hc : 2 ^ e ≤ rest.length
      · rw [dif_pos (by rw [hlow]; simp [Nat.shiftLeft_eq]; omega)]
        rw [hlow]
        simp only [Nat.add_sub_cancel, Nat.shiftLeft_eq, Nat.one_mul]
        have hlt : (rest.take (2 ^ e)).length = 2 ^ e := by rw [List.length_take]; omega
        obtain ⟨bs1, ws, hb1, hfl1, heq1⟩ := pushSubtree_spec th hb rfl (rest.take (2 ^ e)) e hlt hmin
        rw [heq1]
        simp only
        have hp := Nat.two_pow_pos e
        obtain ⟨bs', rest', hb', heq', hfl', hA⟩ := ih _ (by simp; omega) bs1 hb1 (rest.drop (2 ^ e)) rfl
        refine ⟨bs', rest', hb', heq', ?_, hA⟩
        rw [hfl', hfl1, List.append_assoc, ← List.map_append, List.take_append_drop]
      · rw [dif_neg (by rw [hlow]; simp [Nat.shiftLeft_eq]; omega)]
        refine ⟨bs0 ++ [A], rest, hb, rfl, rfl, ?_⟩
        intro X hX
        have := hmin X hX
        omega

/-- `extend` adds all the leaves. -/
theorem extend_spec {t : Tree α} {L : List α} (h : TreeInv th t L) (D : List Bytes) :
    ∃ t', extend th t D = .ok t' ∧ TreeInv th t' (L ++ D.map th.hashLeaf) := by
  obtain ⟨bs, hb, rfl, hh⟩ := h.ex
  obtain ⟨sz, hs⟩ := t
  have hsz := h.size
  simp only at hh hsz
  subst hh hsz
  obtain ⟨bs', rest', hb', heq', hfl', hA⟩ := extendLoop_spec th bs hb D
  unfold extend
  simp only
  rw [heq']
  simp only
  have hlen := congrArg List.length hfl'
  simp only [List.length_append, List.length_map] at hlen
  by_cases hr : rest' = []
  · subst hr
    simp only [ne_eq, not_true, if_false]
    simp only [List.map_nil, List.append_nil, List.length_nil, Nat.add_zero] at hfl' hlen
    rw [if_neg (by omega)]
    exact ⟨_, rfl, ⟨bs', hb', hfl', rfl⟩, by simp [hlen]⟩
  · rw [if_pos hr]
    obtain ⟨_, ⟨bsr, hbr, hflr, hhr⟩, _⟩ := hashFull_spec th rest'
    have hball : Blocks (bs' ++ bsr) := by
      rw [Blocks.append_iff]
      refine ⟨hb', hbr, fun A hA' B hB => ?_⟩
      have h1 : B.length ≤ bsr.flatten.length := (List.sublist_flatten_of_mem hB).length_le
      have := hA A hA'
      rw [hflr, List.length_map] at h1
      omega
    have hfin : bs.flatten.length + D.length = (bs' ++ bsr).flatten.length := by
      rw [List.flatten_append, List.length_append, hflr, List.length_map]; omega
    have := update_ok th hball hfin
    rw [List.map_append] at this
    rw [hhr, this]
    simp only [ne_eq, not_true, if_false]
    refine ⟨_, rfl, ⟨bs' ++ bsr, hball, ?_, by simp⟩, by simp⟩
    rw [List.flatten_append, hflr, hfl']

/-- The audit path returned by `append` is the RFC 6962 path of the new leaf. -/
theorem hashes_reverse_path (bs : List (List α)) (hb : Blocks bs) (x : α) :
    (bs.map (mthN th)).reverse = pathN th bs.flatten.length (bs.flatten ++ [x]) := by
  induction bs with
  | nil => simp [pathN_lt2]
  | cons A bs ih =>
    obtain ⟨⟨e, he⟩, h2, h3⟩ := Blocks.cons_iff.1 hb
    have hlt := blocks_lt hb
    have hp := Nat.two_pow_pos e
    rw [List.map_cons, List.reverse_cons, ih h2]
    have hlen : ((A :: bs).flatten ++ [x]).length = A.length + bs.flatten.length + 1 := by
      simp [Nat.add_assoc]
    rw [pathN_ge2 th (L := (A :: bs).flatten ++ [x]) (by rw [hlen]; omega)]
    have hs : splitPoint ((A :: bs).flatten ++ [x]).length = A.length := by
      rw [he]; apply splitPoint_unique <;> rw [hlen] <;> omega
    rw [hs, if_neg (by simp)]
    simp [List.flatten_cons]

end Verif.Merkle
