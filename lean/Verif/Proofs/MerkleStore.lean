import Verif.Proofs.MerkleTree
/-! The hash store: node positions, historic heads, proofs read from it. -/
namespace Verif.Merkle
open Spec (splitPoint splitPoint_pos splitPoint_lt le_two_splitPoint)

variable {α : Type} (th : TreeHasher α)

theorem expectedNodeCount_step (n : Nat) : expectedNodeCount n ≤ expectedNodeCount (n + 1) := by
  obtain ⟨e, q, h⟩ := exists_odd_factor (n + 1) (by omega)
  have := expectedNodeCount_succ e q
  rw [← h] at this
  simp at this; omega

theorem expectedNodeCount_mono {a b : Nat} (h : a ≤ b) : expectedNodeCount a ≤ expectedNodeCount b := by
  induction b with
  | zero => simp [show a = 0 by omega]
  | succ b ih =>
    by_cases hb : a = b + 1
    · subst hb; exact Nat.le_refl _
    · exact Nat.le_trans (ih (by omega)) (expectedNodeCount_step b)

theorem pow_dvd_exact {h e q : Nat} (hd : 2 ^ h ∣ 2 ^ (e + 1) * q + 2 ^ e) : h ≤ e := by
  apply Classical.byContradiction
  intro hlt
  have h1 : 2 ^ (e + 1) ∣ 2 ^ h := Nat.pow_dvd_pow 2 (by omega)
  have h2 := Nat.dvd_trans h1 hd
  have h3 : 2 ^ (e + 1) ∣ 2 ^ e := (Nat.dvd_add_right (Nat.dvd_mul_right _ _)).1 h2
  have := Nat.le_of_dvd (Nat.two_pow_pos e) h3
  rw [Nat.pow_succ] at this
  have := Nat.two_pow_pos e
  omega

theorem position_le {n h : Nat} (hn : 0 < n) (hh : 0 < h) (hd : 2 ^ h ∣ n) :
    getNodePosition n h ≤ expectedNodeCount n := by
  rw [getNodePosition_eq n h hn hh]
  obtain ⟨e, q, he⟩ := exists_odd_factor n (by omega)
  rw [he] at hd
  have := pow_dvd_exact hd
  have h2 := expectedNodeCount_succ e q
  rw [← he] at h2
  omega

/-- Value of the node of height `h` ending at leaf `n`. -/
def nodeVal (L : List α) (n h : Nat) : α := mthN th ((L.take n).drop (n - 2 ^ h))

/-- Store content after some of the writes for the leaf hashes `L`: all
leaves, and the first `k` nodes. -/
structure StoreInv (s : HashStore α) (L : List α) (k : Nat) : Prop where
  leaves : s.leaves = L
  node : ∀ n h, 0 < h → 0 < n → n ≤ L.length → 2 ^ h ∣ n → getNodePosition n h ≤ k →
    s.readNode (getNodePosition n h) = some (nodeVal th L n h)
  keys : ∀ p ∈ s.nodes, 0 < p.1 ∧ p.1 ≤ k
  count : s.nodes.length = k

theorem StoreInv.empty : StoreInv th HashStore.empty [] 0 :=
  ⟨rfl, by intro n h _ h1 h2; simp at h2; omega, by simp [HashStore.empty], rfl⟩

theorem kvGet_put_same (m : List (Nat × α)) (k : Nat) (v : α) : kvGet (kvPut m k v) k = some v := by
  simp [kvGet, kvPut]

theorem kvGet_put_other (m : List (Nat × α)) {k k' : Nat} (v : α) (h : k' ≠ k) :
    kvGet (kvPut m k v) k' = kvGet m k' := by
  unfold kvGet kvPut
  rw [List.find?_cons_of_neg (by simp; omega)]
  congr 1
  induction m with
  | nil => simp
  | cons a m ih =>
    by_cases ha : a.1 = k
    · rw [List.filter_cons_of_neg (by simp [ha]), ih, List.find?_cons_of_neg (by simp; omega)]
    · rw [List.filter_cons_of_pos (by simp [ha])]
      by_cases hk : a.1 = k'
      · rw [List.find?_cons_of_pos (by simp [hk]), List.find?_cons_of_pos (by simp [hk])]
      · rw [List.find?_cons_of_neg (by simp [hk]), List.find?_cons_of_neg (by simp [hk]), ih]

theorem kvPut_length_fresh (m : List (Nat × α)) {k : Nat} (v : α) (h : ∀ p ∈ m, p.1 ≠ k) :
    (kvPut m k v).length = m.length + 1 := by
  unfold kvPut
  rw [List.filter_eq_self.2 (by intro a ha; simpa using h a ha)]; simp

theorem StoreInv.writeLeaf {s : HashStore α} {L : List α} (h : StoreInv th s L (expectedNodeCount L.length))
    (x : α) : StoreInv th (s.write (.leaf x)) (L ++ [x]) (expectedNodeCount L.length) := by
  refine ⟨by simp [HashStore.write, h.leaves], ?_, h.keys, h.count⟩
  intro n hh h0 hn hle hd hpos
  have hnL : n ≤ L.length := by
    rw [getNodePosition_eq n hh hn h0] at hpos
    apply Classical.byContradiction
    intro hgt
    have : expectedNodeCount L.length ≤ expectedNodeCount (n - 1) := expectedNodeCount_mono (by omega)
    omega
  have := h.node n hh h0 hn hnL hd hpos
  rw [show (s.write (.leaf x)).readNode (getNodePosition n hh) = s.readNode (getNodePosition n hh) from rfl, this]
  unfold nodeVal
  rw [List.take_append_of_le_length hnL]

theorem StoreInv.writeNode {s : HashStore α} {L : List α} {e q h : Nat} (hpos : L.length = 2 ^ (e + 1) * q + 2 ^ e)
    (hh : h < e) (hs : StoreInv th s L (expectedNodeCount (L.length - 1) + h)) :
    StoreInv th (s.write (.node L.length (h + 1) (nodeVal th L L.length (h + 1)))) L
      (expectedNodeCount (L.length - 1) + (h + 1)) := by
  have hL : 0 < L.length := by have := Nat.two_pow_pos e; omega
  have hp := getNodePosition_eq L.length (h + 1) hL (by omega)
  refine ⟨hs.leaves, ?_, ?_, ?_⟩
  · intro n h' h0 hn hle hd hk
    by_cases heq : getNodePosition n h' = getNodePosition L.length (h + 1)
    · have hnL : n = L.length := by
        apply Classical.byContradiction
        intro hne
        have h1 := position_le hn h0 hd
        have : expectedNodeCount n ≤ expectedNodeCount (L.length - 1) := expectedNodeCount_mono (by omega)
        omega
      subst hnL
      rw [getNodePosition_eq _ h' hn h0, hp] at heq
      have : h' = h + 1 := by omega
      subst this
      simp [HashStore.write, HashStore.readNode, kvGet_put_same]
    · simp only [HashStore.write, HashStore.readNode]
      rw [kvGet_put_other _ _ heq]
      exact hs.node n h' h0 hn hle hd (by omega)
  · intro p hpm
    simp only [HashStore.write, kvPut, List.mem_cons] at hpm
    rcases hpm with rfl | hpm
    · simp only; omega
    · have := hs.keys p (List.mem_filter.1 hpm).1
      omega
  · simp only [HashStore.write]
    rw [kvPut_length_fresh, hs.count]
    · omega
    · intro p hpm
      have := hs.keys p hpm
      omega

theorem newNodes_zero (L : List α) (v : Nat) :
    newNodes th L 0 v = (List.range' 1 v).map (fun h => (nodeVal th L L.length h, h)) := by
  unfold newNodes nodeVal
  simp

/-- The store writes of one append, cut at any point after the leaf. -/
theorem append_writes_prefix {s : HashStore α} {L : List α} (x : α) {v q : Nat}
    (hv : L.length + 1 = 2 ^ (v + 1) * q + 2 ^ v)
    (hs : StoreInv th s L (expectedNodeCount L.length)) (j : Nat) (hj : j ≤ v) :
    StoreInv th
      ((StoreWrite.leaf x :: ((newNodes th (L ++ [x]) 0 v).map
          (fun p => StoreWrite.node (L.length + 1) p.2 p.1)).take j).foldl HashStore.write s)
      (L ++ [x]) (expectedNodeCount L.length + j) := by
  rw [List.foldl_cons]
  induction j with
  | zero => simpa using hs.writeLeaf th x
  | succ j ih =>
    have ih := ih (by omega)
    have hget : ((newNodes th (L ++ [x]) 0 v).map (fun p => StoreWrite.node (L.length + 1) p.2 p.1))[j]? =
        some (.node (L.length + 1) (j + 1) (nodeVal th (L ++ [x]) (L ++ [x]).length (j + 1))) := by
      rw [newNodes_zero]
      simp only [List.map_map, List.getElem?_map]
      rw [List.getElem?_range' (by omega)]
      simp [Nat.add_comm]
    rw [take_succ_get hget, List.foldl_append, List.foldl_cons, List.foldl_nil]
    have := StoreInv.writeNode th (L := L ++ [x]) (e := v) (q := q) (h := j) (by simpa using hv) (by omega)
      (by simpa using ih)
    simpa using this

theorem append_writes {s : HashStore α} {L : List α} (x : α) {v q : Nat}
    (hv : L.length + 1 = 2 ^ (v + 1) * q + 2 ^ v)
    (hs : StoreInv th s L (expectedNodeCount L.length)) :
    StoreInv th
      ((StoreWrite.leaf x :: (newNodes th (L ++ [x]) 0 v).map
          (fun p => StoreWrite.node (L.length + 1) p.2 p.1)).foldl HashStore.write s)
      (L ++ [x]) (expectedNodeCount (L ++ [x]).length) := by
  have := append_writes_prefix th x hv hs v (Nat.le_refl _)
  rw [List.take_of_length_le (by simp [newNodes])] at this
  have h2 := expectedNodeCount_succ v q
  rw [← hv] at h2
  simp only [Nat.add_sub_cancel] at h2
  rw [List.length_append, List.length_singleton, h2]
  exact this

/-! ## Reading -/

theorem mapM_id_some {β} (l : List β) : (l.map some).mapM id = some l := by
  induction l with
  | nil => rfl
  | cons a l ih => simp [List.mapM_cons, ih]

theorem readLeaf_eq {s : HashStore α} {L : List α} {k : Nat} (h : StoreInv th s L k) {p : Nat}
    (h0 : 0 < p) : s.readLeaf p = L[p - 1]? := by
  unfold HashStore.readLeaf
  rw [if_neg (by omega), h.leaves]

theorem slice_length {L : List α} {a b : Nat} (hb : b ≤ L.length) : ((L.take b).drop a).length = b - a := by
  simp; omega

theorem slice_split {L : List α} {a c b : Nat} (h1 : a ≤ c) (h2 : c ≤ b) (h3 : b ≤ L.length) :
    (L.take b).drop a = (L.take c).drop a ++ (L.take b).drop c := by
  have e1 : L.take c = (L.take b).take c := by rw [List.take_take]; congr 1; omega
  rw [e1]
  conv => lhs; rw [← List.take_append_drop c (L.take b)]
  rw [List.drop_append_of_le_length (by simp; omega)]

theorem slice_one {L : List α} {b : Nat} (h0 : 0 < b) {x : α} (hx : L[b - 1]? = some x) :
    (L.take b).drop (b - 1) = [x] := by
  have : L.take b = L.take (b - 1) ++ [x] := by
    have := take_succ_get hx
    rwa [show b - 1 + 1 = b by omega] at this
  obtain ⟨hlt, _⟩ := List.getElem?_eq_some_iff.1 hx
  rw [this, List.drop_append_of_le_length (by simp; omega), List.drop_of_length_le (by simp; omega)]
  simp

theorem getPath_read {s : HashStore α} {L : List α} {k : Nat} (hs : StoreInv th s L k) (b a j : Nat)
    (hab : a < b) (hb : b ≤ L.length) (hk : expectedNodeCount (b - 1) ≤ k) (hj : 1 ≤ j)
    (hd : 2 ^ j ∣ a) (hw : b - a ≤ 2 ^ j) :
    ∃ leafs nodes, ∃ hsl : List α, getPath b a = .ok (leafs, nodes) ∧
      s.readLeaf b :: (leafs.map s.readLeaf ++ nodes.map s.readNode) = hsl.map some ∧
      hashFold th hsl.reverse = some (mthN th ((L.take b).drop a)) := by
  induction hn : b - a using Nat.strongRecOn generalizing a j with
  | ind n ih =>
    have haev : a % 2 = 0 := by
      have : 2 ∣ a := Nat.dvd_trans (Nat.dvd_of_pow_dvd hj (Nat.dvd_refl _)) hd
      omega
    obtain ⟨v, hlb⟩ : ∃ v, L[b - 1]? = some v := ⟨_, List.getElem?_eq_getElem (by omega)⟩
    rw [getPath, dif_neg (by omega)]
    by_cases h1 : n = 1
    · have e : b - 1 - a = 0 := by omega
      have e2 : highestBitSet 0 = 0 := by rw [highestBitSet]; simp
      have ha : a = b - 1 := by omega
      simp only [e, e2]
      rw [if_pos (by omega), if_neg (by omega)]
      refine ⟨[], [], [v], rfl, by simp [readLeaf_eq th hs (show 0 < b by omega), hlb], ?_⟩
      simp only [List.reverse_singleton, hashFold]
      rw [ha, slice_one (by omega) hlb, mthN_one]
    · by_cases h2 : n = 2
      · have e : b - 1 - a = 1 := by omega
        have e2 : highestBitSet 1 = 1 := by rw [highestBitSet_eq 1 (by omega)]; simp [Nat.log2_def]
        have ha : a = b - 1 - 1 := by omega
        obtain ⟨v', hlb'⟩ : ∃ v', L[b - 1 - 1]? = some v' := ⟨_, List.getElem?_eq_getElem (by omega)⟩
        simp only [e, e2]
        rw [if_pos (by omega), if_pos (by omega)]
        refine ⟨[b - 1], [], [v, v'], rfl, ?_, ?_⟩
        · simp [readLeaf_eq th hs (show 0 < b by omega), readLeaf_eq th hs (show 0 < b - 1 by omega), hlb, hlb']
        · rw [slice_split (c := b - 1) (by omega) (by omega) hb, slice_one (by omega) hlb, ha,
            slice_one (by omega) hlb']
          rw [mthN_append th (j := 0) (by simp) (by simp) (by simp), mthN_one, mthN_one]
          simp [hashFold]
      · have hne : b - 1 - a ≠ 0 := by omega
        have hl2 : 1 ≤ Nat.log2 (b - 1 - a) := (Nat.le_log2 hne).2 (by omega)
        simp only [highestBitSet_eq _ hne]
        rw [if_neg (by omega), Nat.add_sub_cancel]
        have hle : 2 ^ Nat.log2 (b - 1 - a) ≤ b - 1 - a := Nat.log2_self_le hne
        have hlt : b - 1 - a < 2 ^ (Nat.log2 (b - 1 - a) + 1) := Nat.lt_log2_self
        rw [Nat.pow_succ] at hlt
        generalize hp : Nat.log2 (b - 1 - a) = p at *
        have hpp := Nat.two_pow_pos p
        have hpj : p < j := by
          have : 2 ^ p < 2 ^ j := by omega
          exact two_pow_lt_iff.1 this
        have hdc : 2 ^ p ∣ 2 ^ p + a :=
          Nat.dvd_add (Nat.dvd_refl _) (Nat.dvd_trans (Nat.pow_dvd_pow 2 (by omega)) hd)
        obtain ⟨leafs, nodes, hsl, g1, g2, g3⟩ := ih (b - (2 ^ p + a)) (by omega) (2 ^ p + a) p
          (by omega) hl2 hdc (by omega) rfl
        rw [g1]
        have hnode := hs.node (2 ^ p + a) p (by omega) (by omega) (by omega) hdc (by
          have h1 := position_le (n := 2 ^ p + a) (h := p) (by omega) (by omega) hdc
          have h2 : expectedNodeCount (2 ^ p + a) ≤ expectedNodeCount (b - 1) := expectedNodeCount_mono (by omega)
          omega)
        refine ⟨leafs, nodes ++ [getNodePosition (2 ^ p + a) p], hsl ++ [nodeVal th L (2 ^ p + a) p], rfl, ?_, ?_⟩
        · rw [List.map_append, List.map_append, ← g2, ← List.append_assoc]
          simp [hnode]
        · rw [List.reverse_append, List.reverse_singleton, List.singleton_append]
          have hsne : hsl.reverse ≠ [] := by
            intro h0
            have : hsl = [] := by simpa using h0
            subst this
            simp at g2
          rw [slice_split (a := a) (c := 2 ^ p + a) (by omega) (by omega) hb]
          rw [mthN_append th (j := p) (by rw [slice_length (by omega)]; omega)
            (List.ne_nil_of_length_pos (by rw [slice_length hb]; omega)) (by rw [slice_length hb]; omega)]
          match hr : hsl.reverse, hsne with
          | c :: cs, _ =>
            rw [hashFold, ← hr, g3, Option.map_some]
            · unfold nodeVal
              rw [Nat.add_sub_cancel_left]
            · simp

/-- The hash of an aligned range, as read from the store. -/
theorem merkleTreeHash_eq {s : HashStore α} {L : List α} {k : Nat} (hs : StoreInv th s L k) {a b j : Nat}
    (hab : a < b) (hb : b ≤ L.length) (hk : expectedNodeCount (b - 1) ≤ k)
    (hd : 2 ^ j ∣ a) (hw : b - a ≤ 2 ^ j) :
    merkleTreeHash th s a b = .ok (mthN th ((L.take b).drop a)) := by
  unfold merkleTreeHash
  rw [if_neg (by omega)]
  by_cases h1 : b - a = 1
  · obtain ⟨v, hlb⟩ : ∃ v, L[b - 1]? = some v := ⟨_, List.getElem?_eq_getElem (by omega)⟩
    rw [if_pos h1, readLeaf_eq th hs (by omega), hlb]
    simp only
    rw [show a = b - 1 by omega, slice_one (by omega) hlb, mthN_one]
  · rw [if_neg h1]
    have hj : 1 ≤ j := by
      rcases j with _ | j
      · simp at hw; omega
      · omega
    obtain ⟨leafs, nodes, hsl, g1, g2, g3⟩ := getPath_read th hs b a j hab hb hk hj hd hw
    rw [g1]
    simp only
    rw [g2, mapM_id_some]
    simp only
    rw [g3]

/-- Ranges split at the RFC split point stay aligned. -/
theorem aligned_split {a b j : Nat} (hw2 : 2 ≤ b - a) (hd : 2 ^ j ∣ a) (hw : b - a ≤ 2 ^ j) :
    ∃ p, splitPoint (b - a) = 2 ^ p ∧ 2 ^ p ∣ a ∧ 2 ^ p ∣ a + splitPoint (b - a) ∧
      b - (a + splitPoint (b - a)) ≤ 2 ^ p ∧ splitPoint (b - a) < b - a := by
  obtain ⟨p, hp⟩ := splitPoint_isPow (b - a)
  have hlt := splitPoint_lt hw2
  have hle := @le_two_splitPoint (b - a)
  have hpj : p < j := by
    have : 2 ^ p < 2 ^ j := by omega
    exact two_pow_lt_iff.1 this
  have hda : 2 ^ p ∣ a := Nat.dvd_trans (Nat.pow_dvd_pow 2 (by omega)) hd
  refine ⟨p, hp, hda, ?_, by omega, by omega⟩
  rw [hp]; exact Nat.dvd_add hda (Nat.dvd_refl _)

theorem slice_take {L : List α} {a b w : Nat} (hw : a + w ≤ b) (hb : b ≤ L.length) :
    ((L.take b).drop a).take w = (L.take (a + w)).drop a := by
  rw [slice_split (c := a + w) (by omega) hw hb, List.take_append_of_le_length (by rw [slice_length (by omega)]; omega),
    List.take_of_length_le (by rw [slice_length (by omega)]; omega)]

theorem slice_drop {L : List α} {a b w : Nat} :
    ((L.take b).drop a).drop w = (L.take b).drop (a + w) := by
  rw [List.drop_drop]

theorem auditPath_read {s : HashStore α} {L : List α} {k : Nat} (hs : StoreInv th s L k) (m a b j : Nat)
    (hab : a < b) (hb : b ≤ L.length) (hk : expectedNodeCount (b - 1) ≤ k)
    (hd : 2 ^ j ∣ a) (hw : b - a ≤ 2 ^ j) :
    (auditPathRanges m a b).mapM (fun r => merkleTreeHash th s r.1 r.2) =
      .ok (pathN th m ((L.take b).drop a)) := by
  induction hn : b - a using Nat.strongRecOn generalizing m a b j with
  | ind n ih =>
    rw [auditPathRanges]
    by_cases h2 : n < 2
    · simp only [hn]
      rw [dif_pos h2, pathN_lt2 th (by rw [slice_length hb]; omega)]
      rfl
    · simp only [hn]
      rw [dif_neg h2, pathN_ge2 th (by rw [slice_length hb]; omega), slice_length hb, hn,
        splitWidth_eq n (by omega)]
      obtain ⟨p, hp, hda, hdc, hwr, hlt⟩ := aligned_split (a := a) (b := b) (by omega) hd hw
      rw [hn] at hp hdc hwr hlt
      have hpp := Nat.two_pow_pos p
      have hkl : expectedNodeCount (a + splitPoint n - 1) ≤ k :=
        Nat.le_trans (expectedNodeCount_mono (by omega)) hk
      rw [slice_take (by omega) hb, slice_drop]
      split
      · have e1 := ih (splitPoint n) (by omega) m a (a + splitPoint n) p (by omega) (by omega) hkl hda (by omega) (by omega)
        have e2 := merkleTreeHash_eq th hs (a := a + splitPoint n) (b := b) (by omega) hb hk hdc hwr
        rw [List.mapM_append, e1]
        simp [e2]
        rfl
      · have e1 := ih (b - (a + splitPoint n)) (by omega) (m - splitPoint n) (a + splitPoint n) b p (by omega) hb hk hdc hwr rfl
        have e2 := merkleTreeHash_eq th hs (a := a) (b := a + splitPoint n) (j := p) (by omega) (by omega) hkl hda (by omega)
        rw [List.mapM_append, e1]
        simp [e2]
        rfl

theorem subproof_read {s : HashStore α} {L : List α} {k : Nat} (hs : StoreInv th s L k) (m a b j : Nat) (fl : Bool)
    (hm0 : 0 < m) (hm : m ≤ b - a) (hb : b ≤ L.length) (hk : expectedNodeCount (b - 1) ≤ k)
    (hd : 2 ^ j ∣ a) (hw : b - a ≤ 2 ^ j) :
    ∃ rs, subproof m a b fl = some rs ∧
      rs.mapM (fun r => merkleTreeHash th s r.1 r.2) = .ok (subproofN th m ((L.take b).drop a) fl) := by
  induction hn : b - a using Nat.strongRecOn generalizing m a b j fl with
  | ind n ih =>
    rw [subproof]
    simp only [hn]
    by_cases hmn : m = n
    · rw [if_pos hmn, subproofN_eq th (by rw [slice_length hb]; omega)]
      cases fl
      · refine ⟨[(a, b)], by simp, ?_⟩
        have := merkleTreeHash_eq th hs (a := a) (b := b) (by omega) hb hk hd hw
        simp [List.mapM_cons, this]
        rfl
      · exact ⟨[], by simp, rfl⟩
    · rw [if_neg hmn, dif_neg (by omega), subproofN_ge2 th (by rw [slice_length hb]; omega)
        (by rw [slice_length hb]; omega), slice_length hb, hn, splitWidth_eq n (by omega)]
      obtain ⟨p, hp, hda, hdc, hwr, hlt⟩ := aligned_split (a := a) (b := b) (by omega) hd hw
      rw [hn] at hp hdc hwr hlt
      have hpp := Nat.two_pow_pos p
      have hkl : expectedNodeCount (a + splitPoint n - 1) ≤ k :=
        Nat.le_trans (expectedNodeCount_mono (by omega)) hk
      rw [slice_take (by omega) hb, slice_drop]
      split
      · obtain ⟨rs, e0, e1⟩ := ih (splitPoint n) (by omega) m a (a + splitPoint n) p fl hm0 (by omega) (by omega) hkl hda (by omega) (by omega)
        have e2 := merkleTreeHash_eq th hs (a := a + splitPoint n) (b := b) (by omega) hb hk hdc hwr
        refine ⟨rs ++ [(a + splitPoint n, b)], by rw [e0]; rfl, ?_⟩
        rw [List.mapM_append, e1]
        simp [e2]
        rfl
      · obtain ⟨rs, e0, e1⟩ := ih (b - (a + splitPoint n)) (by omega) (m - splitPoint n) (a + splitPoint n) b p false (by omega) (by omega) hb hk hdc hwr rfl
        have e2 := merkleTreeHash_eq th hs (a := a) (b := a + splitPoint n) (j := p) (by omega) (by omega) hkl hda (by omega)
        refine ⟨rs ++ [(a, a + splitPoint n)], by rw [e0]; rfl, ?_⟩
        rw [List.mapM_append, e1]
        simp [e2]
        rfl

theorem exists_pow_ge (n : Nat) : ∃ j, n ≤ 2 ^ j := ⟨n, Nat.le_of_lt Nat.lt_two_pow_self⟩

theorem inclusionProof_eq {s : HashStore α} {L : List α} {k : Nat} (hs : StoreInv th s L k) {m n : Nat}
    (h0 : 0 < n) (hn : n ≤ L.length) (hk : expectedNodeCount (n - 1) ≤ k) :
    inclusionProof th s m n = .ok (pathN th m (L.take n)) := by
  obtain ⟨j, hj⟩ := exists_pow_ge n
  have := auditPath_read th hs m 0 n j h0 hn hk (Nat.dvd_zero _) (by omega)
  simpa [inclusionProof] using this

theorem consistencyProof_eq {s : HashStore α} {L : List α} {k : Nat} (hs : StoreInv th s L k) {m n : Nat}
    (h0 : 0 < m) (hm : m ≤ n) (hn : n ≤ L.length) (hk : expectedNodeCount (n - 1) ≤ k) :
    consistencyProof th s m n = .ok (subproofN th m (L.take n) true) := by
  obtain ⟨j, hj⟩ := exists_pow_ge n
  obtain ⟨rs, e0, e1⟩ := subproof_read th hs m 0 n j true h0 (by omega) hn hk (Nat.dvd_zero _) (by omega)
  unfold consistencyProof
  rw [e0]
  simpa using e1

end Verif.Merkle
