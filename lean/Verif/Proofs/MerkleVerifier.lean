import Verif.Proofs.MerkleLevels
/-! Completeness and soundness of the Merkle proof verifier. -/
namespace Verif.Merkle
open Spec (splitPoint splitPoint_pos splitPoint_lt le_two_splitPoint Collision mth mthInputs
  nodeInput leafInput)

section complete
variable {α : Type} (th : TreeHasher α)

theorem pathN_ne_nil {m : Nat} {L : List α} (h : 2 ≤ L.length) : pathN th m L ≠ [] := by
  rw [pathN_ge2 th h]; split <;> simp

theorem pairUp_get_odd {L : List α} {m : Nat} {x y : α} (ho : m % 2 = 1) (hx : L[m - 1]? = some x)
    (hy : L[m]? = some y) : (pairUp th L)[m / 2]? = some (th.hashChildren x y) := by
  obtain ⟨h1, rfl⟩ := List.getElem?_eq_some_iff.1 hx
  obtain ⟨h2, rfl⟩ := List.getElem?_eq_some_iff.1 hy
  rw [pairUp_get_pair th (i := m / 2) (by omega)]
  congr 3 <;> omega

theorem pairUp_get_even {L : List α} {m : Nat} {x y : α} (ho : m % 2 = 0) (hx : L[m]? = some x)
    (hy : L[m + 1]? = some y) : (pairUp th L)[m / 2]? = some (th.hashChildren x y) := by
  obtain ⟨h1, rfl⟩ := List.getElem?_eq_some_iff.1 hx
  obtain ⟨h2, rfl⟩ := List.getElem?_eq_some_iff.1 hy
  rw [pairUp_get_pair th (i := m / 2) (by omega)]
  congr 3 <;> omega

theorem pairUp_get_end {L : List α} {m : Nat} (ho : m % 2 = 0) (hm : m + 1 = L.length) :
    (pairUp th L)[m / 2]? = L[m]? := by
  rw [pairUp_get_last th (by omega)]
  congr 1; omega

theorem calcRoot_complete (L : List α) (m : Nat) (x : α) (hx : L[m]? = some x) :
    calcRoot th x m (L.length - 1) (pathN th m L) = some (mthN th L) := by
  induction hn : L.length using Nat.strongRecOn generalizing L m x with
  | ind n ih =>
    obtain ⟨hm, hxe⟩ := List.getElem?_eq_some_iff.1 hx
    by_cases h1 : n = 1
    · match L, hn, h1 with
      | [a], _, _ =>
        have : m = 0 := by simpa using hm
        subst this
        have : a = x := by simpa using hx
        subst this
        subst h1
        rw [calcRoot.eq_def]; simp [pathN_lt2, mthN_one]
      | [], h, h' => simp at h; omega
      | _ :: _ :: _, h, h' => simp at h; omega
    · have hl : (pairUp th L).length = (n + 1) / 2 := by rw [pairUp_length, hn]
      have hlast : (n - 1) / 2 = (pairUp th L).length - 1 := by omega
      rw [pathN_level th L m hm, calcRoot.eq_def, dif_neg (by omega)]
      by_cases ho : m % 2 = 1
      · have hy : L[m - 1]? = some (L[m - 1]'(by omega)) := List.getElem?_eq_getElem _
        simp only [sib, if_pos ho, hy, Option.toList, List.cons_append, List.nil_append]
        have := pairUp_get_odd th ho hy hx
        rw [hlast, ih _ (by omega) (pairUp th L) (m / 2) _ this rfl, mthN_pairUp]
      · by_cases hlt : m + 1 < n
        · have hy : L[m + 1]? = some (L[m + 1]'(by omega)) := List.getElem?_eq_getElem _
          simp only [sib, if_neg ho, hy, Option.toList, List.cons_append, List.nil_append]
          rw [if_pos (by omega)]
          have := pairUp_get_even th (by omega) hx hy
          rw [hlast, ih _ (by omega) (pairUp th L) (m / 2) _ this rfl, mthN_pairUp]
        · have hy : L[m + 1]? = none := List.getElem?_eq_none (by omega)
          simp only [sib, if_neg ho, hy, Option.toList, List.nil_append]
          have hne : pathN th (m / 2) (pairUp th L) ≠ [] := pathN_ne_nil th (by omega)
          have hg := pairUp_get_end th (L := L) (m := m) (by omega) (by omega)
          have := ih _ (by omega) (pairUp th L) (m / 2) x (by rw [hg, hx]) rfl
          rw [mthN_pairUp, ← hlast] at this
          match hp : pathN th (m / 2) (pairUp th L) with
          | [] => exact absurd hp hne
          | a :: p' =>
            simp only
            rw [if_neg (by omega), ← hp, this]

theorem consLoop2_complete (hs : List α) (x : α) (extra : List α) (hx : hs[0]? = some x) :
    consLoop2 th (hs.length - 1) x (pathN th 0 hs ++ extra) = some (mthN th hs) := by
  induction hn : hs.length using Nat.strongRecOn generalizing hs x with
  | ind n ih =>
    obtain ⟨hm, hxe⟩ := List.getElem?_eq_some_iff.1 hx
    by_cases h1 : n = 1
    · match hs, hn, h1 with
      | [a], _, _ =>
        have : a = x := by simpa using hx
        subst this; subst h1
        rw [consLoop2.eq_def]; simp [mthN_one]
      | [], h, h' => simp at h; omega
      | _ :: _ :: _, h, h' => simp at h; omega
    · have hl : (pairUp th hs).length = (n + 1) / 2 := by rw [pairUp_length, hn]
      have hlast : (n - 1) / 2 = (pairUp th hs).length - 1 := by omega
      rw [pathN_level th hs 0 (by omega), consLoop2.eq_def, dif_neg (by omega)]
      have hy : hs[0 + 1]? = some (hs[0 + 1]'(by omega)) := List.getElem?_eq_getElem _
      rw [sib, if_neg (by omega), hy]
      simp only [Option.toList, List.cons_append, List.nil_append]
      have := pairUp_get_even th (m := 0) rfl hx hy
      rw [hlast]
      have e := ih _ (by omega) (pairUp th hs) _ this rfl
      rw [mthN_pairUp] at e
      exact e

theorem consLoop1_complete (os hs : List α) (node : Nat) (old new : α) (extra : List α)
    (hos : os.length = node + 1) (hpre : os.take node = hs.take node)
    (hold : os[node]? = some old) (hnew : hs[node]? = some new) :
    consLoop1 th node (hs.length - 1) old new (pathN th node hs ++ extra) =
      some (mthN th os, mthN th hs) := by
  induction node using Nat.strongRecOn generalizing os hs old new with
  | ind node ih =>
    obtain ⟨hm, hxe⟩ := List.getElem?_eq_some_iff.1 hnew
    rw [consLoop1.eq_def]
    by_cases h0 : node = 0
    · subst h0
      simp only [dite_true]
      rw [consLoop2_complete th hs new extra hnew]
      match os, hos with
      | [a], _ =>
        have : a = old := by simpa using hold
        subst this; simp [mthN_one]
    · rw [dif_neg h0]
      have hl := pairUp_length th hs
      have hlo := pairUp_length th os
      have hlast : (hs.length - 1) / 2 = (pairUp th hs).length - 1 := by omega
      have hpair : (pairUp th os).take (node / 2) = (pairUp th hs).take (node / 2) := by
        have e1 : node / 2 = (node - node % 2) / 2 := by omega
        rw [e1, pairUp_take th (by omega) (by omega), pairUp_take th (by omega) (by omega)]
        have : ∀ l : List α, l.take (node - node % 2) = (l.take node).take (node - node % 2) := by
          intro l; rw [List.take_take]; congr 1; omega
        rw [this os, this hs, hpre]
      rw [pathN_level th hs node hm, List.append_assoc]
      by_cases ho : node % 2 = 1
      · have hy : hs[node - 1]? = some (hs[node - 1]'(by omega)) := List.getElem?_eq_getElem _
        have hyo : os[node - 1]? = some (hs[node - 1]'(by omega)) := by
          rw [← hy, ← List.getElem?_take_of_lt (j := node) (by omega), hpre,
            List.getElem?_take_of_lt (by omega)]
        simp only [if_pos ho, sib, hy, Option.toList, List.cons_append, List.nil_append]
        rw [hlast, ih (node / 2) (by omega) (pairUp th os) (pairUp th hs) _ _ (by omega) hpair
          (pairUp_get_odd th ho hyo hold) (pairUp_get_odd th ho hy hnew)]
        rw [mthN_pairUp, mthN_pairUp]
      · rw [if_neg ho]
        have hge := pairUp_get_end th (L := os) (m := node) (by omega) (by omega)
        by_cases hlt : node < hs.length - 1
        · have hy : hs[node + 1]? = some (hs[node + 1]'(by omega)) := List.getElem?_eq_getElem _
          simp only [if_pos hlt, sib, if_neg ho, hy, Option.toList, List.cons_append, List.nil_append]
          rw [hlast, ih (node / 2) (by omega) (pairUp th os) (pairUp th hs) _ _ (by omega) hpair
            (by rw [hge, hold]) (pairUp_get_even th (by omega) hnew hy)]
          rw [mthN_pairUp, mthN_pairUp]
        · have hy : hs[node + 1]? = none := List.getElem?_eq_none (by omega)
          simp only [if_neg hlt, sib, if_neg ho, hy, Option.toList, List.nil_append]
          have hge2 := pairUp_get_end th (L := hs) (m := node) (by omega) (by omega)
          rw [hlast, ih (node / 2) (by omega) (pairUp th os) (pairUp th hs) _ _ (by omega) hpair
            (by rw [hge, hold]) (by rw [hge2, hnew])]
          rw [mthN_pairUp, mthN_pairUp]

/-- Completeness of the consistency verifier on RFC 6962 proofs (with any
number of extra elements, which the code ignores). -/
theorem consHashes_complete (hs : List α) (m : Nat) (extra : List α) (h0 : 0 < m) (hm : m < hs.length) :
    consHashes th m hs.length (mthN th (hs.take m)) (subproofN th m hs true ++ extra) =
      some (mthN th (hs.take m), mthN th hs) := by
  induction hn : hs.length using Nat.strongRecOn generalizing hs m with
  | ind n ih =>
    by_cases he : m % 2 = 0
    · have hl := pairUp_length th hs
      have := ih (pairUp th hs).length (by omega) (pairUp th hs) (m / 2) (by omega) (by omega) rfl
      rw [pairUp_take th he (by omega), mthN_pairUp, mthN_pairUp,
        ← subproofN_level th hs m true h0 (by omega) he] at this
      rw [← this]
      unfold consHashes
      have e : stripRight (m - 1) (n - 1) = stripRight (m / 2 - 1) ((pairUp th hs).length - 1) := by
        conv => lhs; rw [stripRight]
        rw [dif_pos (by omega)]
        congr 1 <;> omega
      rw [e]
    · have hmm : (hs.take m).length = m := by simp; omega
      have hget : (hs.take m)[m - 1]? = hs[m - 1]? := List.getElem?_take_of_lt (by omega)
      obtain ⟨v, hv⟩ : ∃ v, hs[m - 1]? = some v := ⟨_, List.getElem?_eq_getElem (by omega)⟩
      have key := fun ex => consLoop1_complete th (hs.take m) hs (m - 1) v v ex (by omega)
        (by rw [List.take_take]; congr 1; omega) (by rw [hget, hv]) hv
      unfold consHashes
      have e : stripRight (m - 1) (n - 1) = (m - 1, n - 1) := by
        rw [stripRight, dif_neg (by omega)]
      rw [e]
      by_cases h1 : m = 1
      · subst h1
        simp only [Nat.sub_self, ne_eq, not_true, if_false]
        rw [subproofN_one th hs (List.ne_nil_of_length_pos (by omega)), ← hn]
        have hx : mthN th (hs.take 1) = v := by
          match hs, hv with
          | a :: l, hv => simpa [mthN_one] using hv
        have := key extra
        simp only [Nat.sub_self] at this
        rw [← hx] at this
        exact this
      · rw [subproofN_odd th hs m true (by omega) (by omega) (.inl hm) (by omega), hv]
        simp only [ne_eq, Option.toList, List.cons_append, List.nil_append]
        rw [if_pos (by omega), ← hn]
        exact key extra

end complete

section sound
variable (H : Bytes → Bytes)

abbrev bh : TreeHasher Bytes := TreeHasher.ofHash H

/-- Strings hashed for interior nodes. -/
def nodeInputs (L : List Bytes) : List Bytes :=
  if _h : L.length < 2 then []
  else nodeInput (mthN (bh H) (L.take (splitPoint L.length))) (mthN (bh H) (L.drop (splitPoint L.length)))
    :: (nodeInputs (L.take (splitPoint L.length)) ++ nodeInputs (L.drop (splitPoint L.length)))
termination_by L.length
decreasing_by
  · have := splitPoint_lt (n := L.length) (by omega)
    simp only [List.length_take]; omega
  · have := splitPoint_pos L.length
    simp only [List.length_drop]; omega

theorem nodeInputs_ge2 {L : List Bytes} (h : 2 ≤ L.length) : nodeInputs H L =
    nodeInput (mthN (bh H) (L.take (splitPoint L.length))) (mthN (bh H) (L.drop (splitPoint L.length)))
    :: (nodeInputs H (L.take (splitPoint L.length)) ++ nodeInputs H (L.drop (splitPoint L.length))) := by
  rw [nodeInputs, dif_neg (by omega)]

theorem nodeInputs_lt2 {L : List Bytes} (h : L.length < 2) : nodeInputs H L = [] := by
  rw [nodeInputs, dif_pos h]

theorem nodeInputs_pairUp {L : List Bytes} {s : Bytes} (hs : s ∈ nodeInputs H (pairUp (bh H) L)) :
    s ∈ nodeInputs H L := by
  induction hn : L.length using Nat.strongRecOn generalizing L with
  | ind n ih =>
    have hl := pairUp_length (bh H) L
    by_cases h2 : n ≤ 2
    · rw [nodeInputs_lt2 H (by omega)] at hs
      simp at hs
    · obtain ⟨he, h2', hlt, hh⟩ := split_facts (n := n) (by omega)
      rw [nodeInputs_ge2 H (by omega)] at hs ⊢
      rw [hl, hn, hh, pairUp_take _ he (by omega), pairUp_drop _ he (by omega), mthN_pairUp, mthN_pairUp] at hs
      rw [hn]
      simp only [List.mem_cons, List.mem_append] at hs ⊢
      rcases hs with h | h | h
      · exact .inl h
      · exact .inr (.inl (ih _ (by simp; omega) h rfl))
      · exact .inr (.inr (ih _ (by simp; omega) h rfl))

theorem pair_mem_nodeInputs {L : List Bytes} {i : Nat} {x y : Bytes} (hi : i % 2 = 0)
    (hx : L[i]? = some x) (hy : L[i + 1]? = some y) : nodeInput x y ∈ nodeInputs H L := by
  induction hn : L.length using Nat.strongRecOn generalizing L i with
  | ind n ih =>
    obtain ⟨h1, hx'⟩ := List.getElem?_eq_some_iff.1 hx
    obtain ⟨h2, hy'⟩ := List.getElem?_eq_some_iff.1 hy
    rw [nodeInputs_ge2 H (by omega)]
    by_cases hn2 : n = 2
    · match L, hn, hn2 with
      | [a, b], _, _ =>
        have : i = 0 := by simp at h2; omega
        subst this
        have hs : splitPoint 2 = 1 := by simp [splitPoint, Nat.log2_def]
        simp at hx' hy'
        subst hx' hy'
        simp [hs, mthN_one]
      | [], _, _ => simp at h1
      | [_], _, _ => simp at h2
      | _ :: _ :: _ :: _, h, h' => simp at h; omega
    · obtain ⟨he, h2', hlt, hh⟩ := split_facts (n := n) (by omega)
      rw [hn]
      simp only [List.mem_cons, List.mem_append]
      by_cases hk : i < splitPoint n
      · right; left
        exact ih _ (by simp; omega) hi (by rw [List.getElem?_take_of_lt hk, hx])
          (by rw [List.getElem?_take_of_lt (by omega), hy]) rfl
      · right; right
        refine ih _ (by simp; omega) (i := i - splitPoint n) (by omega) ?_ ?_ rfl
        · rw [List.getElem?_drop, ← hx]; congr 1; omega
        · rw [List.getElem?_drop, ← hy]; congr 1; omega

theorem pair_mem_odd {L : List Bytes} {m : Nat} {x y : Bytes} (hi : m % 2 = 1)
    (hx : L[m - 1]? = some x) (hy : L[m]? = some y) : nodeInput x y ∈ nodeInputs H L :=
  pair_mem_nodeInputs H (i := m - 1) (by omega) hx (by rw [← hy]; congr 1; omega)

theorem collision_mono {S S' T T' : List Bytes} (h : Collision H S T) (h1 : ∀ x ∈ S, x ∈ S')
    (h2 : ∀ x ∈ T, x ∈ T') : Collision H S' T' := by
  obtain ⟨x, hx, y, hy, h⟩ := h
  exact ⟨x, h1 x hx, y, h2 y hy, h⟩

/-- Equal hashes of two given strings: the strings are equal or a collision. -/
theorem eq_or_collision {S T : List Bytes} {s t : Bytes} (h : H s = H t) (hs : s ∈ S) (ht : t ∈ T) :
    s = t ∨ Collision H S T := by
  by_cases he : s = t
  · exact .inl he
  · exact .inr ⟨s, hs, t, ht, he, h⟩

theorem mthN_length {d : Nat} (hd : ∀ x, (H x).length = d) {L : List Bytes} (hne : L ≠ [])
    (hL : ∀ y ∈ L, y.length = d) : (mthN (bh H) L).length = d := by
  match L, hne with
  | [a], _ => simpa [mthN_one] using hL
  | a :: b :: l, _ =>
    rw [mthN_ge2 _ (by simp)]
    exact hd _

theorem pairUp_len {d : Nat} (hd : ∀ x, (H x).length = d) {L : List Bytes}
    (hL : ∀ y ∈ L, y.length = d) : ∀ y ∈ pairUp (bh H) L, y.length = d := by
  induction L using pairUp.induct with
  | case1 => simp [pairUp]
  | case2 => simpa [pairUp] using hL
  | case3 a b l ih =>
    intro y hy
    simp only [pairUp, List.mem_cons] at hy
    rcases hy with rfl | hy
    · exact hd _
    · exact ih (fun z hz => hL z (by simp [hz])) y hy

theorem nodeInput_inj_left {a b c e : Bytes} (h : nodeInput a b = nodeInput c e)
    (hl : a.length = c.length) : a = c ∧ b = e := by
  simp only [nodeInput, List.cons.injEq, true_and] at h
  exact List.append_inj h hl

theorem nodeInput_inj_right {a b c e : Bytes} (h : nodeInput a b = nodeInput c e)
    (hl : b.length = e.length) : a = c ∧ b = e := by
  simp only [nodeInput, List.cons.injEq, true_and] at h
  exact List.append_inj' h hl

abbrev lh : TreeHasher (Bytes × List Bytes) := TreeHasher.logged H

theorem lh_fst (a b : Bytes × List Bytes) : ((lh H).hashChildren a b).1 = H (nodeInput a.1 b.1) := rfl
theorem lh_snd (a b : Bytes × List Bytes) :
    ((lh H).hashChildren a b).2 = nodeInput a.1 b.1 :: (a.2 ++ b.2) := rfl

/-- Soundness of the audit-path computation. -/
theorem calcRoot_sound {d : Nat} (hd : ∀ x, (H x).length = d) (last : Nat) (idx : Nat)
    (x r : Bytes × List Bytes) (p : List (Bytes × List Bytes)) (L : List Bytes)
    (hlen : L.length = last + 1) (hi : idx ≤ last) (hL : ∀ y ∈ L, y.length = d)
    (hx : x.1.length = d) (hr : calcRoot (lh H) x idx last p = some r) :
    (∀ s ∈ x.2, s ∈ r.2) ∧
    (r.1 = mthN (bh H) L → L[idx]? = some x.1 ∨ Collision H r.2 (nodeInputs H L)) := by
  induction last using Nat.strongRecOn generalizing idx x p L with
  | ind last ih =>
    rw [calcRoot.eq_def] at hr
    by_cases h0 : last = 0
    · rw [dif_pos h0] at hr
      split at hr
      · simp only [Option.some.injEq] at hr
        subst hr
        refine ⟨fun s h => h, fun h => ?_⟩
        match L, hlen with
        | [a], _ =>
          have : idx = 0 := by omega
          subst this
          left; simp [h, mthN_one]
        | [], h => simp at h
        | _ :: _ :: _, h => simp at h; omega
      · simp at hr
    · rw [dif_neg h0] at hr
      have hl := pairUp_length (bh H) L
      have hpl := pairUp_len H hd hL
      match p, hr with
      | [], hr => simp at hr
      | a :: p', hr =>
        simp only at hr
        have hg : L[idx]? = some (L[idx]'(by omega)) := List.getElem?_eq_getElem _
        by_cases ho : idx % 2 = 1
        · rw [if_pos ho] at hr
          have hg' : L[idx - 1]? = some (L[idx - 1]'(by omega)) := List.getElem?_eq_getElem _
          obtain ⟨i1, i2⟩ := ih (last / 2) (by omega) (idx / 2) _ p' (pairUp (bh H) L) (by omega) (by omega)
            hpl (by rw [lh_fst]; exact hd _) hr
          rw [lh_snd] at i1
          refine ⟨fun s h => i1 s (by simp [h]), fun h => ?_⟩
          rcases i2 (by rw [mthN_pairUp]; exact h) with h2 | h2
          · rw [pairUp_get_odd _ ho hg' hg] at h2
            simp only [Option.some.injEq] at h2
            rw [lh_fst] at h2
            have h2' : H (nodeInput a.1 x.1) = H (nodeInput (L[idx - 1]'(by omega)) (L[idx]'(by omega))) := h2.symm
            rcases eq_or_collision H h2' (S := r.2) (T := nodeInputs H L) (i1 _ (by simp))
              (pair_mem_odd H ho hg' hg) with h3 | h3
            · left
              have := nodeInput_inj_right h3 (by rw [hx, hL _ (List.getElem_mem _)])
              rw [hg, this.2]
            · exact .inr h3
          · exact .inr (collision_mono H h2 (fun _ h => h) (fun _ h => nodeInputs_pairUp H h))
        · rw [if_neg ho] at hr
          by_cases hlt : idx < last
          · rw [if_pos hlt] at hr
            have hg' : L[idx + 1]? = some (L[idx + 1]'(by omega)) := List.getElem?_eq_getElem _
            obtain ⟨i1, i2⟩ := ih (last / 2) (by omega) (idx / 2) _ p' (pairUp (bh H) L) (by omega) (by omega)
              hpl (by rw [lh_fst]; exact hd _) hr
            rw [lh_snd] at i1
            refine ⟨fun s h => i1 s (by simp [h]), fun h => ?_⟩
            rcases i2 (by rw [mthN_pairUp]; exact h) with h2 | h2
            · rw [pairUp_get_even _ (by omega) hg hg'] at h2
              simp only [Option.some.injEq] at h2
              rw [lh_fst] at h2
              have h2' : H (nodeInput x.1 a.1) = H (nodeInput (L[idx]'(by omega)) (L[idx + 1]'(by omega))) := h2.symm
              rcases eq_or_collision H h2' (S := r.2) (T := nodeInputs H L) (i1 _ (by simp))
                (pair_mem_nodeInputs H (by omega) hg hg') with h3 | h3
              · left
                have := nodeInput_inj_left h3 (by rw [hx, hL _ (List.getElem_mem _)])
                rw [hg, this.1]
              · exact .inr h3
            · exact .inr (collision_mono H h2 (fun _ h => h) (fun _ h => nodeInputs_pairUp H h))
          · rw [if_neg hlt] at hr
            obtain ⟨i1, i2⟩ := ih (last / 2) (by omega) (idx / 2) _ _ (pairUp (bh H) L) (by omega) (by omega)
              hpl hx hr
            refine ⟨i1, fun h => ?_⟩
            rcases i2 (by rw [mthN_pairUp]; exact h) with h2 | h2
            · left
              rw [← h2, pairUp_get_end _ (by omega) (by omega)]
            · exact .inr (collision_mono H h2 (fun _ h => h) (fun _ h => nodeInputs_pairUp H h))

end sound
end Verif.Merkle
