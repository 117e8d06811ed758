import Verif.Proofs.MerkleVerifier
/-! Soundness of the consistency verifier; link to the specification. -/
namespace Verif.Merkle
open Spec (splitPoint splitPoint_pos splitPoint_lt le_two_splitPoint Collision mth mthInputs
  nodeInput leafInput)

variable (H : Bytes → Bytes)

theorem consLoop2_sound {d : Nat} (hd : ∀ x, (H x).length = d) (last : Nat)
    (x r : Bytes × List Bytes) (p : List (Bytes × List Bytes)) (L : List Bytes)
    (hlen : L.length = last + 1) (hL : ∀ y ∈ L, y.length = d)
    (hr : consLoop2 (lh H) last x p = some r) :
    (∀ s ∈ x.2, s ∈ r.2) ∧
    (x.1.length = d → r.1 = mthN (bh H) L → L[0]? = some x.1 ∨ Collision H r.2 (nodeInputs H L)) := by
  induction last using Nat.strongRecOn generalizing x p L with
  | ind last ih =>
    rw [consLoop2.eq_def] at hr
    by_cases h0 : last = 0
    · rw [dif_pos h0] at hr
      simp only [Option.some.injEq] at hr
      subst hr
      refine ⟨fun s h => h, fun _ h => ?_⟩
      match L, hlen with
      | [a], _ => left; simp [h, mthN_one]
      | [], h => simp at h
      | _ :: _ :: _, h => simp at h; omega
    · rw [dif_neg h0] at hr
      have hl := pairUp_length (bh H) L
      have hpl := pairUp_len H hd hL
      match p, hr with
      | [], hr => simp at hr
      | a :: p', hr =>
        simp only at hr
        have hg : L[0]? = some (L[0]'(by omega)) := List.getElem?_eq_getElem _
        have hg' : L[0 + 1]? = some (L[0 + 1]'(by omega)) := List.getElem?_eq_getElem _
        obtain ⟨i1, i2⟩ := ih (last / 2) (by omega) _ p' (pairUp (bh H) L) (by omega) hpl hr
        rw [lh_snd] at i1
        refine ⟨fun s h => i1 s (by simp [h]), fun hx h => ?_⟩
        rcases i2 (by rw [lh_fst]; exact hd _) (by rw [mthN_pairUp]; exact h) with h2 | h2
        · have e := pairUp_get_even (bh H) (m := 0) rfl hg hg'
          rw [show (0 : Nat) / 2 = 0 from rfl] at e
          rw [e] at h2
          simp only [Option.some.injEq] at h2
          rw [lh_fst] at h2
          have h2' : H (nodeInput x.1 a.1) = H (nodeInput (L[0]'(by omega)) (L[0 + 1]'(by omega))) := h2.symm
          rcases eq_or_collision H h2' (S := r.2) (T := nodeInputs H L) (i1 _ (by simp))
            (pair_mem_nodeInputs H rfl hg hg') with h3 | h3
          · left
            have := nodeInput_inj_left h3 (by rw [hx, hL _ (List.getElem_mem _)])
            rw [hg, this.1]
          · exact .inr h3
        · exact .inr (collision_mono H h2 (fun _ h => h) (fun _ h => nodeInputs_pairUp H h))

/-- The strings hashed by a run returning the pair `r`. -/
abbrev logOf (r : (Bytes × List Bytes) × (Bytes × List Bytes)) : List Bytes := r.1.2 ++ r.2.2

abbrev Coll2 (r : (Bytes × List Bytes) × (Bytes × List Bytes)) (os hs : List Bytes) : Prop :=
  Collision H (logOf r) (nodeInputs H os ++ nodeInputs H hs)

theorem coll2_pairUp {r os hs} (h : Coll2 H r (pairUp (bh H) os) (pairUp (bh H) hs)) :
    Coll2 H r os hs :=
  collision_mono H h (fun _ h => h) (fun x hx => by
    simp only [List.mem_append] at hx ⊢
    exact hx.imp (nodeInputs_pairUp H) (nodeInputs_pairUp H))

theorem mem_log_right {r : (Bytes × List Bytes) × (Bytes × List Bytes)} {s : Bytes} (h : s ∈ r.2.2) :
    s ∈ logOf r := by simp [h]
theorem mem_log_left {r : (Bytes × List Bytes) × (Bytes × List Bytes)} {s : Bytes} (h : s ∈ r.1.2) :
    s ∈ logOf r := by simp [h]

/-- Phase in which the "new" hash has digest length. -/
theorem consLoop1_sound {d : Nat} (hd : ∀ x, (H x).length = d) (node last : Nat)
    (old new : Bytes × List Bytes) (r) (p : List (Bytes × List Bytes)) (os hs : List Bytes)
    (hos : os.length = node + 1) (hhs : hs.length = last + 1) (hi : node ≤ last)
    (hL : ∀ y ∈ hs, y.length = d) (hLo : ∀ y ∈ os, y.length = d)
    (hr : consLoop1 (lh H) node last old new p = some r) :
    (∀ s ∈ old.2, s ∈ r.1.2) ∧ (∀ s ∈ new.2, s ∈ r.2.2) ∧
    (new.1.length = d → r.1.1 = mthN (bh H) os → r.2.1 = mthN (bh H) hs →
      (os[node]? = some old.1 ∧ hs[node]? = some new.1 ∧
        mthN (bh H) os = mthN (bh H) (hs.take node ++ [old.1])) ∨ Coll2 H r os hs) := by
  induction node using Nat.strongRecOn generalizing last old new p os hs with
  | ind node ih =>
    rw [consLoop1.eq_def] at hr
    by_cases h0 : node = 0
    · subst h0
      rw [dif_pos rfl] at hr
      match h2 : consLoop2 (lh H) last new p, hr with
      | some nh, hr =>
        simp only [Option.map_some, Option.some.injEq] at hr
        subst hr
        obtain ⟨i1, i2⟩ := consLoop2_sound H hd last new nh p hs hhs hL h2
        refine ⟨fun _ h => h, i1, fun hlen ho hn => ?_⟩
        match os, hos with
        | [a], _ =>
          simp only [mthN_one] at ho
          rcases i2 hlen hn with h | h
          · left; simp [ho, h, mthN_one]
          · right
            exact collision_mono H h (fun _ h => mem_log_right h) (fun _ h => by simp [h])
        | [], h => simp at h
        | _ :: _ :: _, h => simp at h
    · rw [dif_neg h0] at hr
      have hl := pairUp_length (bh H) hs
      have hlo := pairUp_length (bh H) os
      have hpl := pairUp_len H hd hL
      have hplo := pairUp_len H hd hLo
      have hgo : os[node]? = some (os[node]'(by omega)) := List.getElem?_eq_getElem _
      have hgh : hs[node]? = some (hs[node]'(by omega)) := List.getElem?_eq_getElem _
      by_cases ho : node % 2 = 1
      · rw [if_pos ho] at hr
        match p, hr with
        | [], hr => simp at hr
        | nx :: p', hr =>
          simp only at hr
          obtain ⟨i1, i2, i3⟩ := ih (node / 2) (by omega) (last / 2) _ _ p' (pairUp (bh H) os)
            (pairUp (bh H) hs) (by omega) (by omega) (by omega) hpl hplo hr
          rw [lh_snd] at i1 i2
          refine ⟨fun s h => i1 s (by simp [h]), fun s h => i2 s (by simp [h]), fun hlen hoo hnn => ?_⟩
          rcases i3 (by rw [lh_fst]; exact hd _) (by rw [mthN_pairUp]; exact hoo)
            (by rw [mthN_pairUp]; exact hnn) with h | h
          · obtain ⟨h1, h2, h3⟩ := h
            have hgo' : os[node - 1]? = some (os[node - 1]'(by omega)) := List.getElem?_eq_getElem _
            have hgh' : hs[node - 1]? = some (hs[node - 1]'(by omega)) := List.getElem?_eq_getElem _
            rw [pairUp_get_odd _ ho hgo' hgo] at h1
            rw [pairUp_get_odd _ ho hgh' hgh] at h2
            simp only [Option.some.injEq] at h1 h2
            rw [lh_fst] at h1 h2
            have h1' : H (nodeInput nx.1 old.1) = H (nodeInput (os[node - 1]'(by omega)) (os[node]'(by omega))) := h1.symm
            have h2' : H (nodeInput nx.1 new.1) = H (nodeInput (hs[node - 1]'(by omega)) (hs[node]'(by omega))) := h2.symm
            rcases eq_or_collision H h1' (S := logOf r) (T := nodeInputs H os ++ nodeInputs H hs)
              (mem_log_left (i1 _ (by simp))) (by simp [pair_mem_odd H ho hgo' hgo]) with e1 | e1
            · rcases eq_or_collision H h2' (S := logOf r) (T := nodeInputs H os ++ nodeInputs H hs)
                (mem_log_right (i2 _ (by simp))) (by simp [pair_mem_odd H ho hgh' hgh]) with e2 | e2
              · left
                obtain ⟨a1, a2⟩ := nodeInput_inj_right e2 (by rw [hlen, hL _ (List.getElem_mem _)])
                obtain ⟨b1, b2⟩ := nodeInput_inj_left e1 (by
                  rw [a1, hL _ (List.getElem_mem _), hLo _ (List.getElem_mem _)])
                refine ⟨by rw [hgo, b2], by rw [hgh, a2], ?_⟩
                rw [← mthN_pairUp, h3]
                rw [← mthN_pairUp (bh H) (hs.take node ++ [old.1])]
                congr 1
                have hk : node / 2 = (node - 1) / 2 := by omega
                rw [hk, pairUp_take _ (by omega) (by omega)]
                have ht : hs.take node = hs.take (node - 1) ++ [hs[node - 1]'(by omega)] := by
                  have := List.take_add_one (l := hs) (i := node - 1)
                  rw [show node - 1 + 1 = node by omega, hgh'] at this
                  simpa using this
                rw [ht, List.append_assoc, pairUp_append _ (by simp; omega)]
                simp [pairUp, lh_fst, a1]
                rfl
              · exact .inr e2
            · exact .inr e1
          · exact .inr (coll2_pairUp H h)
      · rw [if_neg ho] at hr
        have hoe := pairUp_get_end (bh H) (L := os) (m := node) (by omega) (by omega)
        have hroot : ∀ o : Bytes, mthN (bh H) (pairUp (bh H) os) =
            mthN (bh H) ((pairUp (bh H) hs).take (node / 2) ++ [o]) →
            mthN (bh H) os = mthN (bh H) (hs.take node ++ [o]) := by
          intro o h3
          rw [← mthN_pairUp, h3, ← mthN_pairUp (bh H) (hs.take node ++ [o]),
            pairUp_take _ (by omega) (by omega), pairUp_append _ (by simp; omega)]
          simp [pairUp]
        by_cases hlt : node < last
        · rw [if_pos hlt] at hr
          match p, hr with
          | [], hr => simp at hr
          | nx :: p', hr =>
            simp only at hr
            obtain ⟨i1, i2, i3⟩ := ih (node / 2) (by omega) (last / 2) _ _ p' (pairUp (bh H) os)
              (pairUp (bh H) hs) (by omega) (by omega) (by omega) hpl hplo hr
            rw [lh_snd] at i2
            refine ⟨i1, fun s h => i2 s (by simp [h]), fun hlen hoo hnn => ?_⟩
            rcases i3 (by rw [lh_fst]; exact hd _) (by rw [mthN_pairUp]; exact hoo)
              (by rw [mthN_pairUp]; exact hnn) with h | h
            · obtain ⟨h1, h2, h3⟩ := h
              have hgh' : hs[node + 1]? = some (hs[node + 1]'(by omega)) := List.getElem?_eq_getElem _
              rw [hoe] at h1
              rw [pairUp_get_even _ (by omega) hgh hgh'] at h2
              simp only [Option.some.injEq] at h2
              rw [lh_fst] at h2
              have h2' : H (nodeInput new.1 nx.1) = H (nodeInput (hs[node]'(by omega)) (hs[node + 1]'(by omega))) := h2.symm
              rcases eq_or_collision H h2' (S := logOf r) (T := nodeInputs H os ++ nodeInputs H hs)
                (mem_log_right (i2 _ (by simp))) (by simp [pair_mem_nodeInputs H (by omega) hgh hgh']) with e2 | e2
              · left
                obtain ⟨a1, a2⟩ := nodeInput_inj_left e2 (by rw [hlen, hL _ (List.getElem_mem _)])
                exact ⟨h1, by rw [hgh, a1], hroot _ h3⟩
              · exact .inr e2
            · exact .inr (coll2_pairUp H h)
        · rw [if_neg hlt] at hr
          obtain ⟨i1, i2, i3⟩ := ih (node / 2) (by omega) (last / 2) _ _ p (pairUp (bh H) os)
            (pairUp (bh H) hs) (by omega) (by omega) (by omega) hpl hplo hr
          refine ⟨i1, i2, fun hlen hoo hnn => ?_⟩
          rcases i3 hlen (by rw [mthN_pairUp]; exact hoo) (by rw [mthN_pairUp]; exact hnn) with h | h
          · obtain ⟨h1, h2, h3⟩ := h
            left
            rw [hoe] at h1
            rw [pairUp_get_end _ (by omega) (by omega)] at h2
            exact ⟨h1, h2, hroot _ h3⟩
          · exact .inr (coll2_pairUp H h)

theorem take_succ_get {α} {l : List α} {i : Nat} {x : α} (h : l[i]? = some x) :
    l.take (i + 1) = l.take i ++ [x] := by
  rw [List.take_add_one, h]; rfl

/-- Phase in which old and new hash are still the same value `h`, of unknown
length. -/
theorem consLoop1_sound_same {d : Nat} (hd : ∀ x, (H x).length = d) (node last : Nat)
    (h : Bytes × List Bytes) (r) (p : List (Bytes × List Bytes)) (os hs : List Bytes)
    (hos : os.length = node + 1) (hhs : hs.length = last + 1) (hi : node ≤ last)
    (hL : ∀ y ∈ hs, y.length = d) (hLo : ∀ y ∈ os, y.length = d)
    (hr : consLoop1 (lh H) node last h h p = some r)
    (hoo : r.1.1 = mthN (bh H) os) (hnn : r.2.1 = mthN (bh H) hs) :
    mthN (bh H) os = mthN (bh H) (hs.take (node + 1)) ∨ Coll2 H r os hs := by
  induction node using Nat.strongRecOn generalizing last h p os hs with
  | ind node ih =>
    have hr0 := hr
    rw [consLoop1.eq_def] at hr
    have hgh : hs[node]? = some (hs[node]'(by omega)) := List.getElem?_eq_getElem _
    by_cases h0 : node = 0
    · subst h0
      obtain ⟨i1, i2, i3⟩ := consLoop1_sound H hd 0 last h h r p os hs hos hhs hi hL hLo hr0
      rw [dif_pos rfl] at hr
      match h2 : consLoop2 (lh H) last h p, hr with
      | some nh, hr =>
        simp only [Option.map_some, Option.some.injEq] at hr
        have hlen : h.1.length = d := by
          rw [← hr] at hoo
          simp only at hoo
          rw [hoo]
          exact mthN_length H hd (List.ne_nil_of_length_pos (by omega)) hLo
        rcases i3 hlen hoo hnn with h | h
        · left
          rw [h.2.2, take_succ_get h.2.1]
        · exact .inr h
    · rw [dif_neg h0] at hr
      have hl := pairUp_length (bh H) hs
      have hlo := pairUp_length (bh H) os
      have hpl := pairUp_len H hd hL
      have hplo := pairUp_len H hd hLo
      by_cases ho : node % 2 = 1
      · rw [if_pos ho] at hr
        match p, hr with
        | [], hr => simp at hr
        | nx :: p', hr =>
          simp only at hr
          rcases ih (node / 2) (by omega) (last / 2) _ p' (pairUp (bh H) os)
            (pairUp (bh H) hs) (by omega) (by omega) (by omega) hpl hplo hr
            (by rw [mthN_pairUp]; exact hoo) (by rw [mthN_pairUp]; exact hnn) with h | h
          · left
            rw [mthN_pairUp, show node / 2 + 1 = (node + 1) / 2 by omega,
              pairUp_take _ (by omega) (by omega), mthN_pairUp] at h
            exact h
          · exact .inr (coll2_pairUp H h)
      · rw [if_neg ho] at hr
        by_cases hlt : node < last
        · rw [if_pos hlt] at hr
          match p, hr with
          | [], hr => simp at hr
          | nx :: p', hr =>
            simp only at hr
            have hoe := pairUp_get_end (bh H) (L := os) (m := node) (by omega) (by omega)
            obtain ⟨j1, j2, j3⟩ := consLoop1_sound H hd (node / 2) (last / 2) _ _ r p' (pairUp (bh H) os)
              (pairUp (bh H) hs) (by omega) (by omega) (by omega) hpl hplo hr
            rcases j3 (by rw [lh_fst]; exact hd _) (by rw [mthN_pairUp]; exact hoo)
              (by rw [mthN_pairUp]; exact hnn) with k | k
            · have hlen : h.1.length = d := by
                have := k.1
                rw [hoe] at this
                exact hLo _ (List.mem_of_getElem? this)
              obtain ⟨i1, i2, i3⟩ := consLoop1_sound H hd node last h h r _ os hs hos hhs hi hL hLo hr0
              rcases i3 hlen hoo hnn with h | h
              · left
                rw [h.2.2, take_succ_get h.2.1]
              · exact .inr h
            · exact .inr (coll2_pairUp H k)
        · rw [if_neg hlt] at hr
          rcases ih (node / 2) (by omega) (last / 2) _ p (pairUp (bh H) os)
            (pairUp (bh H) hs) (by omega) (by omega) (by omega) hpl hplo hr
            (by rw [mthN_pairUp]; exact hoo) (by rw [mthN_pairUp]; exact hnn) with h | h
          · left
            rw [mthN_pairUp, List.take_of_length_le (by omega), mthN_pairUp] at h
            rw [h, List.take_of_length_le (by omega)]
          · exact .inr (coll2_pairUp H h)

theorem consHashes_sound {d : Nat} (hd : ∀ x, (H x).length = d) (os hs : List Bytes)
    (r) (p : List (Bytes × List Bytes)) (lg : List Bytes)
    (hpos : 0 < os.length) (hlt : os.length < hs.length)
    (hL : ∀ y ∈ hs, y.length = d) (hLo : ∀ y ∈ os, y.length = d)
    (hr : consHashes (lh H) os.length hs.length (mthN (bh H) os, lg) p = some r)
    (hoo : r.1.1 = mthN (bh H) os) (hnn : r.2.1 = mthN (bh H) hs) :
    mthN (bh H) os = mthN (bh H) (hs.take os.length) ∨ Coll2 H r os hs := by
  induction hn : os.length using Nat.strongRecOn generalizing os hs with
  | ind n ih =>
    by_cases he : n % 2 = 0
    · have hl := pairUp_length (bh H) hs
      have hlo := pairUp_length (bh H) os
      have hpl := pairUp_len H hd hL
      have hplo := pairUp_len H hd hLo
      have e : stripRight (os.length - 1) (hs.length - 1) =
          stripRight ((pairUp (bh H) os).length - 1) ((pairUp (bh H) hs).length - 1) := by
        conv => lhs; rw [stripRight]
        rw [dif_pos (by omega)]
        congr 1 <;> omega
      unfold consHashes at hr
      rw [e, ← mthN_pairUp (bh H) os] at hr
      rcases ih _ (by omega) (pairUp (bh H) os) (pairUp (bh H) hs) (by omega) (by omega) hpl hplo hr
        (by rw [mthN_pairUp]; exact hoo) (by rw [mthN_pairUp]; exact hnn) rfl with h | h
      · left
        rw [mthN_pairUp, hlo, hn, show (n + 1) / 2 = n / 2 by omega, pairUp_take _ he (by omega),
          mthN_pairUp] at h
        exact h
      · exact .inr (coll2_pairUp H h)
    · unfold consHashes at hr
      have e : stripRight (os.length - 1) (hs.length - 1) = (os.length - 1, hs.length - 1) := by
        rw [stripRight, dif_neg (by omega)]
      rw [e] at hr
      simp only at hr
      by_cases h1 : os.length - 1 ≠ 0
      · rw [if_pos h1] at hr
        match p, hr with
        | [], hr => simp at hr
        | h :: p', hr =>
          simp only at hr
          have := consLoop1_sound_same H hd _ _ h r p' os hs (by omega) (by omega) (by omega) hL hLo hr hoo hnn
          rwa [show os.length - 1 + 1 = n by omega] at this
      · rw [if_neg h1] at hr
        have := consLoop1_sound_same H hd _ _ _ r p os hs (by omega) (by omega) (by omega) hL hLo hr hoo hnn
        rwa [show os.length - 1 + 1 = n by omega] at this

/-- The Merkle tree hash determines the leaf hashes, up to a collision. -/
theorem mthN_inj {d : Nat} (hd : ∀ x, (H x).length = d) (A B : List Bytes) (hlen : A.length = B.length)
    (hA : ∀ y ∈ A, y.length = d) (hB : ∀ y ∈ B, y.length = d) (h : mthN (bh H) A = mthN (bh H) B) :
    A = B ∨ Collision H (nodeInputs H A) (nodeInputs H B) := by
  induction hn : A.length using Nat.strongRecOn generalizing A B with
  | ind n ih =>
    by_cases h2 : n < 2
    · match A, B, hn, hlen with
      | [], [], _, _ => simp
      | [a], [b], _, _ => left; simpa [mthN_one] using h
      | _ :: _ :: _, _, hn, _ => simp at hn; omega
      | [], _ :: _, _, h => simp at h
      | [_], [], _, h => simp at h
      | [_], _ :: _ :: _, _, h => simp at h
    · have hlt := splitPoint_lt (n := n) (by omega)
      have hpos := splitPoint_pos n
      rw [mthN_ge2 _ (L := A) (by omega), mthN_ge2 _ (L := B) (by omega), ← hlen, hn] at h
      rw [nodeInputs_ge2 H (L := A) (by omega), nodeInputs_ge2 H (L := B) (by omega), ← hlen, hn]
      have tA : ∀ y ∈ A.take (splitPoint n), y.length = d := fun y hy => hA y (List.mem_of_mem_take hy)
      have tB : ∀ y ∈ B.take (splitPoint n), y.length = d := fun y hy => hB y (List.mem_of_mem_take hy)
      have dA : ∀ y ∈ A.drop (splitPoint n), y.length = d := fun y hy => hA y (List.mem_of_mem_drop hy)
      have dB : ∀ y ∈ B.drop (splitPoint n), y.length = d := fun y hy => hB y (List.mem_of_mem_drop hy)
      have h' : H (nodeInput (mthN (bh H) (A.take (splitPoint n))) (mthN (bh H) (A.drop (splitPoint n)))) =
        H (nodeInput (mthN (bh H) (B.take (splitPoint n))) (mthN (bh H) (B.drop (splitPoint n)))) := h
      rcases eq_or_collision H h' (S := nodeInput (mthN (bh H) (A.take (splitPoint n))) (mthN (bh H) (A.drop (splitPoint n))) :: (nodeInputs H (A.take (splitPoint n)) ++ nodeInputs H (A.drop (splitPoint n))))
         (T := nodeInput (mthN (bh H) (B.take (splitPoint n))) (mthN (bh H) (B.drop (splitPoint n))) :: (nodeInputs H (B.take (splitPoint n)) ++ nodeInputs H (B.drop (splitPoint n)))) (by simp) (by simp) with e | e
      · obtain ⟨e1, e2⟩ := nodeInput_inj_left e (by
          rw [mthN_length H hd (List.ne_nil_of_length_pos (by rw [List.length_take]; omega)) tA,
            mthN_length H hd (List.ne_nil_of_length_pos (by rw [List.length_take]; omega)) tB])
        rcases ih _ (by simp; omega) (A.take (splitPoint n)) (B.take (splitPoint n)) (by simp; omega)
          tA tB e1 rfl with f1 | f1
        · rcases ih _ (by simp; omega) (A.drop (splitPoint n)) (B.drop (splitPoint n)) (by simp; omega)
            dA dB e2 rfl with f2 | f2
          · left
            rw [← List.take_append_drop (splitPoint n) A, f1, f2, List.take_append_drop]
          · exact .inr (collision_mono H f2 (fun _ h => by simp [h]) (fun _ h => by simp [h]))
        · exact .inr (collision_mono H f1 (fun _ h => by simp [h]) (fun _ h => by simp [h]))
      · exact .inr e

/-! ## Link to the specification over entries -/

abbrev leafHashes (D : List Bytes) : List Bytes := D.map (fun d => H (leafInput d))

theorem mth_eq_mthN (D : List Bytes) : mth H D = mthN (bh H) (leafHashes H D) := by
  induction hn : D.length using Nat.strongRecOn generalizing D with
  | ind n ih =>
    match D, hn with
    | [], _ => rw [mth]; simp [leafHashes, mthN_nil, bh, TreeHasher.ofHash]
    | [a], _ => rw [mth]; simp [leafHashes, mthN_one]
    | a :: b :: l, hn =>
      rw [mth]
      generalize hD : a :: b :: l = D at *
      have h2 : 2 ≤ n := by rw [← hn, ← hD]; simp
      have hlt := splitPoint_lt h2
      have hpos := splitPoint_pos n
      rw [mthN_ge2 _ (by simp; omega)]
      simp only [List.length_map, hn]
      rw [ih _ (by simp; omega) (D.take (splitPoint n)) rfl, ih _ (by simp; omega) (D.drop (splitPoint n)) rfl]
      simp [leafHashes, List.map_take, List.map_drop, bh, TreeHasher.ofHash, nodeInput]

theorem nodeInputs_subset (D : List Bytes) : ∀ s ∈ nodeInputs H (leafHashes H D), s ∈ mthInputs H D := by
  induction hn : D.length using Nat.strongRecOn generalizing D with
  | ind n ih =>
    match D, hn with
    | [], _ => simp [leafHashes, nodeInputs_lt2]
    | [a], _ => simp [leafHashes, nodeInputs_lt2]
    | a :: b :: l, hn =>
      rw [mthInputs]
      generalize hD : a :: b :: l = D at *
      have h2 : 2 ≤ n := by rw [← hn, ← hD]; simp
      have hlt := splitPoint_lt h2
      have hpos := splitPoint_pos n
      rw [nodeInputs_ge2 _ (by simp; omega)]
      simp only [List.length_map, hn, leafHashes, ← List.map_take, ← List.map_drop]
      intro s hs
      simp only [List.mem_cons, List.mem_append] at hs ⊢
      rcases hs with h | h | h
      · left
        rw [h, mth_eq_mthN, mth_eq_mthN]
      · exact .inr (.inl (ih _ (by simp; omega) (D.take (splitPoint n)) rfl s h))
      · exact .inr (.inr (ih _ (by simp; omega) (D.drop (splitPoint n)) rfl s h))

theorem leafInput_mem (D : List Bytes) : ∀ x ∈ D, leafInput x ∈ mthInputs H D := by
  induction hn : D.length using Nat.strongRecOn generalizing D with
  | ind n ih =>
    match D, hn with
    | [], _ => simp
    | [a], _ => simp [mthInputs]
    | a :: b :: l, hn =>
      rw [mthInputs]
      generalize hD : a :: b :: l = D at *
      have h2 : 2 ≤ n := by rw [← hn, ← hD]; simp
      have hlt := splitPoint_lt h2
      have hpos := splitPoint_pos n
      intro x hx
      simp only [hn, List.mem_cons, List.mem_append]
      rw [← List.take_append_drop (splitPoint n) D, List.mem_append] at hx
      rcases hx with h | h
      · exact .inr (.inl (ih _ (by simp; omega) (D.take (splitPoint n)) rfl x h))
      · exact .inr (.inr (ih _ (by simp; omega) (D.drop (splitPoint n)) rfl x h))

theorem leafHashes_inj (A B : List Bytes) (S T : List Bytes) (hS : ∀ x ∈ A, leafInput x ∈ S)
    (hT : ∀ x ∈ B, leafInput x ∈ T) (h : leafHashes H A = leafHashes H B) :
    A = B ∨ Collision H S T := by
  induction A generalizing B with
  | nil =>
    match B, h with
    | [], _ => simp
  | cons a A ih =>
    match B, h with
    | b :: B, h =>
      simp only [leafHashes, List.map_cons, List.cons.injEq] at h
      rcases eq_or_collision H h.1 (hS a (by simp)) (hT b (by simp)) with e | e
      · rcases ih B (fun x hx => hS x (by simp [hx])) (fun x hx => hT x (by simp [hx])) h.2 with f | f
        · left
          simp only [leafInput, List.cons.injEq, true_and] at e
          rw [e, f]
        · exact .inr f
      · exact .inr e

/-- The Merkle tree head determines the entries, up to an explicit collision. -/
theorem mth_inj {d : Nat} (hd : ∀ x, (H x).length = d) (A B : List Bytes) (hlen : A.length = B.length)
    (h : mth H A = mth H B) : A = B ∨ Collision H (mthInputs H A) (mthInputs H B) := by
  rw [mth_eq_mthN, mth_eq_mthN] at h
  have aux : ∀ D : List Bytes, ∀ y ∈ leafHashes H D, y.length = d := by
    intro D y hy
    obtain ⟨x, _, rfl⟩ := List.mem_map.1 hy
    exact hd _
  rcases mthN_inj H hd _ _ (by simp [hlen]) (aux A) (aux B) h with e | e
  · exact leafHashes_inj H A B _ _ (leafInput_mem H A) (leafInput_mem H B) e
  · exact .inr (collision_mono H e (nodeInputs_subset H A) (nodeInputs_subset H B))

/-! ## The logged verifier computes the same hashes -/

theorem calcRoot_map {α β} {th : TreeHasher α} {th' : TreeHasher β} (f : α → β)
    (hf : ∀ a b, f (th.hashChildren a b) = th'.hashChildren (f a) (f b)) (x : α) (idx last : Nat)
    (p : List α) : calcRoot th' (f x) idx last (p.map f) = (calcRoot th x idx last p).map f := by
  induction last using Nat.strongRecOn generalizing x idx p with
  | ind last ih =>
    rw [calcRoot.eq_def, calcRoot.eq_def th]
    by_cases h0 : last = 0
    · rw [dif_pos h0, dif_pos h0]
      cases p <;> simp
    · rw [dif_neg h0, dif_neg h0]
      match p with
      | [] => simp
      | a :: p' =>
        simp only [List.map_cons]
        split
        · rw [← hf, ih _ (by omega)]
        · split
          · rw [← hf, ih _ (by omega)]
          · rw [← List.map_cons, ih _ (by omega)]

theorem consLoop2_map {α β} {th : TreeHasher α} {th' : TreeHasher β} (f : α → β)
    (hf : ∀ a b, f (th.hashChildren a b) = th'.hashChildren (f a) (f b)) (last : Nat) (x : α)
    (p : List α) : consLoop2 th' last (f x) (p.map f) = (consLoop2 th last x p).map f := by
  induction last using Nat.strongRecOn generalizing x p with
  | ind last ih =>
    rw [consLoop2.eq_def, consLoop2.eq_def th]
    by_cases h0 : last = 0
    · rw [dif_pos h0, dif_pos h0]; simp
    · rw [dif_neg h0, dif_neg h0]
      match p with
      | [] => simp
      | a :: p' =>
        simp only [List.map_cons]
        rw [← hf, ih _ (by omega)]

theorem consLoop1_map {α β} {th : TreeHasher α} {th' : TreeHasher β} (f : α → β)
    (hf : ∀ a b, f (th.hashChildren a b) = th'.hashChildren (f a) (f b)) (node last : Nat) (x y : α)
    (p : List α) : consLoop1 th' node last (f x) (f y) (p.map f) =
      (consLoop1 th node last x y p).map (fun r => (f r.1, f r.2)) := by
  induction node using Nat.strongRecOn generalizing last x y p with
  | ind node ih =>
    rw [consLoop1.eq_def, consLoop1.eq_def th]
    by_cases h0 : node = 0
    · rw [dif_pos h0, dif_pos h0, consLoop2_map f hf]
      cases consLoop2 th last y p <;> simp
    · rw [dif_neg h0, dif_neg h0]
      split
      · match p with
        | [] => simp
        | a :: p' =>
          simp only [List.map_cons]
          rw [← hf, ← hf, ih _ (by omega)]
      · split
        · match p with
          | [] => simp
          | a :: p' =>
            simp only [List.map_cons]
            rw [← hf, ih _ (by omega)]
        · rw [ih _ (by omega)]

theorem consHashes_map {α β} {th : TreeHasher α} {th' : TreeHasher β} (f : α → β)
    (hf : ∀ a b, f (th.hashChildren a b) = th'.hashChildren (f a) (f b)) (m n : Nat) (x : α)
    (p : List α) : consHashes th' m n (f x) (p.map f) =
      (consHashes th m n x p).map (fun r => (f r.1, f r.2)) := by
  unfold consHashes
  simp only
  split
  · match p with
    | [] => simp
    | a :: p' => simp only [List.map_cons]; rw [consLoop1_map f hf]
  · rw [consLoop1_map f hf]

end Verif.Merkle
