import Verif.Model.Listing
import Verif.Proofs.StateProof
import Verif.Proofs.Count
/-!
# Listing the state: proofs
-/
namespace Verif.Trie
open Verif.Rlp Verif.Spec.State

variable {H : Bytes → Bytes}

/-! ## Dictionaries -/

theorem addBelow_spec (key : List Nat) : ∀ (d : Flat) (res : Flat), d.keys.Nodup → res.keys.Nodup →
    (addBelow key d res).keys.Nodup ∧ ∀ k, (addBelow key d res).get? k =
      match strip key k with
      | some r => match d.get? r with
        | some x => some x
        | none => res.get? k
      | none => res.get? k := by
  intro d
  induction d with
  | nil =>
    intro res _ hr
    refine ⟨hr, fun k => ?_⟩
    cases strip key k <;> rfl
  | cons e d ih =>
    obtain ⟨a, b⟩ := e
    intro res hd hr
    have hd' : a ∉ Dict.keys d ∧ (Dict.keys d).Nodup := List.nodup_cons.1 hd
    have e0 : addBelow key ((a, b) :: d) res = addBelow key d (res.set (key ++ a) b) := rfl
    rw [e0]
    obtain ⟨h1, h2⟩ := ih (res.set (key ++ a) b) hd'.2 (Dict.nodup_keys_set hr _ _)
    refine ⟨h1, fun k => ?_⟩
    rw [h2]
    cases hs : strip key k with
    | none =>
      dsimp only
      rw [Dict.get?_set, if_neg]
      intro e
      exact strip_none hs a e.symm
    | some r =>
      dsimp only
      have := strip_some hs
      subst this
      rw [Dict.get?_cons]
      by_cases c : a = r
      · subst c
        rw [if_pos rfl]
        have : Dict.get? d a = none := by
          cases hg : Dict.get? d a with
          | none => rfl
          | some x => exact absurd ((Dict.mem_keys _ _).2 ⟨x, hg⟩) hd'.1
        rw [this]
        dsimp only
        rw [Dict.get?_set, if_pos rfl]
      · rw [if_neg c]
        cases hg : Dict.get? d r with
        | some x => rfl
        | none =>
          dsimp only
          rw [Dict.get?_set, if_neg]
          intro e
          exact c (List.append_cancel_left e)

/-- What a listing of a tree has. -/
def Lists (d : Flat) (t : T) : Prop :=
  d.keys.Nodup ∧ ∀ k x, d.get? k = some x ↔ ∃ n, k = n ++ [terminator] ∧ t.get n ≠ [] ∧ x = .str (t.get n)

/-- The encodings read when a tree is listed. -/
def T.all (H : Bytes → Bytes) : T → List Bytes
  | .blank => []
  | .leaf _ _ => []
  | .ext _ t => refEnc H t ++ t.all H
  | .branch f _ => (List.range 16).flatMap (fun i => refEnc H (f i) ++ (f i).all H)

theorem all_held {kv : Dict Bytes Bytes} (t : T) : Stored H kv t → ∀ e ∈ t.all H,
    ∃ x, fits x = true ∧ e = encode x ∧ kv.get? (H e) = some e := by
  induction t with
  | blank => intro _ e he; cases he
  | leaf c v => intro _ e he; cases he
  | ext c t ih =>
    intro hs e he
    rcases List.mem_append.1 he with h | h
    · exact refEnc_held hs.1 h
    · exact ih hs.2 e h
  | branch f v ih =>
    intro hs e he
    obtain ⟨i, hi, he⟩ := List.mem_flatMap.1 he
    have hi' := List.mem_range.1 hi
    rcases List.mem_append.1 he with h | h
    · exact refEnc_held (hs i hi').1 h
    · exact ih i (hs i hi').2 e h

theorem path_all (t : T) : ∀ (k : List Nat), Nib k → t.path H k ⊆ t.all H := by
  induction t with
  | blank => intro _ _ e he; cases he
  | leaf c v => intro _ _ e he; cases he
  | ext c t ih =>
    intro k hk e he
    simp only [T.path] at he
    split at he
    · next r hr =>
      have := strip_some hr
      subst this
      rcases List.mem_append.1 he with h | h
      · exact List.mem_append_left _ h
      · exact List.mem_append_right _ (ih r (fun n hn => hk n (List.mem_append_right _ hn)) h)
    · cases he
  | branch f v ih =>
    intro k hk e he
    cases k with
    | nil => cases he
    | cons n k =>
      simp only [T.path] at he
      refine List.mem_flatMap.2 ⟨n, List.mem_range.2 hk.cons.1, ?_⟩
      rcases List.mem_append.1 he with h | h
      · exact List.mem_append_left _ h
      · exact List.mem_append_right _ (ih n k hk.cons.2 h)

/-- A branch has a key that is not empty. -/
theorem branch_key {f : Nat → T} {v : Bytes} (h : (T.branch f v).WF) : ∃ n k, n < 16 ∧ (f n).get k ≠ [] := by
  obtain ⟨hw, -, i, j, hij, hj, oi, -⟩ := h
  have hi : i < 16 := by omega
  rw [T.occ_lt hi] at oi
  obtain ⟨k, hk⟩ := T.nonempty (f i) (hw i) (by simpa using oi)
  exact ⟨i, k, hi, hk⟩

section
variable (hH : ∀ x, (H x).length = 32) {P : Recorder → Prop} {g : Recorder → Bytes → Recorder} {E : List Bytes}
  (hg : Grabs P g E) {kv0 : Dict Bytes Bytes}
include hH hg

theorem listChildren_grabs {b : Nat → T} {v : Bytes} (sub : Item → M Flat) (hs : Stored H kv0 (.branch b v))
    (hsub : ∀ i w, i < 16 → (b i).all H ⊆ E → (∀ e ∈ (b i).all H, w.kv.get? (H e) = some e) → P w.spv →
      ∃ d, sub ((b i).node H) w = (.ok d, { w with spv := ((b i).all H).foldl g w.spv }) ∧ Lists d (b i)) :
    ∀ (is : List Nat) (res : Flat) (w : World), is.Nodup → (∀ i ∈ is, i < 16) → res.keys.Nodup →
      (is.flatMap (fun i => refEnc H (b i) ++ (b i).all H)) ⊆ E →
      (∀ e ∈ is.flatMap (fun i => refEnc H (b i) ++ (b i).all H), w.kv.get? (H e) = some e) → P w.spv →
      ∃ d, listChildren sub ((T.branch b v).node H) is res w =
          (.ok d, { w with spv := (is.flatMap (fun i => refEnc H (b i) ++ (b i).all H)).foldl g w.spv }) ∧
        d.keys.Nodup ∧ ∀ k x, d.get? k = some x ↔
          (∃ i n, i ∈ is ∧ k = i :: n ++ [terminator] ∧ (b i).get n ≠ [] ∧ x = .str ((b i).get n)) ∨
          ((¬ ∃ i n, i ∈ is ∧ k = i :: n ++ [terminator] ∧ (b i).get n ≠ []) ∧ res.get? k = some x) := by
  intro is
  induction is with
  | nil =>
    intro res w _ _ hr _ _ _
    refine ⟨res, rfl, hr, fun k x => ?_⟩
    constructor
    · intro h; exact .inr ⟨fun ⟨_, _, h, _⟩ => (by cases h), h⟩
    · rintro (⟨_, _, h, _⟩ | ⟨_, h⟩)
      · cases h
      · exact h
  | cons i is ih =>
    intro res w hnd hlt hr hE hkv hp
    have hi : i < 16 := hlt i List.mem_cons_self
    rw [List.flatMap_cons] at hE hkv ⊢
    have hE1 : refEnc H (b i) ⊆ E := fun x hx => hE (List.mem_append_left _ (List.mem_append_left _ hx))
    have hE2 : (b i).all H ⊆ E := fun x hx => hE (List.mem_append_left _ (List.mem_append_right _ hx))
    have hdec := decode_grabs hH hg (hs i hi).1 hE1
      (fun e he => hkv e (List.mem_append_left _ (List.mem_append_left _ he))) hp
    obtain ⟨d, h1, h2, h3⟩ := hsub i { w with spv := (refEnc H (b i)).foldl g w.spv } hi hE2
      (fun e he => hkv e (List.mem_append_left _ (List.mem_append_right _ he))) (foldl_keep hg _ _ hp)
    obtain ⟨a1, a2⟩ := addBelow_spec [i] d res h2 hr
    obtain ⟨d', b1, b2, b3⟩ := ih (addBelow [i] d res)
      { w with spv := ((b i).all H).foldl g ((refEnc H (b i)).foldl g w.spv) } (List.nodup_cons.1 hnd).2
      (fun j hj => hlt j (List.mem_cons_of_mem _ hj)) a1 (fun x hx => hE (List.mem_append_right _ hx))
      (fun e he => hkv e (List.mem_append_right _ he)) (foldl_keep hg _ _ (foldl_keep hg _ _ hp))
    refine ⟨d', ?_, b2, ?_⟩
    · unfold listChildren
      rw [slot_branch hi, lift_ok_bind, bind_ok hdec, bind_ok h1, b1]
      simp only [List.foldl_append]
    · intro k x
      rw [b3]
      have hget : (addBelow [i] d res).get? k = some x ↔
          (∃ n, k = i :: n ++ [terminator] ∧ (b i).get n ≠ [] ∧ x = .str ((b i).get n)) ∨
          ((¬ ∃ n, k = i :: n ++ [terminator] ∧ (b i).get n ≠ []) ∧ res.get? k = some x) := by
        rw [a2]
        cases hst : strip [i] k with
        | none =>
          dsimp only
          have hno : ∀ n, k ≠ i :: n ++ [terminator] := fun n e => strip_none hst (n ++ [terminator]) (by simpa using e)
          constructor
          · intro h; exact .inr ⟨fun ⟨n, e, _⟩ => hno n e, h⟩
          · rintro (⟨n, e, _⟩ | ⟨_, h⟩)
            · exact absurd e (hno n)
            · exact h
        | some r =>
          dsimp only
          have := strip_some hst
          subst this
          cases hd : d.get? r with
          | some y =>
            dsimp only
            obtain ⟨n, rfl, hn, rfl⟩ := (h3 r y).1 hd
            constructor
            · intro h
              cases h
              exact .inl ⟨n, by simp, hn, rfl⟩
            · rintro (⟨n', e, _, hx⟩ | ⟨hno, _⟩)
              · have e' : n = n' := by simpa using e
                subst e'
                rw [hx]
              · exact absurd ⟨n, by simp, hn⟩ hno
          | none =>
            dsimp only
            have hno : ¬ ∃ n, [i] ++ r = i :: n ++ [terminator] ∧ (b i).get n ≠ [] := by
              rintro ⟨n, e, hn⟩
              have e' : r = n ++ [terminator] := by simpa using e
              have := (h3 r _).2 ⟨n, e', hn, rfl⟩
              rw [hd] at this
              cases this
            constructor
            · intro h; exact .inr ⟨hno, h⟩
            · rintro (⟨n, e, hn, _⟩ | ⟨_, h⟩)
              · exact absurd ⟨n, e, hn⟩ hno
              · exact h
      constructor
      · rintro (⟨j, n, hj, e⟩ | ⟨hno, h⟩)
        · exact .inl ⟨j, n, List.mem_cons_of_mem _ hj, e⟩
        · rcases hget.1 h with ⟨n, e, hn, hx⟩ | ⟨hno', h'⟩
          · exact .inl ⟨i, n, List.mem_cons_self, e, hn, hx⟩
          · refine .inr ⟨?_, h'⟩
            rintro ⟨j, n, hj, e, hn⟩
            rcases List.mem_cons.1 hj with rfl | hj
            · exact hno' ⟨n, e, hn⟩
            · exact hno ⟨j, n, hj, e, hn⟩
      · rintro (⟨j, n, hj, e, hn, hx⟩ | ⟨hno, h⟩)
        · rcases List.mem_cons.1 hj with rfl | hj
          · refine .inr ⟨?_, hget.2 (.inl ⟨n, e, hn, hx⟩)⟩
            rintro ⟨j', n', hj', e', _⟩
            rw [e] at e'
            have : j = j' := by simpa using (List.cons.inj e').1
            subst this
            exact (List.nodup_cons.1 hnd).1 hj'
          · exact .inl ⟨j, n, hj, e, hn, hx⟩
        · refine .inr ⟨fun ⟨j, n, hj, e, hn⟩ => hno ⟨j, n, List.mem_cons_of_mem _ hj, e, hn⟩, hget.2 (.inr ⟨?_, h⟩)⟩
          exact fun ⟨n, e, hn⟩ => hno ⟨i, n, List.mem_cons_self, e, hn⟩

theorem toDictNode_grabs (f : Nat) : ∀ (t : T) (w : World), 0 < f → (∀ k, t.get k ≠ [] → k.length < f) → t.WF →
    Stored H kv0 t → t.all H ⊆ E → (∀ e ∈ t.all H, w.kv.get? (H e) = some e) → P w.spv →
    ∃ d, toDictNode f (t.node H) w = (.ok d, { w with spv := (t.all H).foldl g w.spv }) ∧ Lists d t := by
  induction f with
  | zero => intro _ _ h; omega
  | succ f ih =>
    intro t w _ hk ht hs hE hkv hp
    unfold toDictNode
    cases t with
    | blank =>
      rw [nodeType_blank, lift_ok_bind]
      exact ⟨[], rfl, List.nodup_nil, fun k x => ⟨fun h => (by cases h), fun ⟨n, _, h, _⟩ => absurd rfl h⟩⟩
    | leaf c v =>
      rw [nodeType_leaf ht.1, lift_ok_bind]
      simp only [key_leaf ht.1, lift_ok_bind, slot1_leaf]
      obtain ⟨a1, a2⟩ := addBelow_spec c [([terminator], .str v)] [] (by simp [Dict.keys]) List.nodup_nil
      refine ⟨_, rfl, a1, fun k x => ?_⟩
      rw [a2]
      simp only [T.get]
      cases hst : strip c k with
      | none =>
        dsimp only
        constructor
        · intro h; cases h
        · rintro ⟨n, e, hn, _⟩
          split at hn
          · next e' => subst e'; exact absurd e (strip_none hst _)
          · exact absurd rfl hn
      | some r =>
        dsimp only
        have := strip_some hst
        subst this
        rw [Dict.get?_cons]
        by_cases cr : [terminator] = r
        · subst cr
          simp only [if_true]
          constructor
          · intro h; cases h; exact ⟨c, rfl, by rw [if_pos rfl]; exact ht.2, by rw [if_pos rfl]⟩
          · rintro ⟨n, e, hn, hx⟩
            have e' : c = n := by simpa using e
            subst e'
            rw [if_pos rfl] at hx
            rw [hx]
        · simp only [if_neg cr, Dict.get?_nil]
          constructor
          · intro h; cases h
          · rintro ⟨n, e, hn, _⟩
            split at hn
            · next e' => subst e'; exact absurd (List.append_cancel_left e).symm cr
            · exact absurd rfl hn
    | ext c t =>
      rw [nodeType_ext ht.2.1, lift_ok_bind]
      simp only [key_ext ht.2.1, lift_ok_bind, slot1_ext]
      simp only [T.all] at hE hkv ⊢
      rw [bind_ok (decode_grabs hH hg hs.1 (fun x hx => hE (List.mem_append_left _ hx))
          (fun e he => hkv e (List.mem_append_left _ he)) hp), List.foldl_append]
      have hc : 0 < c.length := List.length_pos_iff.2 ht.1
      have hkt : ∀ k, t.get k ≠ [] → k.length < f := by
        intro k hkk
        have := hk (c ++ k) (by rw [T.get_ext]; exact hkk)
        rw [List.length_append] at this
        omega
      have hf : 0 < f := by
        obtain ⟨k, hkk⟩ := T.nonempty t ht.2.2.2 (by cases t <;> simp_all [T.isBranch, T.isBlank, T.WF])
        have := hkt k hkk
        omega
      obtain ⟨d, h1, h2, h3⟩ := ih t { w with spv := (refEnc H t).foldl g w.spv } hf hkt ht.2.2.2 hs.2
        (fun x hx => hE (List.mem_append_right _ hx)) (fun e he => hkv e (List.mem_append_right _ he))
        (foldl_keep hg _ _ hp)
      rw [bind_ok h1]
      obtain ⟨a1, a2⟩ := addBelow_spec c d [] h2 List.nodup_nil
      refine ⟨_, rfl, a1, fun k x => ?_⟩
      rw [a2]
      cases hst : strip c k with
      | none =>
        dsimp only
        constructor
        · intro h; cases h
        · rintro ⟨n, e, hn, _⟩
          obtain ⟨r, rfl⟩ := T.ext_keys hn
          exact absurd (by rw [e, List.append_assoc]) (strip_none hst (r ++ [terminator]))
      | some r =>
        have := strip_some hst
        subst this
        dsimp only
        have hm : (match d.get? r with
          | some x => some x
          | none => Dict.get? ([] : Flat) (c ++ r)) = d.get? r := by cases d.get? r <;> rfl
        rw [hm, h3]
        constructor
        · rintro ⟨n, rfl, hn, hx⟩
          exact ⟨c ++ n, by simp, by rw [T.get_ext]; exact hn, by rw [T.get_ext]; exact hx⟩
        · rintro ⟨n, e, hn, hx⟩
          obtain ⟨r', rfl⟩ := T.ext_keys hn
          rw [T.get_ext] at hn hx
          refine ⟨r', ?_, hn, hx⟩
          rw [List.append_assoc] at e
          exact List.append_cancel_left e
    | branch b v =>
      rw [nodeType_branch, lift_ok_bind]
      simp only [T.all] at hE hkv ⊢
      have hkb : ∀ i k, (b i).get k ≠ [] → k.length < f := by
        intro i k hkk
        have := hk (i :: k) hkk
        simpa using this
      have hf : 0 < f := by
        obtain ⟨n, k, -, hkk⟩ := branch_key ht
        have := hkb n k hkk
        omega
      obtain ⟨d, h1, h2, h3⟩ := listChildren_grabs hH hg (toDictNode f) hs
        (fun i w hi hE' hkv' hp' => ih (b i) w hf (hkb i) (ht.1 i) (hs i hi).2 hE' hkv' hp')
        (List.range 16) [] w List.nodup_range (fun i hi => List.mem_range.1 hi) List.nodup_nil hE hkv hp
      rw [bind_ok h1, slot_branch_16, lift_ok_bind]
      have hcase : ∀ k x, d.get? k = some x ↔ ∃ i n, i < 16 ∧ k = i :: n ++ [terminator] ∧ (b i).get n ≠ [] ∧
          x = .str ((b i).get n) := by
        intro k x
        rw [h3]
        constructor
        · rintro (⟨i, n, hi, e⟩ | ⟨_, h⟩)
          · exact ⟨i, n, List.mem_range.1 hi, e⟩
          · cases h
        · rintro ⟨i, n, hi, e⟩
          exact .inl ⟨i, n, List.mem_range.2 hi, e⟩
      have hb16 : ∀ i n, (b i).get n ≠ [] → i < 16 := by
        intro i n hn
        apply Classical.byContradiction
        intro hge
        rw [ht.2.1 i (by omega)] at hn
        exact hn rfl
      by_cases hv : v = []
      · subst hv
        refine ⟨d, rfl, h2, fun k x => ?_⟩
        rw [hcase]
        constructor
        · rintro ⟨i, n, _, e, hn, hx⟩
          exact ⟨i :: n, e, hn, hx⟩
        · rintro ⟨n, e, hn, hx⟩
          cases n with
          | nil => exact absurd rfl hn
          | cons i n => exact ⟨i, n, hb16 i n hn, e, hn, hx⟩
      · have htr : truthy (.str v) = true := by cases v with
          | nil => exact absurd rfl hv
          | cons a l => rfl
        rw [htr, if_pos rfl]
        refine ⟨_, rfl, Dict.nodup_keys_set h2 _ _, fun k x => ?_⟩
        rw [Dict.get?_set]
        by_cases ck : [terminator] = k
        · subst ck
          rw [if_pos rfl]
          constructor
          · intro h; cases h; exact ⟨[], rfl, hv, rfl⟩
          · rintro ⟨n, e, hn, hx⟩
            cases n with
            | nil => rw [hx]; rfl
            | cons i n => exact absurd (congrArg List.length e) (by simp)
        · rw [if_neg ck, hcase]
          constructor
          · rintro ⟨i, n, _, e, hn, hx⟩
            exact ⟨i :: n, e, hn, hx⟩
          · rintro ⟨n, e, hn, hx⟩
            cases n with
            | nil => exact absurd e.symm ck
            | cons i n => exact ⟨i, n, hb16 i n hn, e, hn, hx⟩
end

/-! ## Keys as bytes -/

theorem pairs_binToNibbles (b : Bytes) : pairs (binToNibbles b) = b := by
  apply binToNibbles_inj
  refine binToNibbles_pairs _ (nib_binToNibbles b) ?_
  induction b with
  | nil => rfl
  | cons x s ih => rw [binToNibbles_cons]; simp only [List.length_cons]; omega

theorem nibblesToBin_ok (b : Bytes) : nibblesToBin (withoutTerminatorAndFlags (binToNibbles b ++ [terminator])) = .ok b := by
  have hev : (binToNibbles b).length % 2 = 0 := by
    induction b with
    | nil => rfl
    | cons x s ih => rw [binToNibbles_cons]; simp only [List.length_cons]; omega
  have h1 : withoutTerminatorAndFlags (binToNibbles b ++ [terminator]) = binToNibbles b := by
    have : withoutTerminator (binToNibbles b ++ [terminator]) = binToNibbles b := by
      simp [withoutTerminator]
    unfold withoutTerminatorAndFlags
    simp only [this]
    rw [if_neg (by omega)]
  rw [h1]
  unfold nibblesToBin
  rw [if_neg, if_neg (by omega), pairs_binToNibbles]
  simp only [List.any_eq_true, decide_eq_true_eq, not_exists, not_and]
  intro x hx
  have := nib_binToNibbles b x hx
  omega

theorem toBin_spec (seen : List Nat) : ∀ (d : Flat) (res : Dict Bytes Item), d.keys.Nodup → res.keys.Nodup →
    (∀ k ∈ d.keys, ∃ b, seen ++ k = binToNibbles b ++ [terminator]) →
    ∃ r, toBin seen d res = .ok r ∧ r.keys.Nodup ∧ ∀ b x, r.get? b = some x ↔
      (∃ k, seen ++ k = binToNibbles b ++ [terminator] ∧ d.get? k = some x) ∨
      ((¬ ∃ k ∈ d.keys, seen ++ k = binToNibbles b ++ [terminator]) ∧ res.get? b = some x) := by
  intro d
  induction d with
  | nil =>
    intro res _ hr _
    refine ⟨res, rfl, hr, fun b x => ?_⟩
    constructor
    · intro h; exact .inr ⟨fun ⟨k, h, _⟩ => (by cases h), h⟩
    · rintro (⟨k, _, h⟩ | ⟨_, h⟩)
      · cases h
      · exact h
  | cons e d ih =>
    obtain ⟨a, v⟩ := e
    intro res hd hr hk
    have hd' : a ∉ Dict.keys d ∧ (Dict.keys d).Nodup := List.nodup_cons.1 hd
    obtain ⟨b0, hb0⟩ := hk a List.mem_cons_self
    obtain ⟨r, h1, h2, h3⟩ := ih (res.set b0 v) hd'.2 (Dict.nodup_keys_set hr _ _)
      (fun k hkk => hk k (List.mem_cons_of_mem _ hkk))
    refine ⟨r, ?_, h2, fun b x => ?_⟩
    · unfold toBin
      rw [hb0, nibblesToBin_ok]
      exact h1
    · rw [h3, Dict.get?_set]
      have hinj : ∀ k, seen ++ k = binToNibbles b0 ++ [terminator] → k = a := by
        intro k e
        rw [← hb0] at e
        exact List.append_cancel_left e
      by_cases cb : b0 = b
      · subst cb
        rw [if_pos rfl]
        have hnd : ¬ ∃ k ∈ Dict.keys d, seen ++ k = binToNibbles b0 ++ [terminator] := by
          rintro ⟨k, hkk, e⟩
          rw [hinj k e] at hkk
          exact hd'.1 hkk
        constructor
        · rintro (⟨k, e, h⟩ | ⟨_, h⟩)
          · exact absurd ⟨k, (Dict.mem_keys _ _).2 ⟨x, h⟩, e⟩ hnd
          · exact .inl ⟨a, hb0, by rw [Dict.get?_cons, if_pos rfl]; exact h⟩
        · rintro (⟨k, e, h⟩ | ⟨hno, _⟩)
          · have := hinj k e
            subst this
            rw [Dict.get?_cons, if_pos rfl] at h
            exact .inr ⟨hnd, h⟩
          · exact absurd ⟨a, List.mem_cons_self, hb0⟩ hno
      · rw [if_neg cb]
        have hna : seen ++ a ≠ binToNibbles b ++ [terminator] := by
          intro e
          rw [hb0] at e
          exact cb (binToNibbles_inj (List.append_cancel_right e))
        constructor
        · rintro (⟨k, e, h⟩ | ⟨hno, h⟩)
          · refine .inl ⟨k, e, ?_⟩
            rw [Dict.get?_cons, if_neg (fun h' => hna (by rw [show a = k from h']; exact e))]
            exact h
          · refine .inr ⟨?_, h⟩
            rintro ⟨k, hkk, e⟩
            rcases List.mem_cons.1 hkk with h' | h'
            · exact hna (by rw [← show k = a from h']; exact e)
            · exact hno ⟨k, h', e⟩
        · rintro (⟨k, e, h⟩ | ⟨hno, h⟩)
          · rw [Dict.get?_cons, if_neg (fun h' => hna (by rw [show a = k from h']; exact e))] at h
            exact .inl ⟨k, e, h⟩
          · exact .inr ⟨fun ⟨k, hkk, e⟩ => hno ⟨k, List.mem_cons_of_mem _ hkk, e⟩, h⟩

/-! ## The whole content -/

/-- Every tree has a longest key. -/
theorem bounded (t : T) : t.WF → ∃ n, ∀ k, t.get k ≠ [] → k.length < n := by
  induction t with
  | blank => exact fun _ => ⟨0, fun k h => absurd rfl h⟩
  | leaf c v => exact fun _ => ⟨c.length + 1, fun k h => by rw [T.leaf_key h]; omega⟩
  | ext c t ih =>
    intro ht
    obtain ⟨n, hn⟩ := ih ht.2.2.2
    refine ⟨c.length + n, fun k h => ?_⟩
    obtain ⟨r, rfl⟩ := T.ext_keys h
    rw [T.get_ext] at h
    have := hn r h
    rw [List.length_append]
    omega
  | branch f v ih =>
    intro ht
    have : ∀ m, ∃ n, ∀ i, i < m → ∀ k, (f i).get k ≠ [] → k.length < n := by
      intro m
      induction m with
      | zero => exact ⟨0, fun i hi => by omega⟩
      | succ m ihm =>
        obtain ⟨n, hn⟩ := ihm
        obtain ⟨n', hn'⟩ := ih m (ht.1 m)
        refine ⟨n + n', fun i hi k hk => ?_⟩
        by_cases c : i = m
        · subst c; have := hn' k hk; omega
        · have := hn i (by omega) k hk; omega
    obtain ⟨n, hn⟩ := this 16
    refine ⟨n + 1, fun k h => ?_⟩
    cases k with
    | nil => simp
    | cons i k =>
      have hi : i < 16 := by
        apply Classical.byContradiction
        intro hge
        have : (f i).get k ≠ [] := h
        rw [ht.2.1 i (by omega)] at this
        exact this rfl
      have := hn i hi k h
      simp only [List.length_cons]
      omega

/-- A value as the trie has it. -/
def leafOf (v : Bytes) : Item := .str (encode (.list [.str v]))

/-- The keys under `seen` in `t`, as bytes: those of the content that `sel` selects. -/
theorem toBin_content {t0 t : T} {m : Content} (hm : Shows t0 m) {seen : List Nat} {sel : Bytes → Bool} {d : Flat}
    (hd : Lists d t) (h1 : ∀ n, t.get n ≠ [] → t0.get (seen ++ n) = t.get n ∧ ∀ b, seen ++ n = binToNibbles b → sel b = true)
    (h2 : ∀ b, sel b = true → t0.get (binToNibbles b) ≠ [] → ∃ n, binToNibbles b = seen ++ n ∧
      t.get n = t0.get (binToNibbles b)) :
    ∃ r, toBin seen d [] = .ok r ∧ r.keys.Nodup ∧ ∀ b, r.get? b = if sel b then (m b).map leafOf else none := by
  have hkeys : ∀ k ∈ d.keys, ∃ b, seen ++ k = binToNibbles b ++ [terminator] := by
    intro k hk
    obtain ⟨x, hx⟩ := (Dict.mem_keys _ _).1 hk
    obtain ⟨n, rfl, hn, -⟩ := (hd.2 k x).1 hx
    have h0 := (h1 n hn).1
    obtain ⟨b, hb⟩ := hm.keys (seen ++ n) (by rw [h0]; exact hn)
    exact ⟨b, by rw [← hb]; simp⟩
  obtain ⟨r, a1, a2, a3⟩ := toBin_spec seen d [] hd.1 List.nodup_nil hkeys
  have hiff : ∀ b x, r.get? b = some x ↔ sel b = true ∧ (m b).map leafOf = some x := by
    intro b x
    rw [a3]
    constructor
    · rintro (⟨k, e, hk⟩ | ⟨_, h⟩)
      · obtain ⟨n, rfl, hn, rfl⟩ := (hd.2 k x).1 hk
        have e' : seen ++ n = binToNibbles b := by
          rw [← List.append_assoc] at e
          exact List.append_cancel_right e
        obtain ⟨h0, hs⟩ := h1 n hn
        refine ⟨hs b e', ?_⟩
        rw [e', hm.get] at h0
        rw [← h0] at hn ⊢
        cases hmb : m b with
        | none => rw [hmb] at hn; exact absurd rfl hn
        | some v => rfl
      · cases h
    · rintro ⟨hs, hx⟩
      cases hmb : m b with
      | none => rw [hmb] at hx; cases hx
      | some v =>
        rw [hmb] at hx
        have hg : t0.get (binToNibbles b) = valEnc (some v) := by rw [hm.get, hmb]
        obtain ⟨n, e, hn⟩ := h2 b hs (by rw [hg]; exact valEnc_some_ne v)
        refine .inl ⟨n ++ [terminator], by rw [e]; simp, (hd.2 _ _).2 ⟨n, rfl, ?_, ?_⟩⟩
        · rw [hn, hg]; exact valEnc_some_ne v
        · rw [hn, hg]; cases hx; rfl
  refine ⟨r, a1, a2, fun b => ?_⟩
  cases hr : r.get? b with
  | some x =>
    obtain ⟨hs, hx⟩ := (hiff b x).1 hr
    rw [hs, if_pos rfl, hx]
  | none =>
    split
    · next hs =>
      cases hx : (m b).map leafOf with
      | none => rfl
      | some x =>
        have := (hiff b x).2 ⟨hs, hx⟩
        rw [hr] at this
        cases this
    · rfl

/-- Reading outside proofs leaves the recorder alone. -/
theorem grabs_quiet (E : List Bytes) : Grabs (fun r => r.proving = false) (fun r _ => r) E :=
  ⟨fun x w hp _ _ => by simp [spvGrabbing, hp], fun _ _ h => h⟩

theorem quiet_all {kv : Dict Bytes Bytes} {t : T} (hs : Stored H kv t) : ∀ e ∈ t.all H, kv.get? (H e) = some e := by
  intro e he
  obtain ⟨_, _, _, h3⟩ := all_held t hs e he
  exact h3

theorem length_binToNibbles (b : Bytes) : (binToNibbles b).length = 2 * b.length := by
  induction b with
  | nil => rfl
  | cons x s ih => rw [binToNibbles_cons]; simp only [List.length_cons, ih]; omega

/-- The keys of the content are bounded as those of the tree. -/
theorem keys_bounded {t : T} {m : Content} (hm : Shows t m) {f : Nat} (hf : ∀ b v, m b = some v → 2 * b.length < f) :
    ∀ k, t.get k ≠ [] → k.length < f := by
  intro k hk
  obtain ⟨b, rfl⟩ := hm.keys k hk
  rw [hm.get] at hk
  cases hmb : m b with
  | none => rw [hmb] at hk; exact absurd rfl hk
  | some v => rw [length_binToNibbles]; exact hf b v hmb

theorem content_bounded {t : T} (ht : t.WF) {m : Content} (hm : Shows t m) : ∃ n, ∀ b v, m b = some v → b.length ≤ n := by
  obtain ⟨n, hn⟩ := bounded t ht
  refine ⟨n, fun b v hb => ?_⟩
  have := hn (binToNibbles b) (by rw [hm.get, hb]; exact valEnc_some_ne v)
  rw [length_binToNibbles] at this
  omega

/-- The listing of a node. -/
theorem list_node (hH : ∀ x, (H x).length = 32) {w : World} (hi : Inv H w) {h : Bytes} {t : T} (ht : Rooted H w.kv h t)
    {m : Content} (hm : Shows t m) {f : Nat} (h0 : 0 < f) (hf : ∀ b v, m b = some v → 2 * b.length < f) :
    ∃ d r, toDictNode f (t.node H) w = (.ok d, w) ∧ Lists d t ∧ toBin [] d [] = .ok r ∧ r.keys.Nodup ∧
      ∀ b, r.get? b = (m b).map leafOf := by
  obtain ⟨d, h1, h2⟩ := toDictNode_grabs hH (grabs_quiet (t.all H)) f t w h0 (keys_bounded hm hf) ht.wf ht.stored
    (fun _ h => h) (quiet_all ht.stored) hi.quiet
  rw [foldl_id] at h1
  obtain ⟨r, a1, a2, a3⟩ := toBin_content hm (seen := []) (sel := fun _ => true) h2
    (fun n _ => ⟨rfl, fun _ _ => rfl⟩) (fun b _ _ => ⟨binToNibbles b, rfl, rfl⟩)
  exact ⟨d, r, h1, h2, a1, a2, fun b => by rw [a3]; rfl⟩

theorem decodeValues_spec {m : Content} (hm : ∀ b v, m b = some v → fits (.list [.str v]) = true) :
    ∀ (d : Dict Bytes Item), d.keys.Nodup → (∀ k x, d.get? k = some x → (m k).map leafOf = some x) →
      ∃ r, decodeValues d = .ok r ∧ r.keys = d.keys ∧ ∀ b, r.get? b = if d.has b then m b else none := by
  intro d
  induction d with
  | nil => intro _ _; exact ⟨[], rfl, rfl, fun b => rfl⟩
  | cons e d ih =>
    obtain ⟨k, x⟩ := e
    intro hd hx
    have hd' : k ∉ Dict.keys d ∧ (Dict.keys d).Nodup := List.nodup_cons.1 hd
    have hk := hx k x (by rw [Dict.get?_cons, if_pos rfl])
    cases hmk : m k with
    | none => rw [hmk] at hk; cases hk
    | some v =>
      rw [hmk] at hk
      cases hk
      obtain ⟨r, h1, h2, h3⟩ := ih hd'.2 (fun j y hj => hx j y (by
        rw [Dict.get?_cons, if_neg]
        · exact hj
        · rintro rfl
          exact hd'.1 ((Dict.mem_keys _ _).2 ⟨y, hj⟩)))
      refine ⟨(k, v) :: r, ?_, ?_, ?_⟩
      · simp only [leafOf, decodeValues, getDecoded_some (hm k v hmk), h1]
      · show k :: Dict.keys r = k :: Dict.keys d
        rw [h2]
      · intro b
        rw [Dict.get?_cons, h3]
        unfold Dict.has
        rw [Dict.get?_cons]
        by_cases c : k = b
        · subst c; simp [hmk]
        · simp only [if_neg c]

/-! ## How many keys there are -/

/-- The paths with a value. -/
def T.paths : T → List (List Nat)
  | .blank => []
  | .leaf c _ => [c]
  | .ext c t => t.paths.map (c ++ ·)
  | .branch f v => (List.range 16).flatMap (fun i => (f i).paths.map (i :: ·)) ++ (if v = [] then [] else [[]])

theorem mem_paths (t : T) : t.WF → ∀ k, k ∈ t.paths ↔ t.get k ≠ [] := by
  induction t with
  | blank => intro _ k; simp [T.paths, T.get]
  | leaf c v =>
    intro ht k
    simp only [T.paths, T.get, List.mem_singleton]
    constructor
    · rintro rfl; rw [if_pos rfl]; exact ht.2
    · intro h
      apply Classical.byContradiction
      intro hne
      rw [if_neg hne] at h
      exact h rfl
  | ext c t ih =>
    intro ht k
    simp only [T.paths, List.mem_map]
    constructor
    · rintro ⟨r, hr, rfl⟩
      rw [T.get_ext]
      exact (ih ht.2.2.2 r).1 hr
    · intro h
      obtain ⟨r, rfl⟩ := T.ext_keys h
      rw [T.get_ext] at h
      exact ⟨r, (ih ht.2.2.2 r).2 h, rfl⟩
  | branch f v ih =>
    intro ht k
    simp only [T.paths, List.mem_append, List.mem_flatMap, List.mem_map, List.mem_range]
    cases k with
    | nil =>
      constructor
      · rintro (⟨i, _, r, _, h⟩ | h)
        · cases h
        · intro hv
          have : v = [] := hv
          rw [if_pos this] at h
          cases h
      · intro h
        have : ¬ v = [] := h
        rw [if_neg this]
        exact .inr (List.mem_singleton.2 rfl)
    | cons n k =>
      constructor
      · rintro (⟨i, _, r, hr, h⟩ | h)
        · cases h
          exact (ih n (ht.1 n) k).1 hr
        · split at h
          · cases h
          · cases List.mem_singleton.1 h
      · intro h
        have hg : (f n).get k ≠ [] := h
        have hn : n < 16 := by
          apply Classical.byContradiction
          intro hge
          rw [ht.2.1 n (by omega)] at hg
          exact hg rfl
        exact .inl ⟨n, hn, k, (ih n (ht.1 n) k).2 hg, rfl⟩

theorem nodup_paths (t : T) : t.paths.Nodup := by
  induction t with
  | blank => exact List.nodup_nil
  | leaf c v => simp [T.paths]
  | ext c t ih =>
    simp only [T.paths]
    rw [List.nodup_iff_pairwise_ne] at ih ⊢
    exact List.pairwise_map.2 (ih.imp (fun h e => h (List.append_cancel_left e)))
  | branch f v ih =>
    simp only [T.paths]
    rw [List.nodup_append]
    refine ⟨?_, ?_, ?_⟩
    · have : ∀ l : List Nat, l.Nodup → (l.flatMap (fun i => (f i).paths.map (i :: ·))).Nodup := by
        intro l
        induction l with
        | nil => exact fun _ => List.nodup_nil
        | cons i l ihl =>
          intro hnd
          rw [List.flatMap_cons, List.nodup_append]
          refine ⟨?_, ihl (List.nodup_cons.1 hnd).2, ?_⟩
          · have := ih i
            rw [List.nodup_iff_pairwise_ne] at this ⊢
            exact List.pairwise_map.2 (this.imp (fun h e => h (List.cons.inj e).2))
          · intro a ha b hb e
            obtain ⟨r, _, rfl⟩ := List.mem_map.1 ha
            obtain ⟨j, hj, hb⟩ := List.mem_flatMap.1 hb
            obtain ⟨r', _, rfl⟩ := List.mem_map.1 hb
            have := (List.cons.inj e).1
            subst this
            exact (List.nodup_cons.1 hnd).1 hj
      exact this _ List.nodup_range
    · split <;> simp
    · intro a ha b hb e
      subst e
      split at hb
      · cases hb
      · have := List.mem_singleton.1 hb
        subst this
        obtain ⟨j, _, hb⟩ := List.mem_flatMap.1 ha
        obtain ⟨r', _, h⟩ := List.mem_map.1 hb
        cases h

/-- A dictionary with the content of the tree has as many entries as the tree has paths. -/
theorem paths_length {t : T} (ht : t.WF) {m : Content} (hm : Shows t m) {α : Type} {r : Dict Bytes α} (hr : r.keys.Nodup)
    (hk : ∀ b, b ∈ r.keys ↔ m b ≠ none) : t.paths.length = r.length := by
  have hne : ∀ b, m b ≠ none ↔ t.get (binToNibbles b) ≠ [] := by
    intro b
    rw [hm.get]
    cases m b with
    | none => simp [valEnc]
    | some v => simp only [ne_eq, reduceCtorEq, not_false_eq_true, true_iff]; exact valEnc_some_ne v
  have hl : r.length = (r.keys.map binToNibbles).length := by simp [Dict.keys]
  have hnd : (r.keys.map binToNibbles).Nodup := by
    rw [List.nodup_iff_pairwise_ne] at hr ⊢
    exact List.pairwise_map.2 (hr.imp (fun h e => h (binToNibbles_inj e)))
  rw [hl]
  apply Nat.le_antisymm
  · refine length_le_of_subset (nodup_paths t) ?_
    intro k hk'
    have hg := (mem_paths t ht k).1 hk'
    obtain ⟨b, rfl⟩ := hm.keys k hg
    exact List.mem_map.2 ⟨b, (hk b).2 ((hne b).2 hg), rfl⟩
  · refine length_le_of_subset hnd ?_
    intro k hk'
    obtain ⟨b, hb, rfl⟩ := List.mem_map.1 hk'
    exact (mem_paths t ht _).2 ((hne b).1 ((hk b).1 hb))

theorem sizeChildren_spec (hH : ∀ x, (H x).length = 32) {w : World} (hi : Inv H w) {b : Nat → T} {v : Bytes}
    (sub : Item → M Nat) (hs : Stored H w.kv (.branch b v))
    (hsub : ∀ i, i < 16 → sub ((b i).node H) w = (.ok (b i).paths.length, w)) :
    ∀ (is : List Nat), (∀ i ∈ is, i < 16) → sizeChildren sub ((T.branch b v).node H) is w =
      (.ok (is.flatMap (fun i => (b i).paths.map (i :: ·))).length, w) := by
  intro is
  induction is with
  | nil => intro _; rfl
  | cons i is ih =>
    intro hlt
    have h16 := hlt i List.mem_cons_self
    unfold sizeChildren
    rw [slot_branch h16, lift_ok_bind, bind_ok (decode_held hi (hs i h16).1 hH), bind_ok (hsub i h16),
      bind_ok (ih (fun j hj => hlt j (List.mem_cons_of_mem _ hj)))]
    simp only [List.flatMap_cons, List.length_append, List.length_map]
    rfl

theorem getSize_spec (hH : ∀ x, (H x).length = 32) (f : Nat) : ∀ (t : T) (w : World), 0 < f →
    (∀ k, t.get k ≠ [] → k.length < f) → t.WF → Inv H w → Stored H w.kv t →
    getSize f (t.node H) w = (.ok t.paths.length, w) := by
  induction f with
  | zero => intro _ _ h; omega
  | succ f ih =>
    intro t w _ hk ht hi hs
    unfold getSize
    cases t with
    | blank => rw [nodeType_blank, lift_ok_bind]; rfl
    | leaf c v => rw [nodeType_leaf ht.1, lift_ok_bind]; rfl
    | ext c t =>
      rw [nodeType_ext ht.2.1, lift_ok_bind]
      simp only [slot1_ext, lift_ok_bind]
      rw [bind_ok (decode_held hi hs.1 hH)]
      have hc : 0 < c.length := List.length_pos_iff.2 ht.1
      have hkt : ∀ k, t.get k ≠ [] → k.length < f := by
        intro k hkk
        have := hk (c ++ k) (by rw [T.get_ext]; exact hkk)
        rw [List.length_append] at this
        omega
      have hf : 0 < f := by
        obtain ⟨k, hkk⟩ := T.nonempty t ht.2.2.2 (by cases t <;> simp_all [T.isBranch, T.isBlank, T.WF])
        have := hkt k hkk
        omega
      rw [ih t w hf hkt ht.2.2.2 hi hs.2]
      simp [T.paths]
    | branch b v =>
      rw [nodeType_branch, lift_ok_bind]
      have hkb : ∀ i k, (b i).get k ≠ [] → k.length < f := by
        intro i k hkk
        have := hk (i :: k) hkk
        simpa using this
      have hf : 0 < f := by
        obtain ⟨n, k, -, hkk⟩ := branch_key ht
        have := hkb n k hkk
        omega
      have h1 := sizeChildren_spec hH hi (getSize f) hs
        (fun i h16 => ih (b i) w hf (hkb i) (ht.1 i) hi (hs i h16).2) (List.range 16) (fun i h => List.mem_range.1 h)
      dsimp only
      rw [bind_ok h1, slot_branch_16, lift_ok_bind]
      simp only [T.paths, List.length_append]
      cases v with
      | nil => rfl
      | cons a l => rfl

/-! ## A prefix -/

/-- The last node along a prefix, the path to it, and the encodings read. -/
def T.last (H : Bytes → Bytes) : T → List Nat → T × List Nat × List Bytes
  | .blank, _ => (.blank, [], [])
  | .branch f v, [] => (.branch f v, [], [])
  | .branch f _, n :: k => (((f n).last H k).1, n :: ((f n).last H k).2.1, refEnc H (f n) ++ ((f n).last H k).2.2)
  | .leaf c v, p => if (strip p c).isSome then (.leaf c v, [], []) else (.blank, [], [])
  | .ext c t, p =>
    if p.length > c.length then
      match strip c p with
      | some r => ((t.last H r).1, c ++ (t.last H r).2.1, refEnc H t ++ (t.last H r).2.2)
      | none => (.blank, [], [])
    else if (strip p c).isSome then (.ext c t, [], []) else (.blank, [], [])

/-- What there is to say about it. -/
structure LastOk (kv : Dict Bytes Bytes) (t : T) (p : List Nat) (r : T × List Nat × List Bytes) : Prop where
  wf : r.1.WF
  stored : Stored H kv r.1
  below : ∀ n, r.1.get n ≠ [] → t.get (r.2.1 ++ n) = r.1.get n ∧ ∃ s, r.2.1 ++ n = p ++ s
  above : ∀ s, t.get (p ++ s) ≠ [] → ∃ n, p ++ s = r.2.1 ++ n ∧ r.1.get n = t.get (p ++ s)
  path : ∀ s, Nib (p ++ s) → t.path H (p ++ s) ⊆ r.2.2 ++ r.1.all H
  held : ∀ e ∈ r.2.2, ∃ x, fits x = true ∧ e = encode x ∧ kv.get? (H e) = some e

/-- Nothing below the prefix. -/
theorem lastOk_none {kv : Dict Bytes Bytes} {t : T} {p : List Nat} (h : ∀ s, t.get (p ++ s) = [])
    (hp : ∀ s, t.path H (p ++ s) = []) : LastOk (H := H) kv t p (.blank, [], []) :=
  ⟨trivial, trivial, fun n hn => absurd rfl hn, fun s hs => absurd (h s) hs, fun s _ => by rw [hp s]; exact fun _ h => h,
    fun _ h => by cases h⟩

/-- All of the tree. -/
theorem lastOk_self {kv : Dict Bytes Bytes} {t : T} {p : List Nat} (ht : t.WF) (hs : Stored H kv t)
    (h : ∀ n, t.get n ≠ [] → ∃ s, n = p ++ s) : LastOk (H := H) kv t p (t, [], []) :=
  ⟨ht, hs, fun n hn => ⟨rfl, h n hn⟩, fun s _ => ⟨p ++ s, rfl, rfl⟩, fun s hn => path_all t _ hn, fun _ h => by cases h⟩

theorem last_ok {kv : Dict Bytes Bytes} (t : T) : ∀ (p : List Nat), Nib p → t.WF → Stored H kv t →
    LastOk (H := H) kv t p (t.last H p) := by
  induction t with
  | blank => intro p _ _ _; exact lastOk_none (fun _ => rfl) (fun _ => rfl)
  | leaf c v =>
    intro p hp ht hs
    simp only [T.last]
    cases hst : strip p c with
    | some r =>
      simp only [Option.isSome_some, if_true]
      exact lastOk_self ht hs (fun n hn => ⟨r, by rw [T.leaf_key hn]; exact strip_some hst⟩)
    | none =>
      simp only [Option.isSome_none, Bool.false_eq_true, if_false]
      refine lastOk_none (fun s => ?_) (fun _ => rfl)
      simp only [T.get]
      rw [if_neg]
      intro e
      exact strip_none hst s e.symm
  | ext c t ih =>
    intro p hp ht hs
    simp only [T.last]
    by_cases hl : p.length > c.length
    · rw [if_pos hl]
      cases hst : strip c p with
      | some r =>
        have := strip_some hst
        subst this
        have hr := ih r (fun n hn => hp n (List.mem_append_right _ hn)) ht.2.2.2 hs.2
        refine ⟨hr.wf, hr.stored, ?_, ?_, ?_, ?_⟩
        · intro n hn
          obtain ⟨h1, s, h2⟩ := hr.below n hn
          dsimp only at hn ⊢
          rw [List.append_assoc, T.get_ext]
          exact ⟨h1, s, by rw [h2]; simp⟩
        · intro s hsn
          rw [List.append_assoc, T.get_ext] at hsn ⊢
          obtain ⟨n, h1, h2⟩ := hr.above s hsn
          exact ⟨n, by rw [h1]; simp, h2⟩
        · intro s hsn
          rw [List.append_assoc] at hsn ⊢
          simp only [T.path, strip_append]
          intro e he
          rcases List.mem_append.1 he with h | h
          · exact List.mem_append_left _ (List.mem_append_left _ h)
          · rcases List.mem_append.1 (hr.path s (fun n hn => hsn n (List.mem_append_right _ hn)) h) with h | h
            · exact List.mem_append_left _ (List.mem_append_right _ h)
            · exact List.mem_append_right _ h
        · intro e he
          rcases List.mem_append.1 he with h | h
          · exact refEnc_held hs.1 h
          · exact hr.held e h
      | none =>
        have hno : ∀ s, strip c (p ++ s) = none := by
          intro s
          cases hst' : strip c (p ++ s) with
          | none => rfl
          | some r =>
            exfalso
            have e := strip_some hst'
            have hpre : c <+: p := List.prefix_of_prefix_length_le ⟨r, e.symm⟩ ⟨s, rfl⟩ (by omega)
            obtain ⟨r', hr'⟩ := hpre
            exact strip_none hst r' hr'.symm
        exact lastOk_none (fun s => by simp only [T.get, hno s]) (fun s => by simp only [T.path, hno s])
    · rw [if_neg hl]
      cases hst : strip p c with
      | some r =>
        simp only [Option.isSome_some, if_true]
        have := strip_some hst
        subst this
        refine lastOk_self ht hs (fun n hn => ?_)
        obtain ⟨r', rfl⟩ := T.ext_keys hn
        exact ⟨r ++ r', by simp⟩
      | none =>
        simp only [Option.isSome_none, Bool.false_eq_true, if_false]
        have hno : ∀ s, strip c (p ++ s) = none := by
          intro s
          cases hst' : strip c (p ++ s) with
          | none => rfl
          | some r =>
            exfalso
            have e := strip_some hst'
            have hpre : p <+: c := List.prefix_of_prefix_length_le ⟨s, rfl⟩ ⟨r, e.symm⟩ (by omega)
            obtain ⟨r', hr'⟩ := hpre
            exact strip_none hst r' hr'.symm
        exact lastOk_none (fun s => by simp only [T.get, hno s]) (fun s => by simp only [T.path, hno s])
  | branch f v ih =>
    intro p hp ht hs
    cases p with
    | nil => exact lastOk_self ht hs (fun n _ => ⟨n, rfl⟩)
    | cons n k =>
      have h16 := hp.cons.1
      have hr := ih n k hp.cons.2 (ht.1 n) (hs n h16).2
      simp only [T.last]
      refine ⟨hr.wf, hr.stored, ?_, ?_, ?_, ?_⟩
      · intro m hm
        obtain ⟨h1, s, h2⟩ := hr.below m hm
        exact ⟨h1, s, by simp only [List.cons_append, h2]⟩
      · intro s hsn
        obtain ⟨m, h1, h2⟩ := hr.above s hsn
        exact ⟨m, by simp only [List.cons_append, h1], h2⟩
      · intro s hsn e he
        simp only [List.cons_append, T.path] at he
        rcases List.mem_append.1 he with h | h
        · exact List.mem_append_left _ (List.mem_append_left _ h)
        · rcases List.mem_append.1 (hr.path s (fun m hm => hsn m (List.mem_cons_of_mem _ hm)) h) with h | h
          · exact List.mem_append_left _ (List.mem_append_right _ h)
          · exact List.mem_append_right _ h
      · intro e he
        rcases List.mem_append.1 he with h | h
        · exact refEnc_held (hs n h16).1 h
        · exact hr.held e h

section
variable (hH : ∀ x, (H x).length = 32) {P : Recorder → Prop} {g : Recorder → Bytes → Recorder} {E : List Bytes}
  (hg : Grabs P g E) {kv0 : Dict Bytes Bytes}
include hH hg

theorem lastNode_grabs (f : Nat) : ∀ (t : T) (p seen : List Nat) (w : World), p.length < f → t.WF → Nib p →
    Stored H kv0 t → (t.last H p).2.2 ⊆ E → (∀ e ∈ (t.last H p).2.2, w.kv.get? (H e) = some e) → P w.spv →
    ∃ seen', lastNode f (t.node H) p seen w = (.ok ((t.last H p).1.node H, seen'),
      { w with spv := (t.last H p).2.2.foldl g w.spv }) ∧
      ((t.last H p).1.isBlank = false → seen' = seen ++ (t.last H p).2.1) := by
  induction f with
  | zero => intro _ _ _ _ h; omega
  | succ f ih =>
    intro t p seen w hp ht hn hs hE hkv hP
    unfold lastNode
    cases t with
    | blank => rw [nodeType_blank, lift_ok_bind]; exact ⟨seen, rfl, fun h => by cases h⟩
    | leaf c v =>
      rw [nodeType_leaf ht.1, lift_ok_bind]
      simp only [key_leaf ht.1, lift_ok_bind, startsWith_strip]
      simp only [T.last] at hE hkv ⊢
      cases hst : strip p c with
      | some r => exact ⟨seen, rfl, fun _ => by simp⟩
      | none => exact ⟨seen, rfl, fun _ => by simp⟩
    | ext c t =>
      rw [nodeType_ext ht.2.1, lift_ok_bind]
      simp only [key_ext ht.2.1, lift_ok_bind, startsWith_strip, slot1_ext]
      simp only [T.last] at hE hkv ⊢
      by_cases hl : p.length > c.length
      · rw [if_pos hl] at hE hkv ⊢
        rw [if_pos hl]
        cases hst : strip c p with
        | none => exact ⟨seen, rfl, fun h => by cases h⟩
        | some r =>
          rw [hst] at hE hkv
          dsimp only at hE hkv ⊢
          simp only [Option.isSome_some, if_true, strip_drop hst]
          rw [bind_ok (decode_grabs hH hg hs.1 (fun x hx => hE (List.mem_append_left _ hx))
            (fun e he => hkv e (List.mem_append_left _ he)) hP), List.foldl_append]
          have e := strip_some hst
          subst e
          have hc : 0 < c.length := List.length_pos_iff.2 ht.1
          rw [List.length_append] at hp
          obtain ⟨seen', h1, h2⟩ := ih t r (seen ++ c) { w with spv := (refEnc H t).foldl g w.spv } (by omega) ht.2.2.2
            (fun n hm => hn n (List.mem_append_right _ hm)) hs.2 (fun x hx => hE (List.mem_append_right _ hx))
            (fun e he => hkv e (List.mem_append_right _ he)) (foldl_keep hg _ _ hP)
          exact ⟨seen', h1, fun hb => by rw [h2 hb]; simp⟩
      · rw [if_neg hl] at hE hkv ⊢
        rw [if_neg hl]
        cases hst : strip p c with
        | some r => exact ⟨seen, rfl, fun _ => by simp⟩
        | none => exact ⟨seen, rfl, fun h => by cases h⟩
    | branch b v =>
      rw [nodeType_branch, lift_ok_bind]
      cases p with
      | nil => exact ⟨seen, rfl, fun _ => by simp [T.last]⟩
      | cons n k =>
        have h16 := hn.cons.1
        simp only [T.last] at hE hkv ⊢
        simp only [slot_branch h16, lift_ok_bind]
        rw [bind_ok (decode_grabs hH hg (hs n h16).1 (fun x hx => hE (List.mem_append_left _ hx))
          (fun e he => hkv e (List.mem_append_left _ he)) hP), List.foldl_append]
        obtain ⟨seen', h1, h2⟩ := ih (b n) k (seen ++ [n]) { w with spv := (refEnc H (b n)).foldl g w.spv }
          (by simpa using hp) (ht.1 n) hn.cons.2 (hs n h16).2 (fun x hx => hE (List.mem_append_right _ hx))
          (fun e he => hkv e (List.mem_append_right _ he)) (foldl_keep hg _ _ hP)
        exact ⟨seen', h1, fun hb => by rw [h2 hb]; simp⟩
end

/-! ## The proof for a prefix -/

/-- A prefix of bytes is one of nibbles. -/
theorem prefix_nibbles (p b : Bytes) : (∃ s, binToNibbles b = binToNibbles p ++ s) ↔ p <+: b := by
  constructor
  · rintro ⟨s, e⟩
    induction p generalizing b with
    | nil => exact List.nil_prefix
    | cons x p ih =>
      cases b with
      | nil => rw [binToNibbles_cons] at e; cases e
      | cons y b =>
        rw [binToNibbles_cons, binToNibbles_cons] at e
        simp only [List.cons_append, List.cons.injEq] at e
        obtain ⟨e1, e2, e3⟩ := e
        have hxy : x = y := by
          apply UInt8.toNat_inj.1
          omega
        subst hxy
        obtain ⟨r, hr⟩ := ih b e3
        exact ⟨r, by rw [← hr]; rfl⟩
  · rintro ⟨r, rfl⟩
    exact ⟨binToNibbles r, by simp [binToNibbles]⟩

/-- The proof made for a prefix: the nodes read and the root, and the content below the prefix. -/
theorem prefix_spec' (hH : ∀ x, (H x).length = 32) {w : World} {h : Bytes} {t : T} (ht : Rooted H w.kv h t)
    (hspv : w.spv = {}) {m : Content} (hm : Shows t m) (prfx : Bytes) {f : Nat} (h0 : 0 < f)
    (hf : ∀ b v, m b = some v → 2 * b.length < f) :
    ∃ ns r, generatePrefixProof f (t.node H) prfx w = (.ok (ns, r), w) ∧
      (∀ x, x ∈ ns ↔ (fits x = true ∧ encode x ∈ (t.last H (binToNibbles prfx)).2.2 ++
        (t.last H (binToNibbles prfx)).1.all H) ∨ x = t.node H) ∧
      r.keys.Nodup ∧ ∀ b, r.get? b = if decide (prfx <+: b) then (m b).map leafOf else none := by
  have hn := nib_binToNibbles prfx
  have ho := last_ok (H := H) t _ hn ht.wf ht.stored
  generalize hl : t.last H (binToNibbles prfx) = l at ho ⊢
  have hheld : ∀ e ∈ l.2.2 ++ l.1.all H, ∃ x, fits x = true ∧ e = encode x ∧ w.kv.get? (H e) = some e := by
    intro e he
    rcases List.mem_append.1 he with h | h
    · exact ho.held e h
    · exact all_held l.1 ho.stored e h
  have hkv : ∀ e ∈ l.2.2 ++ l.1.all H, w.kv.get? (H e) = some e := by
    intro e he
    obtain ⟨_, _, _, h3⟩ := hheld e he
    exact h3
  let wr : World := { w with spv := w.spv.pushRecording }
  have hrec : Recording wr.spv := ⟨rfl, _, rfl⟩
  obtain ⟨seen, s1, s2⟩ := lastNode_grabs hH (grabs_recording (l.2.2 ++ l.1.all H)) _ t (binToNibbles prfx) [] wr
    (Nat.lt_succ_self _) ht.wf hn ht.stored (by rw [hl]; exact fun x hx => List.mem_append_left _ hx)
    (by rw [hl]; exact fun e he => hkv e (List.mem_append_left _ he)) hrec
  rw [hl] at s1 s2
  have hbelow : ∀ k, l.1.get k ≠ [] → k.length < f := by
    intro k hk
    obtain ⟨h1, s, _⟩ := ho.below k hk
    have := keys_bounded hm hf (l.2.1 ++ k) (by rw [h1]; exact hk)
    rw [List.length_append] at this
    omega
  obtain ⟨d, d1, d2⟩ := toDictNode_grabs hH (grabs_recording (l.2.2 ++ l.1.all H)) f l.1
    { wr with spv := l.2.2.foldl Recorder.addNode wr.spv } h0 hbelow ho.wf ho.stored
    (fun x hx => List.mem_append_right _ hx) (fun e he => hkv e (List.mem_append_right _ he))
    (foldl_keep (grabs_recording (l.2.2 ++ l.1.all H)) _ _ hrec)
  obtain ⟨top, t1, t2⟩ := addNodes_spec (l.2.2 ++ l.1.all H) wr.spv [] [] (by simp [wr, Recorder.pushRecording, hspv])
  rw [List.foldl_append] at t1
  dsimp only at d1
  rw [t1] at d1
  have hbin : ∃ r, toBin seen d [] = .ok r ∧ r.keys.Nodup ∧
      ∀ b, r.get? b = if decide (prfx <+: b) then (m b).map leafOf else none := by
    cases hb : l.1.isBlank with
    | true =>
      have e := T.isBlank_iff.1 hb
      have hd : d = [] := by
        cases d with
        | nil => rfl
        | cons p d =>
          obtain ⟨k, x⟩ := p
          obtain ⟨n, _, hn', _⟩ := (d2.2 k x).1 (by rw [Dict.get?_cons, if_pos rfl])
          rw [e] at hn'
          exact absurd rfl hn'
      subst hd
      refine ⟨[], rfl, List.nodup_nil, fun b => ?_⟩
      split
      · next hp =>
        have hp := of_decide_eq_true hp
        obtain ⟨s, hs⟩ := (prefix_nibbles prfx b).2 hp
        cases hmb : m b with
        | none => rfl
        | some v =>
          obtain ⟨n, _, hn'⟩ := ho.above s (by rw [← hs, hm.get, hmb]; exact valEnc_some_ne v)
          rw [e, ← hs, hm.get, hmb] at hn'
          exact absurd hn'.symm (valEnc_some_ne v)
      · rfl
    | false =>
      have hseen := s2 hb
      rw [List.nil_append] at hseen
      subst hseen
      refine toBin_content hm (sel := fun b => decide (prfx <+: b)) d2 ?_ ?_
      · intro n hn'
        obtain ⟨h1, s, h2⟩ := ho.below n hn'
        refine ⟨h1, fun b hb' => decide_eq_true ?_⟩
        exact (prefix_nibbles prfx b).1 ⟨s, by rw [← hb', h2]⟩
      · intro b hb' hne
        obtain ⟨s, hs⟩ := (prefix_nibbles prfx b).2 (of_decide_eq_true hb')
        rw [hs] at hne ⊢
        exact ho.above s hne
  obtain ⟨r, r1, r2, r3⟩ := hbin
  obtain ⟨xs, hx1, hx2⟩ := decodeEach_spec top (by
    intro e he
    rcases (t2 e).1 he with h | h
    · cases h
    · obtain ⟨x, h1, h2, -⟩ := hheld e h
      exact ⟨x, h1, h2⟩)
  have hprod : producePrefixProof f (t.node H) prfx w = (.ok (xs, r), w) := by
    unfold producePrefixProof
    have e0 : pushRecording w = (.ok (), wr) := rfl
    rw [bind_ok e0, bind_ok s1]
    dsimp only
    rw [bind_ok d1, r1, lift_ok_bind]
    have e1 : getNodelist { wr with spv := { wr.spv with nodes := [top] } } =
        (.ok xs, { wr with spv := { wr.spv with nodes := [top] } }) := by
      simp [getNodelist, hx1]
    rw [bind_ok e1]
    cases w with
    | mk kv spv written =>
      simp only at hspv
      subst hspv
      rfl
  refine ⟨xs ++ [t.node H], r, ?_, ?_, r2, r3⟩
  · unfold generatePrefixProof
    rw [bind_ok hprod]
    rfl
  · intro x
    rw [List.mem_append, hx2, t2]
    simp

/-- A list of nodes of the state with the root and the nodes on the way to all keys is accepted for these keys. -/
theorem verifyMulti_complete (hH : ∀ x, (H x).length = 32) {w0 : World} (hi : Inv H w0) (hd : Distinct H w0) {h : Bytes}
    {t : T} (ht : Rooted H w0.kv h t) {keys : List Bytes} {ns : List Item}
    (hfits : ∀ x ∈ ns, fits x = true ∧ encode x ∈ encode blank :: w0.written) (hroot : t.node H ∈ ns)
    (hpath : ∀ k ∈ keys, ∀ e ∈ t.path H (binToNibbles k), ∃ x ∈ ns, e = encode x) (w : World) :
    ∃ w', (pushVerifying ns >>= tryVerifyMulti H h (keys.map (fun k => (k, t.get (binToNibbles k))))) w =
      (.ok true, w') ∧ w'.kv = w.kv ∧ w'.written = w.written ∧ (w.spv = {} → w' = w) := by
  have henc := encodeEach_spec ns (fun x hx => (hfits x hx).1)
  have hmem : ∀ x ∈ ns, encode x ∈ ns.map encode := fun x hx => List.mem_map.2 ⟨x, hx, rfl⟩
  have hc : ∀ x ∈ ns.map encode, ∀ y ∈ ns.map encode, H x = H y → x = y := by
    intro x hx y hy
    obtain ⟨x', hx', rfl⟩ := List.mem_map.1 hx
    obtain ⟨y', hy', rfl⟩ := List.mem_map.1 hy
    exact hd _ (hfits x' hx').2 _ (hfits y' hy').2
  let wv : World := { w with spv := { mode := .verifying :: w.spv.mode, nodes := ns.map encode :: w.spv.nodes, proving := true } }
  have hpush : pushVerifying ns w = (.ok (ns.map encode), wv) := by
    unfold pushVerifying
    rw [henc]
  let wk : World := { wv with kv := proofKv H (ns.map encode) }
  have hP : Verifying (ns.map encode) wk.spv := ⟨rfl, ⟨_, rfl⟩, ⟨_, rfl⟩⟩
  have hset : setRootHash H h wk = (.ok (t.node H), wk) := by
    unfold setRootHash
    rw [if_pos (.inr (by rw [ht.hash]; exact hH _))]
    cases hb : t.isBlank with
    | true =>
      have := T.isBlank_iff.1 hb
      subst this
      have e : h = blankRoot H := ht.hash
      rw [if_pos e]; rfl
    | false =>
      rw [if_neg (ht.not_blank hH hi hd hb), ht.hash]
      exact decodeHash_grabs hH (grabs_verifying _) (hfits _ hroot).1 (hmem _ hroot) (proofKv_get hc (hmem _ hroot)) hP
  have hin : ∀ k ∈ keys, ∀ e ∈ t.path H (binToNibbles k), e ∈ ns.map encode := by
    intro k hk e he
    obtain ⟨x, hx, rfl⟩ := hpath k hk e he
    exact hmem x hx
  have hget : ∀ k ∈ keys, getAt (t.node H) k wk = (.ok (.str (t.get (binToNibbles k))), wk) := by
    intro k hk
    have := get_grabs hH (grabs_verifying (ns.map encode)) _ t (binToNibbles k) wk (Nat.lt_succ_self _) ht.wf
      (nib_binToNibbles k) ht.stored (hin k hk) (fun e he => proofKv_get hc (hin k hk e he)) hP
    rw [foldl_id] at this
    exact this
  have hall : ∀ ks : List Bytes, (∀ k ∈ ks, k ∈ keys) →
      checkEach (t.node H) (ks.map (fun k => (k, t.get (binToNibbles k)))) wk = (.ok true, wk) := by
    intro ks
    induction ks with
    | nil => intro _; rfl
    | cons k ks ih =>
      intro hk
      simp only [List.map_cons, checkEach, hget k (hk k List.mem_cons_self), if_true]
      exact ih (fun j hj => hk j (List.mem_cons_of_mem _ hj))
  refine ⟨{ w with spv := wv.spv.pop }, ?_, rfl, rfl, ?_⟩
  · rw [bind_ok hpush]
    unfold tryVerifyMulti
    rw [show ({ wv with kv := proofKv H (ns.map encode) } : World) = wk from rfl, hset]
    dsimp only
    rw [hall keys (fun _ h => h)]
  · intro hs
    cases w with
    | mk kv spv written => simp only at hs; subst hs; rfl

end Verif.Trie
