import Verif.Spec.PyVal
import Verif.Model.MsgPack
import Verif.Proofs.KvStore
/-! # Lemmas about the serialization of transactions -/
namespace Verif.MsgPack
open Verif Verif.Spec

/-! ## Numbers -/

theorem be_length (w n : Nat) : (be w n).length = w := by
  induction w generalizing n with
  | zero => rfl
  | succ w ih => simp [be, ih]

theorem ofBe_append (a : Bytes) (x : UInt8) : ofBe (a ++ [x]) = ofBe a * 256 + x.toNat := by
  simp [ofBe]

theorem ofBe_be (w n : Nat) : ofBe (be w n) = n % 256 ^ w := by
  induction w generalizing n with
  | zero => simp [be, ofBe, Nat.mod_one]
  | succ w ih =>
    rw [be, ofBe_append, ih, UInt8.toNat_ofNat']
    have : n % 256 ^ (w + 1) = n % 256 + 256 * (n / 256 % 256 ^ w) := by
      rw [Nat.pow_succ, Nat.mul_comm (256 ^ w) 256, Nat.mod_mul]
    rw [this]
    omega

theorem num_be (w n : Nat) (h : n < 256 ^ w) (r : Bytes) : num w (be w n ++ r) = some (n, r) := by
  have hl := be_length w n
  unfold num
  rw [if_neg (by simp [hl]), List.take_left' hl, List.drop_left' hl, ofBe_be, Nat.mod_eq_of_lt h]

/-! ## First bytes -/

theorem getHead_putHead (h : Head) (b r : Bytes) (e : putHead h = .ok b) : getHead (b ++ r) = some (h, r) := by
  have t : ∀ n, n < 256 → (UInt8.ofNat n).toNat = n := fun n hn => by
    rw [UInt8.toNat_ofNat']; exact Nat.mod_eq_of_lt hn
  unfold putHead at e
  split at e
  · cases e; rfl
  · cases e; rfl
  · cases e; rfl
  · next n =>
    split at e
    · next h1 =>
      cases e
      simp only [List.singleton_append, getHead, t n (by omega)]
      rw [if_pos (by omega)]; rfl
    · split at e
      · cases e
        show (num 1 (be 1 n ++ r)).map (fun p => (Head.int p.1, p.2)) = _
        rw [num_be 1 n (by omega)]; rfl
      · split at e
        · cases e
          show (num 2 (be 2 n ++ r)).map (fun p => (Head.int p.1, p.2)) = _
          rw [num_be 2 n (by omega)]; rfl
        · split at e
          · cases e
            show (num 4 (be 4 n ++ r)).map (fun p => (Head.int p.1, p.2)) = _
            rw [num_be 4 n (by omega)]; rfl
          · split at e
            · cases e
              show (num 8 (be 8 n ++ r)).map (fun p => (Head.int p.1, p.2)) = _
              rw [num_be 8 n (by omega)]; rfl
            · cases e
  · next n =>
    split at e
    · next h1 =>
      cases e
      simp only [List.singleton_append, getHead, t (255 - n) (by omega)]
      iterate 27 rw [if_neg (by omega)]
      simp only [Option.some.injEq, Prod.mk.injEq, Head.int.injEq, and_true]
      omega
    · split at e
      · next h1 =>
        cases e
        show (num 1 (be 1 _ ++ r)).map (fun p => (Head.int (signed 1 p.1), p.2)) = _
        rw [num_be 1 _ (by omega)]
        simp only [Option.map_some, Option.some.injEq, Prod.mk.injEq, Head.int.injEq, and_true, signed]
        rw [if_neg (by omega)]; omega
      · split at e
        · cases e
          show (num 2 (be 2 _ ++ r)).map (fun p => (Head.int (signed 2 p.1), p.2)) = _
          rw [num_be 2 _ (by omega)]
          simp only [Option.map_some, Option.some.injEq, Prod.mk.injEq, Head.int.injEq, and_true, signed]
          rw [if_neg (by omega)]; omega
        · split at e
          · cases e
            show (num 4 (be 4 _ ++ r)).map (fun p => (Head.int (signed 4 p.1), p.2)) = _
            rw [num_be 4 _ (by omega)]
            simp only [Option.map_some, Option.some.injEq, Prod.mk.injEq, Head.int.injEq, and_true, signed]
            rw [if_neg (by omega)]; omega
          · split at e
            · cases e
              show (num 8 (be 8 _ ++ r)).map (fun p => (Head.int (signed 8 p.1), p.2)) = _
              rw [num_be 8 _ (by omega)]
              simp only [Option.map_some, Option.some.injEq, Prod.mk.injEq, Head.int.injEq, and_true, signed]
              rw [if_neg (by omega)]; omega
            · cases e
  · next f =>
    cases e
    show (num 8 (be 8 f.toNat ++ r)).map (fun p => (Head.float (UInt64.ofNat p.1), p.2)) = _
    have := f.toNat_lt
    rw [num_be 8 f.toNat (by omega)]
    simp
  · next n =>
    split at e
    · cases e
      simp only [List.singleton_append, getHead, t (0xa0 + n) (by omega)]
      iterate 3 rw [if_neg (by omega)]
      rw [if_pos (by omega)]
      simp
    · split at e
      · cases e
        show (num 1 (be 1 n ++ r)).map (fun p => (Head.str p.1, p.2)) = _
        rw [num_be 1 n (by omega)]; rfl
      · split at e
        · cases e
          show (num 2 (be 2 n ++ r)).map (fun p => (Head.str p.1, p.2)) = _
          rw [num_be 2 n (by omega)]; rfl
        · split at e
          · cases e
            show (num 4 (be 4 n ++ r)).map (fun p => (Head.str p.1, p.2)) = _
            rw [num_be 4 n (by omega)]; rfl
          · cases e
  · next n =>
    split at e
    · cases e
      show (num 1 (be 1 n ++ r)).map (fun p => (Head.bin p.1, p.2)) = _
      rw [num_be 1 n (by omega)]; rfl
    · split at e
      · cases e
        show (num 2 (be 2 n ++ r)).map (fun p => (Head.bin p.1, p.2)) = _
        rw [num_be 2 n (by omega)]; rfl
      · split at e
        · cases e
          show (num 4 (be 4 n ++ r)).map (fun p => (Head.bin p.1, p.2)) = _
          rw [num_be 4 n (by omega)]; rfl
        · cases e
  · next n =>
    split at e
    · cases e
      simp only [List.singleton_append, getHead, t (0x90 + n) (by omega)]
      iterate 2 rw [if_neg (by omega)]
      rw [if_pos (by omega)]
      simp
    · split at e
      · cases e
        show (num 2 (be 2 n ++ r)).map (fun p => (Head.array p.1, p.2)) = _
        rw [num_be 2 n (by omega)]; rfl
      · split at e
        · cases e
          show (num 4 (be 4 n ++ r)).map (fun p => (Head.array p.1, p.2)) = _
          rw [num_be 4 n (by omega)]; rfl
        · cases e
  · next n =>
    split at e
    · cases e
      simp only [List.singleton_append, getHead, t (0x80 + n) (by omega)]
      rw [if_neg (by omega), if_pos (by omega)]
      simp
    · split at e
      · cases e
        show (num 2 (be 2 n ++ r)).map (fun p => (Head.map p.1, p.2)) = _
        rw [num_be 2 n (by omega)]; rfl
      · split at e
        · cases e
          show (num 4 (be 4 n ++ r)).map (fun p => (Head.map p.1, p.2)) = _
          rw [num_be 4 n (by omega)]; rfl
        · cases e

theorem putHead_pos (h : Head) (b : Bytes) (e : putHead h = .ok b) : 1 ≤ b.length := by
  cases b with
  | nil => have := getHead_putHead h [] [] e; cases this
  | cons x r => simp

theorem cat_ok {a b : Except Err Bytes} {x : Bytes} (h : cat a b = .ok x) :
    ∃ y z, a = .ok y ∧ b = .ok z ∧ x = y ++ z := by
  unfold cat at h
  split at h
  · next y z => cases h; exact ⟨y, z, rfl, rfl, rfl⟩
  · cases h
  · cases h

/-! ## Round trip -/

theorem takeRaw_append (s r : Bytes) : takeRaw s.length (s ++ r) = some (s, r) := by
  unfold takeRaw
  rw [if_neg (by simp), List.take_left' rfl, List.drop_left' rfl]

theorem foldl_set_keep (l : List (Bytes × Val)) (d : List (Bytes × Val))
    (h : ((d ++ l).map Prod.fst).Nodup) : l.foldl (fun d e => Dict.set d e.1 e.2) d = d ++ l := by
  induction l generalizing d with
  | nil => simp
  | cons e r ih =>
    have : Dict.set d e.1 e.2 = d ++ [e] := by
      have hn : e.1 ∉ d.map Prod.fst := by
        intro hm
        rw [List.map_append, List.nodup_append] at h
        exact h.2.2 _ hm e.1 (by simp) rfl
      clear h ih
      induction d with
      | nil => rfl
      | cons x t ih =>
        simp only [List.map_cons, List.mem_cons, not_or] at hn
        unfold Dict.set
        rw [if_neg (fun hh => hn.1 hh.symm), ih hn.2]
        rfl
    rw [List.foldl_cons, this, ih]
    · simp
    · simpa using h

theorem decodeToSorted_nodup (l : List (Bytes × Val)) (h : (l.map Prod.fst).Nodup) : decodeToSorted l = l := by
  unfold decodeToSorted
  rw [foldl_set_keep l [] (by simpa using h)]; simp

mutual
theorem unpack_pack : ∀ (v : Val) (b : Bytes), WF v → packb v = .ok b → ∀ f, 2 * b.length ≤ f → ∀ r,
    unpackItem f (b ++ r) = some (v, r)
  | v, b, hw, e, 0, hf, r => by
    exfalso
    have : 1 ≤ b.length := by
      cases v <;> unfold packb at e
      case none => exact putHead_pos _ _ e
      case bool => exact putHead_pos _ _ e
      case int => exact putHead_pos _ _ e
      case float => exact putHead_pos _ _ e
      all_goals
        obtain ⟨y, z, h1, -, rfl⟩ := cat_ok e
        have := putHead_pos _ _ h1
        simp; omega
    omega
  | .none, b, hw, e, f + 1, hf, r => by
    unfold unpackItem packb at *; rw [getHead_putHead _ _ _ e]
  | .bool x, b, hw, e, f + 1, hf, r => by
    unfold unpackItem packb at *; rw [getHead_putHead _ _ _ e]
  | .int x, b, hw, e, f + 1, hf, r => by
    unfold unpackItem packb at *; rw [getHead_putHead _ _ _ e]
  | .float x, b, hw, e, f + 1, hf, r => by
    unfold unpackItem packb at *; rw [getHead_putHead _ _ _ e]
  | .str x, b, hw, e, f + 1, hf, r => by
    unfold unpackItem packb at *
    obtain ⟨y, z, h1, h2, rfl⟩ := cat_ok e
    cases h2
    rw [List.append_assoc, getHead_putHead _ _ _ h1]
    simp [takeRaw_append]
  | .bin x, b, hw, e, f + 1, hf, r => by
    unfold unpackItem packb at *
    obtain ⟨y, z, h1, h2, rfl⟩ := cat_ok e
    cases h2
    rw [List.append_assoc, getHead_putHead _ _ _ h1]
    simp [takeRaw_append]
  | .list l, b, hw, e, f + 1, hf, r => by
    unfold unpackItem packb at *
    obtain ⟨y, z, h1, h2, rfl⟩ := cat_ok e
    have hp := putHead_pos _ _ h1
    cases hw with
    | list _ hw =>
    rw [List.append_assoc, getHead_putHead _ _ _ h1]
    simp only
    rw [List.length_append] at hf
    rw [unpack_packList l z hw h2 f (by omega) r]
    rfl
  | .dict d, b, hw, e, f + 1, hf, r => by
    unfold unpackItem packb at *
    obtain ⟨y, z, h1, h2, rfl⟩ := cat_ok e
    have hp := putHead_pos _ _ h1
    cases hw with
    | dict _ hn hw =>
    rw [List.append_assoc, getHead_putHead _ _ _ h1]
    simp only
    rw [List.length_append] at hf
    rw [unpack_packDict d z hw h2 f (by omega) r]
    simp [decodeToSorted_nodup d hn]
theorem unpack_packList : ∀ (l : List Val) (b : Bytes), (∀ v ∈ l, WF v) → packList l = .ok b → ∀ f, 2 * b.length + 1 ≤ f →
    ∀ r, unpackList f l.length (b ++ r) = some (l, r)
  | [], b, _, e, f, hf, r => by
    unfold packList at e; cases e; simp [unpackList]
  | v :: l, b, hw, e, 0, hf, r => by omega
  | v :: l, b, hw, e, f + 1, hf, r => by
    unfold packList at e
    obtain ⟨y, z, h1, h2, rfl⟩ := cat_ok e
    rw [List.length_append] at hf
    have hy := packb_pos v y h1
    rw [List.length_cons, unpackList, List.append_assoc,
      unpack_pack v y (hw v (by simp)) h1 f (by omega)]
    simp only
    rw [unpack_packList l z (fun v hv => hw v (by simp [hv])) h2 f (by omega)]
    rfl
theorem unpack_packDict : ∀ (d : List (Bytes × Val)) (b : Bytes), (∀ e ∈ d, WF e.2) → packDict d = .ok b →
    ∀ f, 2 * b.length + 1 ≤ f → ∀ r, unpackDict f d.length (b ++ r) = some (d, r)
  | [], b, _, e, f, hf, r => by
    unfold packDict at e; cases e; simp [unpackDict]
  | (k, v) :: d, b, hw, e, 0, hf, r => by omega
  | (k, v) :: d, b, hw, e, f + 1, hf, r => by
    unfold packDict at e
    obtain ⟨y, z, h1, h2, rfl⟩ := cat_ok e
    obtain ⟨y1, y2, h3, h4, rfl⟩ := cat_ok h1
    obtain ⟨y3, y4, h5, h6, rfl⟩ := cat_ok h3
    cases h6
    have hp := putHead_pos _ _ h5
    simp only [List.length_append] at hf
    rw [List.length_cons, unpackDict]
    have hk : takeKey (y3 ++ k ++ y2 ++ z ++ r) = some (k, y2 ++ (z ++ r)) := by
      unfold takeKey
      simp only [List.append_assoc]
      rw [getHead_putHead _ _ _ h5]
      simp only
      rw [takeRaw_append]
    rw [hk]
    simp only
    rw [unpack_pack v y2 (hw (k, v) (by simp)) h4 f (by omega)]
    simp only
    rw [unpack_packDict d z (fun e he => hw e (by simp [he])) h2 f (by omega)]
    rfl
theorem packb_pos : ∀ (v : Val) (b : Bytes), packb v = .ok b → 1 ≤ b.length
  | v, b, e => by
    cases v <;> unfold packb at e
    case none => exact putHead_pos _ _ e
    case bool => exact putHead_pos _ _ e
    case int => exact putHead_pos _ _ e
    case float => exact putHead_pos _ _ e
    all_goals
      obtain ⟨y, z, h1, -, rfl⟩ := cat_ok e
      have := putHead_pos _ _ h1
      simp; omega
end

theorem unpackb_packb (v : Val) (b : Bytes) (h : WF v) (e : packb v = .ok b) : unpackb b = .ok v := by
  unfold unpackb
  have := unpack_pack v b h e (2 * b.length + 2) (by omega) []
  rw [List.append_nil] at this
  rw [this]

end Verif.MsgPack

namespace Verif.MsgPack
open Verif Verif.Spec Verif.Kv

/-! ## Sorting -/

theorem sortItems_spec {α : Type} (d : List (Bytes × α)) (h : (d.map Prod.fst).Nodup) :
    Sorted bytewise (fun _ => True) (sortItems d) ∧ ∀ e, e ∈ sortItems d ↔ e ∈ d := by
  induction d with
  | nil => exact ⟨⟨by simp [sortItems], by simp [sortItems]⟩, by simp [sortItems]⟩
  | cons x r ih =>
    obtain ⟨k, v⟩ := x
    simp only [List.map_cons, List.nodup_cons] at h
    obtain ⟨hs, hm⟩ := ih h.2
    refine ⟨sorted_put lawful_bytes hs trivial v, fun e => ?_⟩
    rw [sortItems, mem_put lawful_bytes hs trivial, hm]
    simp only [List.mem_cons]
    constructor
    · rintro (h1 | ⟨h1, -⟩)
      · exact Or.inl h1
      · exact Or.inr h1
    · rintro (h1 | h1)
      · exact Or.inl h1
      · refine Or.inr ⟨h1, fun hk => h.1 ?_⟩
        rw [← hk]; exact List.mem_map_of_mem h1

theorem sortItems_nodup {α : Type} (d : List (Bytes × α)) (h : (d.map Prod.fst).Nodup) :
    ((sortItems d).map Prod.fst).Nodup := by
  have hs := (sortItems_spec d h).1.ord
  rw [List.Nodup, List.pairwise_map]
  refine hs.imp (fun {x y} hxy e => ?_)
  rw [e] at hxy
  have := (bytewise_zero y.1 y.1).2 rfl
  omega

theorem sortItems_congr {α : Type} {d e : List (Bytes × α)} (hd : (d.map Prod.fst).Nodup)
    (he : (e.map Prod.fst).Nodup) (h : ∀ x, x ∈ d ↔ x ∈ e) : sortItems d = sortItems e :=
  sorted_ext lawful_bytes (sortItems_spec d hd).1 (sortItems_spec e he).1
    (fun x => by rw [(sortItems_spec d hd).2, (sortItems_spec e he).2, h])

theorem sortFields_eq (d : List (Bytes × Val)) : sortFields d = d.map (fun e => (e.1, sortField e.2)) := by
  induction d with
  | nil => rfl
  | cons x r ih => obtain ⟨k, v⟩ := x; simp [sortFields, ih]

theorem sortAll_eq (l : List Val) : sortAll l = l.map sortDict := by
  induction l with
  | nil => rfl
  | cons x r ih => simp [sortAll, ih]

theorem sortFields_keys (d : List (Bytes × Val)) : (sortFields d).map Prod.fst = d.map Prod.fst := by
  rw [sortFields_eq, List.map_map]; rfl

/-! ## Equal values -/

theorem Same.symm {a b : Val} (h : Same a b) : Same b a := by
  induction h with
  | refl v => exact .refl v
  | list l m hl _ ih => exact .list m l hl.symm (fun i v w h1 h2 => ih i w v h2 h1)
  | dict d e hk _ ih => exact .dict e d (fun k => (hk k).symm) (fun k v w h1 h2 => ih k w v h2 h1)

theorem Same.trans {a b c : Val} (h : Same a b) (h' : Same b c) : Same a c := by
  induction h generalizing c with
  | refl v => exact h'
  | list l m hl hs ih =>
    cases h' with
    | refl => exact .list l m hl hs
    | list _ n hl' hs' =>
      refine .list l n (hl.trans hl') (fun i v w h1 h2 => ?_)
      have hi : i < m.length := by
        rw [← hl]; exact (List.getElem?_eq_some_iff.1 h1).1
      exact ih i v m[i] h1 (List.getElem?_eq_getElem hi) (hs' i _ w (List.getElem?_eq_getElem hi) h2)
  | dict d e hk hs ih =>
    cases h' with
    | refl => exact .dict d e hk hs
    | dict _ f hk' hs' =>
      refine .dict d f (fun k => (hk k).trans (hk' k)) (fun k v w h1 h2 => ?_)
      have : k ∈ e.map Prod.fst := (hk k).1 (List.mem_map.2 ⟨_, h1, rfl⟩)
      obtain ⟨⟨k', u⟩, hu, rfl⟩ := List.mem_map.1 this
      exact ih _ v u h1 hu (hs' _ u w hu h2)

theorem same_noDict {a b : Val} (h : NoDict a) (hs : Same a b) : a = b := by
  induction h generalizing b with
  | list l _ ih =>
    cases hs with
    | refl => rfl
    | list _ m hl hs =>
      congr 1
      apply List.ext_getElem hl
      intro i h1 h2
      exact ih l[i] (List.getElem_mem h1) (hs i _ _ (List.getElem?_eq_getElem h1) (List.getElem?_eq_getElem h2))
  | _ => cases hs; rfl

theorem same_list {l : List Val} {b : Val} (h : Same (.list l) b) :
    ∃ m, b = .list m ∧ l.length = m.length ∧ ∀ (i : Nat) (v w : Val), l[i]? = some v → m[i]? = some w → Same v w := by
  cases h with
  | refl => exact ⟨l, rfl, rfl, fun i v w h1 h2 => by rw [h1] at h2; cases h2; exact .refl v⟩
  | list _ m hl hs => exact ⟨m, rfl, hl, hs⟩

theorem sortField_eq_sortDict {v : Val} (h : ∀ l, v ≠ .list l) : sortField v = sortDict v := by
  cases v <;> simp_all [sortField, sortDict]

theorem unique_item {α : Type} {e : List (Bytes × α)} (he : (e.map Prod.fst).Nodup) {k : Bytes} {v w : α}
    (h1 : (k, v) ∈ e) (h2 : (k, w) ∈ e) : v = w := by
  induction e with
  | nil => simp at h1
  | cons x r ih =>
    simp only [List.map_cons, List.nodup_cons] at he
    rcases List.mem_cons.1 h1 with h1 | h1 <;> rcases List.mem_cons.1 h2 with h2 | h2
    · rw [← h2] at h1; cases h1; rfl
    · rw [← h1] at he; exact absurd (List.mem_map.2 ⟨_, h2, rfl⟩) he.1
    · rw [← h2] at he; exact absurd (List.mem_map.2 ⟨_, h1, rfl⟩) he.1
    · exact ih he.2 h1 h2

theorem sortDict_same {a b : Val} (h : Regular a) (ha : WF a) (hb : WF b) (hs : Same a b) : sortDict a = sortDict b := by
  induction h generalizing b with
  | plain v hv => rw [same_noDict hv hs]
  | dict d _ _ ih1 ih2 =>
    cases hs with
    | refl => rfl
    | dict _ e hk hs =>
      cases ha with
      | dict _ hdn hdw =>
      cases hb with
      | dict _ hen hew =>
      have key : ∀ k v w, (k, v) ∈ d → (k, w) ∈ e → sortField v = sortField w := by
        intro k v w hv hw
        have hvw := hs k v w hv hw
        by_cases hl : ∃ l, v = .list l
        · obtain ⟨l, rfl⟩ := hl
          obtain ⟨m, rfl, hlen, hp⟩ := same_list hvw
          have wl := hdw _ hv
          have wm := hew _ hw
          cases wl with
          | list _ wl =>
          cases wm with
          | list _ wm =>
          simp only [sortField, sortAll_eq]
          congr 1
          apply List.ext_getElem (by simp [hlen])
          intro i h1 h2
          rw [List.getElem_map, List.getElem_map]
          rw [List.length_map] at h1 h2
          exact ih2 _ hv l rfl l[i] (List.getElem_mem h1) (wl _ (List.getElem_mem h1)) (wm _ (List.getElem_mem h2))
            (hp i _ _ (List.getElem?_eq_getElem h1) (List.getElem?_eq_getElem h2))
        · have hv' : ∀ l, v ≠ .list l := fun l e => hl ⟨l, e⟩
          have hw' : ∀ l, w ≠ .list l := by
            intro l e
            subst e
            obtain ⟨m, e, -⟩ := same_list (Same.symm hvw)
            exact hl ⟨m, e⟩
          rw [sortField_eq_sortDict hv', sortField_eq_sortDict hw']
          exact ih1 _ hv hv' (hdw _ hv) (hew _ hw) hvw
      simp only [sortDict]
      congr 1
      apply sortItems_congr
      · rw [sortFields_keys]; exact hdn
      · rw [sortFields_keys]; exact hen
      · intro x
        rw [sortFields_eq, sortFields_eq]
        simp only [List.mem_map]
        constructor
        · rintro ⟨⟨k, v⟩, hv, rfl⟩
          have : k ∈ e.map Prod.fst := (hk k).1 (List.mem_map.2 ⟨_, hv, rfl⟩)
          obtain ⟨⟨k', w⟩, hw, rfl⟩ := List.mem_map.1 this
          exact ⟨_, hw, by simp [key _ v w hv hw]⟩
        · rintro ⟨⟨k, w⟩, hw, rfl⟩
          have : k ∈ d.map Prod.fst := (hk k).2 (List.mem_map.2 ⟨_, hw, rfl⟩)
          obtain ⟨⟨k', v⟩, hv, rfl⟩ := List.mem_map.1 this
          exact ⟨_, hv, by simp [key _ v w hv hw]⟩

mutual
theorem wf_sortDict : ∀ v : Val, WF v → WF (sortDict v) ∧ Same v (sortDict v)
  | .dict d, h => sorted_dict d h
  | .none, h => ⟨h, .refl _⟩
  | .bool _, h => ⟨h, .refl _⟩
  | .int _, h => ⟨h, .refl _⟩
  | .float _, h => ⟨h, .refl _⟩
  | .str _, h => ⟨h, .refl _⟩
  | .bin _, h => ⟨h, .refl _⟩
  | .list _, h => ⟨h, .refl _⟩
theorem wf_sortField : ∀ v : Val, WF v → WF (sortField v) ∧ Same v (sortField v)
  | .dict d, h => sorted_dict d h
  | .list l, h => by
    have hl : ∀ v ∈ l, WF v := by cases h with | list _ h => exact h
    have ih := wf_sortAll l hl
    unfold sortField
    rw [sortAll_eq]
    refine ⟨.list _ (fun v hv => ?_), .list _ _ (by simp) (fun i v w h1 h2 => ?_)⟩
    · obtain ⟨u, hu, rfl⟩ := List.mem_map.1 hv
      exact (ih u hu).1
    · rw [List.getElem?_map, h1] at h2
      cases h2
      exact (ih v (List.mem_of_getElem? h1)).2
  | .none, h => ⟨h, .refl _⟩
  | .bool _, h => ⟨h, .refl _⟩
  | .int _, h => ⟨h, .refl _⟩
  | .float _, h => ⟨h, .refl _⟩
  | .str _, h => ⟨h, .refl _⟩
  | .bin _, h => ⟨h, .refl _⟩
theorem sorted_dict : ∀ (d : List (Bytes × Val)), WF (.dict d) →
    WF (.dict (sortItems (sortFields d))) ∧ Same (.dict d) (.dict (sortItems (sortFields d)))
  | d, h => by
    have hn : (d.map Prod.fst).Nodup := by cases h with | dict _ hn _ => exact hn
    have hw : ∀ e ∈ d, WF e.2 := by cases h with | dict _ _ hw => exact hw
    have ih := wf_sortFields d hw
    have hn' : ((sortFields d).map Prod.fst).Nodup := by rw [sortFields_keys]; exact hn
    have hm := (sortItems_spec _ hn').2
    refine ⟨.dict _ (sortItems_nodup _ hn') (fun e he => ?_), .dict _ _ (fun k => ?_) (fun k v w h1 h2 => ?_)⟩
    · rw [hm, sortFields_eq] at he
      obtain ⟨u, hu, rfl⟩ := List.mem_map.1 he
      exact (ih u hu).1
    · rw [← sortFields_keys d]
      constructor
      · intro h
        obtain ⟨e, he, rfl⟩ := List.mem_map.1 h
        exact List.mem_map.2 ⟨e, (hm e).2 he, rfl⟩
      · intro h
        obtain ⟨e, he, rfl⟩ := List.mem_map.1 h
        exact List.mem_map.2 ⟨e, (hm e).1 he, rfl⟩
    · rw [hm, sortFields_eq] at h2
      obtain ⟨⟨k', u⟩, hu, he⟩ := List.mem_map.1 h2
      simp only [Prod.mk.injEq] at he
      obtain ⟨rfl, rfl⟩ := he
      rw [unique_item hn h1 hu]
      exact (ih _ hu).2
theorem wf_sortFields : ∀ (d : List (Bytes × Val)), (∀ e ∈ d, WF e.2) →
    ∀ e ∈ d, WF (sortField e.2) ∧ Same e.2 (sortField e.2)
  | [], _, e, he => by simp at he
  | (k, v) :: r, h, e, he => by
    rcases List.mem_cons.1 he with he | he
    · rw [he]; exact wf_sortField v (h (k, v) (by simp))
    · exact wf_sortFields r (fun e he => h e (by simp [he])) e he
theorem wf_sortAll : ∀ (l : List Val), (∀ v ∈ l, WF v) → ∀ v ∈ l, WF (sortDict v) ∧ Same v (sortDict v)
  | [], _, v, hv => by simp at hv
  | u :: r, h, v, hv => by
    rcases List.mem_cons.1 hv with hv | hv
    · rw [hv]; exact wf_sortDict u (h u (by simp))
    · exact wf_sortAll r (fun e he => h e (by simp [he])) v hv
end

end Verif.MsgPack
