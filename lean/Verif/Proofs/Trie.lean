import Verif.Proofs.TrieM
import Verif.Proofs.TrieTree
import Verif.Proofs.HexPrefix
import Verif.Proofs.Rlp
/-!
# The model works on trees
-/
namespace Verif.Trie
open Verif.Rlp

variable (H : Bytes → Bytes)

/-- How a parent refers to a node. -/
def refOf (x : Item) : Item :=
  match x with
  | .str [] => blank
  | _ => if (encode x).length < 32 then x else .str (H (encode x))

/-- The node at the top of a tree. -/
def T.node : T → Item
  | .blank => Trie.blank
  | .leaf c v => .list [.str (hexPrefix c true), .str v]
  | .ext c t => .list [.str (hexPrefix c false), refOf H t.node]
  | .branch f v => .list ((List.range 16).map (fun i => refOf H (f i).node) ++ [.str v])

/-- The node can be read back: it stands in its parent or in the store. -/
def Held (kv : Dict Bytes Bytes) (t : T) : Prop :=
  t.isBlank = true ∨ (encode (t.node H)).length < 32 ∨
    (fits (t.node H) = true ∧ kv.get? (H (encode (t.node H))) = some (encode (t.node H)))

/-- All nodes below the top can be read back. -/
def Stored (kv : Dict Bytes Bytes) : T → Prop
  | .blank => True
  | .leaf _ _ => True
  | .ext _ t => Held H kv t ∧ Stored kv t
  | .branch f _ => ∀ i, i < 16 → Held H kv (f i) ∧ Stored kv (f i)

variable {H}

theorem Held.mono {kv kv' : Dict Bytes Bytes} (h : ∀ k x, kv.get? k = some x → kv'.get? k = some x) {t : T}
    (ht : Held H kv t) : Held H kv' t := by
  rcases ht with ht | ht | ⟨h1, h2⟩
  · exact .inl ht
  · exact .inr (.inl ht)
  · exact .inr (.inr ⟨h1, h _ _ h2⟩)

theorem Stored.mono {kv kv' : Dict Bytes Bytes} (h : ∀ k x, kv.get? k = some x → kv'.get? k = some x) {t : T}
    (ht : Stored H kv t) : Stored H kv' t := by
  induction t with
  | blank => trivial
  | leaf c v => trivial
  | ext c t ih => exact ⟨ht.1.mono h, ih ht.2⟩
  | branch f v ih => exact fun i hi => ⟨(ht i hi).1.mono h, ih i (ht i hi).2⟩

/-! ## Shapes -/

theorem node_ne_blank {t : T} (h : t.isBlank = false) : ∃ xs, t.node H = .list xs ∧ xs ≠ [] := by
  cases t with
  | blank => cases h
  | leaf c v => exact ⟨_, rfl, by simp⟩
  | ext c t => exact ⟨_, rfl, by simp⟩
  | branch f v => exact ⟨_, rfl, by simp⟩

theorem node_blank_iff {t : T} : t.node H = blank ↔ t.isBlank = true := by
  constructor
  · intro h
    cases hb : t.isBlank with
    | true => rfl
    | false => obtain ⟨xs, e, -⟩ := node_ne_blank (H := H) hb; rw [e] at h; cases h
  · intro h; rw [T.isBlank_iff.1 h]; rfl

theorem refOf_blank : refOf H (T.blank.node H) = blank := rfl

theorem refOf_ne {t : T} (h : t.isBlank = false) :
    refOf H (t.node H) = if (encode (t.node H)).length < 32 then t.node H else .str (H (encode (t.node H))) := by
  obtain ⟨xs, e, -⟩ := node_ne_blank (H := H) h
  rw [e]; rfl

theorem branch_length (f : Nat → T) (v : Bytes) :
    ((List.range 16).map (fun i => refOf H ((f i).node H)) ++ [Item.str v]).length = 17 := by simp

theorem slot_branch {f : Nat → T} {v : Bytes} {n : Nat} (hn : n < 16) :
    slot ((T.branch f v).node H) n = .ok (refOf H ((f n).node H)) := by
  simp only [T.node, slot]
  rw [List.getElem?_append_left (by simpa using hn)]
  simp [hn]

theorem slot_branch_16 {f : Nat → T} {v : Bytes} : slot ((T.branch f v).node H) 16 = .ok (.str v) := by
  simp only [T.node, slot]
  rw [List.getElem?_append_right (by simp)]
  simp

theorem setSlot_branch {f : Nat → T} {v : Bytes} {n : Nat} (hn : n < 16) (t : T) :
    setSlot ((T.branch f v).node H) n (refOf H (t.node H)) = .ok ((T.branch (setF f n t) v).node H) := by
  simp only [T.node, setSlot]
  rw [if_pos (by rw [branch_length]; omega), List.set_append_left _ _ (by simpa using hn)]
  congr 2
  congr 1
  apply List.ext_getElem
  · simp
  · intro i h1 h2
    simp only [List.getElem_set, List.getElem_map, List.getElem_range]
    by_cases e : n = i
    · subst e; simp
    · rw [if_neg e, setF_ne _ _ (fun h => e h.symm)]

theorem setSlot_branch_16 {f : Nat → T} {v : Bytes} (v' : Bytes) :
    setSlot ((T.branch f v).node H) 16 (.str v') = .ok ((T.branch f v').node H) := by
  simp only [T.node, setSlot]
  rw [if_pos (by rw [branch_length]; omega), List.set_append_right _ _ (by simp)]
  simp

theorem node_blank17 : (T.branch T.none16 []).node H = blank17 := by
  simp only [T.node, blank17, T.none16]
  have : refOf H blank = blank := rfl
  rw [this]
  rfl

theorem nodeType_leaf {c : List Nat} (hc : Nib c) (v : Bytes) : getNodeType ((T.leaf c v).node H) = .ok .leaf := by
  simp only [T.node, getNodeType, rawNibbles, slot, List.length_cons, List.length_nil]
  simp [unpack_hexPrefix hc, getLast_term hc]

theorem nodeType_ext {c : List Nat} (hc : Nib c) (t : T) : getNodeType ((T.ext c t).node H) = .ok .extension := by
  simp only [T.node, getNodeType, rawNibbles, slot, List.length_cons, List.length_nil]
  simp [unpack_hexPrefix hc, getLast_term hc]

theorem nodeType_branch (f : Nat → T) (v : Bytes) : getNodeType ((T.branch f v).node H) = .ok .branch := by
  simp [T.node, getNodeType]

theorem nodeType_blank : getNodeType (T.blank.node H) = .ok .blank := rfl

theorem raw_leaf {c : List Nat} (hc : Nib c) (v : Bytes) : rawNibbles ((T.leaf c v).node H) = .ok (term c true) := by
  simp [T.node, rawNibbles, slot, unpack_hexPrefix hc]

theorem raw_ext {c : List Nat} (hc : Nib c) (t : T) : rawNibbles ((T.ext c t).node H) = .ok (term c false) := by
  simp [T.node, rawNibbles, slot, unpack_hexPrefix hc]

theorem key_leaf {c : List Nat} (hc : Nib c) (v : Bytes) : keyNibbles ((T.leaf c v).node H) = .ok c := by
  simp [keyNibbles, raw_leaf hc, withoutTerminator_term hc]

theorem key_ext {c : List Nat} (hc : Nib c) (t : T) : keyNibbles ((T.ext c t).node H) = .ok c := by
  simp [keyNibbles, raw_ext hc, withoutTerminator_term hc]

theorem slot1_leaf {c : List Nat} (v : Bytes) : slot ((T.leaf c v).node H) 1 = .ok (.str v) := rfl
theorem slot1_ext {c : List Nat} (t : T) : slot ((T.ext c t).node H) 1 = .ok (refOf H (t.node H)) := rfl
theorem slot0_leaf {c : List Nat} (v : Bytes) : slot ((T.leaf c v).node H) 0 = .ok (.str (hexPrefix c true)) := rfl

theorem leafItem_ok {c : List Nat} (hc : Nib c) (v : Bytes) : leafItem c (.str v) = .ok ((T.leaf c v).node H) := by
  simp [leafItem, withTerminator_nib hc, pack_term hc (.inl rfl), T.node]

theorem startsWith_strip (k c : List Nat) : startsWith k c = (strip c k).isSome := by
  unfold startsWith
  cases h : strip c k with
  | none =>
    simp only [Option.isSome_none]
    split
    · rfl
    · simp only [decide_eq_false_iff_not]
      intro e
      have hk : k = k.take c.length ++ k.drop c.length := (List.take_append_drop _ _).symm
      rw [e] at hk
      exact strip_none h _ hk
  | some r =>
    have := strip_some h; subst this
    rw [if_neg (by simp)]
    simp

theorem strip_drop {k c r : List Nat} (h : strip c k = some r) : k.drop c.length = r := by
  rw [strip_some h]; simp

/-! ## Reading nodes -/

theorem decode_held {w : World} (hi : Inv H w) {t : T} (ht : Held H w.kv t)
    (hH : ∀ x, (H x).length = 32) : decodeToNode (refOf H (t.node H)) w = (.ok (t.node H), w) := by
  cases hb : t.isBlank with
  | true => rw [T.isBlank_iff.1 hb]; rfl
  | false =>
    obtain ⟨xs, e, -⟩ := node_ne_blank (H := H) hb
    rw [refOf_ne hb]
    split
    · rw [e]; rfl
    · next hl =>
      rcases ht with ht | ht | ⟨h1, h2⟩
      · rw [ht] at hb; cases hb
      · exact absurd ht hl
      · have hne : H (encode (t.node H)) ≠ [] := by
          intro h0; have := hH (encode (t.node H)); rw [h0] at this; cases this
        have hd : decodeToNode (.str (H (encode (t.node H)))) =
            (getNode (H (encode (t.node H))) >>= fun b => lift (rlpDecode b) >>= fun o => spvGrabbing o >>= fun _ => pure o) := by
          generalize H (encode (t.node H)) = h at hne
          cases h with
          | nil => exact absurd rfl hne
          | cons a l => rfl
        rw [hd]
        have hg : getNode (H (encode (t.node H))) w = (.ok (encode (t.node H)), w) := by
          simp [getNode, h2]
        rw [bind_ok hg]
        have hr : rlpDecode (encode (t.node H)) = .ok (t.node H) := by simp [rlpDecode, decode_encode h1]
        rw [hr, lift_ok_bind]
        have hs : spvGrabbing (t.node H) w = (.ok (), w) := by simp [spvGrabbing, hi.quiet]
        rw [bind_ok hs]
        rfl

theorem get_spec (hH : ∀ x, (H x).length = 32) (f : Nat) : ∀ (t : T) (k : List Nat) (w : World), k.length < f → t.WF →
    Nib k → Inv H w → Stored H w.kv t → get f (t.node H) k w = (.ok (.str (t.get k)), w) := by
  induction f with
  | zero => intro _ _ _ h; omega
  | succ f ih =>
    intro t k w hk ht hn hi hs
    unfold Trie.get
    cases t with
    | blank => rw [nodeType_blank, lift_ok_bind]; rfl
    | leaf c v =>
      rw [nodeType_leaf ht.1, lift_ok_bind]
      simp only [key_leaf ht.1, lift_ok_bind, slot1_leaf]
      simp only [T.get]
      split <;> rfl
    | ext c t =>
      rw [nodeType_ext ht.2.1, lift_ok_bind]
      simp only [key_ext ht.2.1, lift_ok_bind, slot1_ext, startsWith_strip]
      simp only [T.get]
      cases h : strip c k with
      | none => rfl
      | some r =>
        simp only [Option.isSome_some, if_true, strip_drop h]
        rw [bind_ok (decode_held hi hs.1 hH)]
        have e := strip_some h
        subst e
        have hc : 0 < c.length := List.length_pos_iff.2 ht.1
        rw [List.length_append] at hk
        exact ih t r w (by omega) ht.2.2.2 (fun n hm => hn n (List.mem_append_right _ hm)) hi hs.2
    | branch g v =>
      rw [nodeType_branch, lift_ok_bind]
      cases k with
      | nil => simp only [slot_branch_16]; rfl
      | cons n k =>
        have hn16 := hn.cons.1
        simp only [slot_branch hn16, lift_ok_bind]
        rw [bind_ok (decode_held hi (hs n hn16).1 hH)]
        exact ih (g n) k w (by simpa using hk) (ht.1 n) hn.cons.2 hi (hs n hn16).2

/-! ## Writing nodes -/

variable (hH : ∀ x, (H x).length = 32)
include hH

theorem post_encodeNode {w : World} (hi : Inv H w) {t : T} (hb : t.isBlank = false) :
    Post H (encodeNode H (t.node H)) w (fun r w' => r = refOf H (t.node H) ∧ Held H w'.kv t) := by
  obtain ⟨xs, e, -⟩ := node_ne_blank (H := H) hb
  rw [refOf_ne hb]
  have he : encodeNode H (t.node H) = (lift (rlpEncode (t.node H)) >>= fun r =>
      if r.length < 32 ∧ false = false then pure (t.node H) else putNode H r >>= fun _ => pure (.str (H r))) := by
    rw [e]; rfl
  rw [he]
  unfold rlpEncode
  cases hf : fits (t.node H) with
  | false => exact ⟨fun _ h => h, fun _ => rfl⟩
  | true =>
    simp only [if_true, lift_ok_bind, and_true]
    split
    · next hl => exact Post.pure H hi ⟨rfl, .inr (.inl hl)⟩
    · refine Post.bind H (post_putNode H hH hi _) (fun _ => mono_pure _) (fun _ w' hx hp => ?_)
      exact Post.pure H hx.inv ⟨rfl, .inr (.inr ⟨hf, hp⟩)⟩

/-- Encoding a node and going on with it. -/
theorem post_encode_then {w : World} (hi : Inv H w) {t : T} (hb : t.isBlank = false) (hs : Stored H w.kv t) :
    Post H (encodeNode H (t.node H) >>= fun _ => pure (t.node H)) w
      (fun it w' => it = t.node H ∧ Stored H w'.kv t ∧ Held H w'.kv t) :=
  Post.bind H (post_encodeNode hH hi hb) (fun _ => mono_pure _)
    (fun _ _ hx hp => Post.pure H hx.inv ⟨rfl, hs.mono hx.keep, hp.2⟩)

theorem post_finishKv {w : World} (hi : Inv H w) {c : List Nat} (hc : Nib c) (p : Nat) (hp : p ≤ c.length) {t : T}
    (hb : t.isBlank = false) (hs : Stored H w.kv t) (enc : Bool) (he : enc = true → Held H w.kv t) :
    Post H (finishKv H c p (t.node H) enc) w (fun it w' => it = (T.wrap (c.take p) t).node H ∧
      Stored H w'.kv (T.wrap (c.take p) t) ∧ Held H w'.kv (T.wrap (c.take p) t)) := by
  unfold finishKv
  split
  · next h0 =>
    have hne : c.take p ≠ [] := by
      intro h
      have := congrArg List.length h
      rw [List.length_take, List.length_nil, Nat.min_eq_left hp] at this
      exact h0 this
    have hnib : Nib (c.take p) := fun n hm => hc n (List.mem_of_mem_take hm)
    have hpk : packNibbles (c.take p) = .ok (hexPrefix (c.take p) false) := pack_term (leaf := false) hnib (.inr hne)
    have hw : T.wrap (c.take p) t = .ext (c.take p) t := by unfold T.wrap; rw [if_neg hne]
    rw [hpk, lift_ok_bind, hw]
    refine Post.bind H (post_encodeNode hH hi hb) (fun _ => by mono) (fun r w' hx hr => ?_)
    obtain ⟨rfl, hh⟩ := hr
    exact post_encode_then hH hx.inv (t := .ext (c.take p) t) rfl ⟨hh, hs.mono hx.keep⟩
  · next h0 =>
    have h0 : p = 0 := by simpa using h0
    subst h0
    have hw : T.wrap (c.take 0) t = t := by simp [T.wrap]
    rw [hw]
    cases enc with
    | true => exact Post.pure H hi ⟨rfl, hs, he rfl⟩
    | false => exact post_encode_then hH hi hb hs

theorem post_oldSide_leaf {w : World} (hi : Inv H w) {m : Nat} (hm : m < 16) {s : List Nat} (hs : Nib s) (v : Bytes) :
    Post H (oldSide H false m s (.str v)) w (fun b w' =>
      b = (T.branch (setF T.none16 m (.leaf s v)) []).node H ∧ Held H w'.kv (.leaf s v)) := by
  unfold oldSide
  rw [if_neg (by simp)]
  simp only [Bool.not_false, adaptTerminator, if_true, withTerminator_nib hs, pack_term hs (.inl rfl), lift_ok_bind]
  refine Post.bind H (post_encodeNode hH hi (t := .leaf s v) rfl) (fun _ => mono_lift _) (fun r w' hx hr => ?_)
  obtain ⟨rfl, hh⟩ := hr
  rw [← node_blank17 (H := H), setSlot_branch hm]
  exact Post.pure H hx.inv ⟨rfl, hh⟩

theorem post_oldSide_ext {w : World} (hi : Inv H w) {m : Nat} (hm : m < 16) {s : List Nat} (hs : Nib s) {t : T}
    (ht : Held H w.kv t) :
    Post H (oldSide H true m s (refOf H (t.node H))) w (fun b w' =>
      b = (T.branch (setF T.none16 m (T.wrap s t)) []).node H ∧ Held H w'.kv (T.wrap s t)) := by
  unfold oldSide
  split
  · next h =>
    rw [h.1]
    rw [← node_blank17 (H := H), setSlot_branch hm]
    exact Post.pure H hi ⟨rfl, ht⟩
  · next h =>
    have hne : s ≠ [] := by simpa using h
    have hwt : withoutTerminator s = s := by
      have := withoutTerminator_term hs false
      exact this
    have hpk : packNibbles s = .ok (hexPrefix s false) := pack_term (leaf := false) hs (.inr hne)
    have hw : T.wrap s t = .ext s t := by unfold T.wrap; rw [if_neg hne]
    simp only [Bool.not_true, adaptTerminator, Bool.false_eq_true, if_false, hwt, hpk, lift_ok_bind, hw]
    refine Post.bind H (post_encodeNode hH hi (t := .ext s t) rfl) (fun _ => mono_lift _) (fun r w' hx hr => ?_)
    obtain ⟨rfl, hh⟩ := hr
    rw [← node_blank17 (H := H), setSlot_branch hm]
    exact Post.pure H hx.inv ⟨rfl, hh⟩

omit hH in
theorem held_blank {kv : Dict Bytes Bytes} : Held H kv .blank := .inl rfl

omit hH in
theorem stored_one {kv : Dict Bytes Bytes} {m : Nat} {x : T} {v : Bytes} (h : Held H kv x) (h' : Stored H kv x) :
    Stored H kv (.branch (setF T.none16 m x) v) := by
  intro i hi
  by_cases e : i = m
  · subst e; rw [setF_same]; exact ⟨h, h'⟩
  · rw [setF_ne _ _ e]; exact ⟨held_blank, trivial⟩

omit hH in
theorem stored_set {kv : Dict Bytes Bytes} {f : Nat → T} {n : Nat} {x : T} {v v' : Bytes} (hf : Stored H kv (.branch f v))
    (h : Held H kv x) (h' : Stored H kv x) : Stored H kv (.branch (setF f n x) v') := by
  intro i hi
  by_cases e : i = n
  · subst e; rw [setF_same]; exact ⟨h, h'⟩
  · rw [setF_ne _ _ e]; exact hf i hi

theorem update_spec (f : Nat) : ∀ (t : T) (k : List Nat) (v : Bytes) (w : World), k.length < f → t.WF → Nib k → Inv H w →
    Stored H w.kv t → Post H (update H f (t.node H) k v) w (fun it w' => it = (t.update k v).node H ∧
      Stored H w'.kv (t.update k v) ∧ Held H w'.kv (t.update k v)) := by
  induction f with
  | zero => intro _ _ _ _ h; omega
  | succ f ih =>
    intro t k v w hk ht hn hi hs
    unfold Trie.update
    cases t with
    | blank =>
      rw [nodeType_blank, lift_ok_bind]
      simp only [leafItem_ok (H := H) hn, lift_ok_bind]
      exact post_encode_then hH hi rfl trivial
    | branch g x =>
      rw [nodeType_branch, lift_ok_bind]
      cases k with
      | nil =>
        simp only [setSlot_branch_16, lift_ok_bind]
        exact post_encode_then hH hi (t := .branch g v) rfl hs
      | cons n k =>
        have hn16 := hn.cons.1
        simp only [slot_branch hn16, lift_ok_bind]
        have hd := decode_held hi (hs n hn16).1 hH
        refine Post.bind H (P := fun a w' => a = (g n).node H ∧ w' = w) ?_ (fun _ => ?_) (fun a w' hx ha => ?_)
        · refine ⟨by rw [hd]; exact fun _ h => h, fun _ => ?_⟩
          rw [hd]; exact ⟨Ext.refl H hi, rfl, rfl⟩
        · exact mono_bind (mono_update H _ _ _ _) (fun _ => by mono)
        · obtain ⟨rfl, rfl⟩ := ha
          refine Post.bind H (ih (g n) k v w' (by simpa using hk) (ht.1 n) hn.cons.2 hi (hs n hn16).2)
            (fun _ => by mono) (fun a w2 hx2 ha => ?_)
          obtain ⟨rfl, h1, h2⟩ := ha
          refine Post.bind H (post_encodeNode hH hx2.inv (T.update_blank _ _ _)) (fun _ => by mono) (fun r w3 hx3 hr => ?_)
          obtain ⟨rfl, h3⟩ := hr
          simp only [setSlot_branch hn16, lift_ok_bind]
          refine post_encode_then hH hx3.inv (t := .branch (setF g n ((g n).update k v)) x) rfl ?_
          exact stored_set ((hs.mono hx2.keep).mono hx3.keep) h3 (h1.mono hx3.keep)
    | leaf c x =>
      rw [nodeType_leaf ht.1, lift_ok_bind]
      simp only [key_leaf ht.1, slot1_leaf, slot0_leaf, lift_ok_bind, T.update]
      have hcn : Nib c := ht.1
      obtain ⟨q, rk, rc, rfl, rfl, hp, -⟩ := T.prefix_spec k c
      have hrk : Nib rk := fun n h => hn n (List.mem_append_right _ h)
      have hrc : Nib rc := fun n h => hcn n (List.mem_append_right _ h)
      simp only [hp, List.drop_left']
      cases rc with
      | nil =>
        cases rk with
        | nil => exact post_encode_then hH hi (t := .leaf (q ++ []) v) rfl trivial
        | cons n r =>
          simp only [show decide (NodeType.leaf = NodeType.extension) = false from rfl, Bool.false_eq_true, if_false]
          rw [← node_blank17 (H := H), setSlot_branch_16, lift_ok_bind, leafItem_ok (H := H) hrk.cons.2, lift_ok_bind]
          refine Post.bind H (post_encodeNode hH hi (t := .leaf r v) rfl) (fun _ => ?_) (fun a w2 hx2 ha => ?_)
          · exact mono_bind (mono_lift _) (fun _ => mono_finishKv _ _ _ _ _)
          · obtain ⟨rfl, h1⟩ := ha
            rw [setSlot_branch hrk.cons.1, lift_ok_bind]
            exact post_finishKv hH hx2.inv hcn q.length (by simp) rfl (stored_one h1 trivial) false (fun h => by cases h)
      | cons m s =>
        simp only [show decide (NodeType.leaf = NodeType.extension) = false from rfl]
        cases rk with
        | nil =>
          refine Post.bind H (post_oldSide_leaf hH hi hrc.cons.1 hrc.cons.2 x) (fun _ => ?_) (fun a w2 hx2 ha => ?_)
          · exact mono_bind (mono_lift _) (fun _ => mono_finishKv _ _ _ _ _)
          · obtain ⟨rfl, h1⟩ := ha
            simp only [setSlot_branch_16, lift_ok_bind]
            exact post_finishKv hH hx2.inv hcn q.length (by simp) rfl (stored_one h1 trivial) false (fun h => by cases h)
        | cons n r =>
          refine Post.bind H (post_oldSide_leaf hH hi hrc.cons.1 hrc.cons.2 x) (fun _ => ?_) (fun a w2 hx2 ha => ?_)
          · exact mono_bind (mono_lift _) (fun _ => mono_bind (mono_encodeNode _ _ _)
              (fun _ => mono_bind (mono_lift _) (fun _ => mono_finishKv _ _ _ _ _)))
          · obtain ⟨rfl, h1⟩ := ha
            simp only [leafItem_ok (H := H) hrk.cons.2, lift_ok_bind]
            refine Post.bind H (post_encodeNode hH hx2.inv (t := .leaf r v) rfl) (fun _ => ?_) (fun a w3 hx3 ha => ?_)
            · exact mono_bind (mono_lift _) (fun _ => mono_finishKv _ _ _ _ _)
            · obtain ⟨rfl, h2⟩ := ha
              simp only [setSlot_branch hrk.cons.1, lift_ok_bind]
              exact post_finishKv hH hx3.inv hcn q.length (by simp) rfl
                (stored_set (v := []) (stored_one (h1.mono hx3.keep) trivial) h2 trivial) false (fun h => by cases h)
    | ext c t =>
      obtain ⟨hc0, hcn, htb, ht⟩ := ht
      have hcn : Nib c := hcn
      obtain ⟨hs1, hs2⟩ := hs
      rw [nodeType_ext hcn, lift_ok_bind]
      simp only [key_ext hcn, slot1_ext, lift_ok_bind, T.update]
      obtain ⟨q, rk, rc, rfl, rfl, hp, -⟩ := T.prefix_spec k c
      have hrk : Nib rk := fun n h => hn n (List.mem_append_right _ h)
      have hrc : Nib rc := fun n h => hcn n (List.mem_append_right _ h)
      have htb' : t.isBlank = false := by cases t <;> simp_all [T.isBranch, T.isBlank]
      simp only [hp, List.drop_left', show decide (NodeType.extension = NodeType.extension) = true from rfl]
      cases rc with
      | nil =>
        have hq : 0 < q.length := List.length_pos_iff.2 (by simpa using hc0)
        rw [List.length_append] at hk
        have hd := decode_held hi hs1 hH
        have key : Post H (decodeToNode (refOf H (t.node H)) >>= fun sub => update H f sub rk v >>= fun new =>
            finishKv H (q ++ []) q.length new true) w (fun it w' =>
              it = (T.wrap ((q ++ []).take q.length) (t.update rk v)).node H ∧
              Stored H w'.kv (T.wrap ((q ++ []).take q.length) (t.update rk v)) ∧
              Held H w'.kv (T.wrap ((q ++ []).take q.length) (t.update rk v))) := by
          refine Post.bind H (P := fun a w' => a = t.node H ∧ w' = w) ?_ (fun _ => ?_) (fun a w' hx ha => ?_)
          · refine ⟨by rw [hd]; exact fun _ h => h, fun _ => ?_⟩
            rw [hd]; exact ⟨Ext.refl H hi, rfl, rfl⟩
          · exact mono_bind (mono_update H _ _ _ _) (fun _ => mono_finishKv _ _ _ _ _)
          · obtain ⟨rfl, rfl⟩ := ha
            refine Post.bind H (ih t rk v w' (by omega) ht hrk hi hs2) (fun _ => mono_finishKv _ _ _ _ _)
              (fun a w2 hx2 ha => ?_)
            obtain ⟨rfl, h1, h2⟩ := ha
            exact post_finishKv hH hx2.inv hcn q.length (by simp) (T.update_blank _ _ _) h1 true (fun _ => h2)
        cases rk with
        | nil => exact key
        | cons n r => exact key
      | cons m s =>
        cases rk with
        | nil =>
          refine Post.bind H (post_oldSide_ext hH hi hrc.cons.1 hrc.cons.2 hs1) (fun _ => ?_) (fun a w2 hx2 ha => ?_)
          · exact mono_bind (mono_lift _) (fun _ => mono_finishKv _ _ _ _ _)
          · obtain ⟨rfl, h1⟩ := ha
            have hsw : Stored H w2.kv (T.wrap s t) := by
              unfold T.wrap; split
              · exact hs2.mono hx2.keep
              · exact ⟨hs1.mono hx2.keep, hs2.mono hx2.keep⟩
            simp only [setSlot_branch_16, lift_ok_bind]
            exact post_finishKv hH hx2.inv hcn q.length (by simp) rfl (stored_one h1 hsw) false (fun h => by cases h)
        | cons n r =>
          refine Post.bind H (post_oldSide_ext hH hi hrc.cons.1 hrc.cons.2 hs1) (fun _ => ?_) (fun a w2 hx2 ha => ?_)
          · exact mono_bind (mono_lift _) (fun _ => mono_bind (mono_encodeNode _ _ _)
              (fun _ => mono_bind (mono_lift _) (fun _ => mono_finishKv _ _ _ _ _)))
          · obtain ⟨rfl, h1⟩ := ha
            have hsw : Stored H w2.kv (T.wrap s t) := by
              unfold T.wrap; split
              · exact hs2.mono hx2.keep
              · exact ⟨hs1.mono hx2.keep, hs2.mono hx2.keep⟩
            simp only [leafItem_ok (H := H) hrk.cons.2, lift_ok_bind]
            refine Post.bind H (post_encodeNode hH hx2.inv (t := .leaf r v) rfl) (fun _ => ?_) (fun a w3 hx3 ha => ?_)
            · exact mono_bind (mono_lift _) (fun _ => mono_finishKv _ _ _ _ _)
            · obtain ⟨rfl, h2⟩ := ha
              simp only [setSlot_branch hrk.cons.1, lift_ok_bind]
              exact post_finishKv hH hx3.inv hcn q.length (by simp) rfl
                (stored_set (v := []) (stored_one (h1.mono hx3.keep) (hsw.mono hx3.keep)) h2 trivial) false
                (fun h => by cases h)

/-! ## Deleting -/

theorem truthy_ref (t : T) : truthy (refOf H (t.node H)) = !t.isBlank := by
  cases hb : t.isBlank with
  | true => rw [T.isBlank_iff.1 hb]; rfl
  | false =>
    obtain ⟨xs, e, hne⟩ := node_ne_blank (H := H) hb
    rw [refOf_ne hb]
    split
    · rw [e]
      cases xs with
      | nil => exact absurd rfl hne
      | cons a l => rfl
    · have := hH (encode (t.node H))
      cases hx : H (encode (t.node H)) with
      | nil => rw [hx] at this; cases this
      | cons a l => rfl

theorem slots_eq (f : Nat → T) (v : Bytes) :
    (List.range 17).filter (fun i => truthy
      ((((List.range 16).map (fun i => refOf H ((f i).node H)) ++ [Item.str v])[i]?).getD blank)) = T.slots f v := by
  unfold T.slots
  apply List.filter_congr
  intro i hi
  rw [List.mem_range] at hi
  by_cases h : i = 16
  · subst h
    rw [List.getElem?_append_right (by simp)]
    cases v <;> simp [truthy, T.occ]
  · rw [List.getElem?_append_left (by simp; omega), T.occ_lt (by omega)]
    have : i < 16 := by omega
    simp [this, truthy_ref hH]

theorem post_normalize {w : World} (hi : Inv H w) {f : Nat → T} {v : Bytes} (hw : ∀ n, (f n).WF)
    (ho : ∃ i, i ≤ 16 ∧ T.occ f v i = true) (hs : Stored H w.kv (.branch f v)) :
    Post H (normalize H ((T.branch f v).node H)) w (fun it w' => it = (T.norm f v).node H ∧
      Stored H w'.kv (T.norm f v) ∧ Held H w'.kv (T.norm f v)) := by
  have hsl := slots_eq hH f v
  unfold normalize
  simp only [T.node]
  simp only [hsl]
  rcases hn : T.slots f v with _ | ⟨i, _ | ⟨j, l⟩⟩
  · obtain ⟨i, h1, h2⟩ := ho
    have : i ∈ T.slots f v := T.mem_slots.2 ⟨by omega, h2⟩
    rw [hn] at this; cases this
  · have him : i ∈ T.slots f v := by rw [hn]; exact List.mem_singleton.2 rfl
    obtain ⟨h17, hocc⟩ := T.mem_slots.1 him
    have hnorm : T.norm f v = if i = 16 then .leaf [] v else T.join [i] (f i) := by unfold T.norm; rw [hn]
    rw [hnorm]
    simp only
    by_cases h16 : i = 16
    · subst h16
      rw [if_pos rfl, if_pos rfl, List.getElem?_append_right (by simp)]
      simp only [List.length_map, List.length_range, Nat.sub_self, List.getElem?_cons_zero, Option.getD_some]
      rw [leafItem_ok (H := H) (c := []) (fun n h => by cases h), lift_ok_bind]
      exact post_encode_then hH hi rfl trivial
    · have hlt : i < 16 := by omega
      rw [if_neg h16, if_neg h16, List.getElem?_append_left (by simp; omega)]
      simp only [List.getElem?_map, List.getElem?_range hlt, Option.map_some, Option.getD_some]
      obtain ⟨hh, hst⟩ := hs i hlt
      have hd := decode_held hi hh hH
      have hnb : (f i).isBlank = false := by rw [T.occ_lt hlt] at hocc; simpa using hocc
      have hi1 : Nib [i] := by intro n hm; rw [List.mem_singleton.1 hm]; exact hlt
      refine Post.bind H (P := fun a w' => a = (f i).node H ∧ w' = w) ?_ (fun _ => ?_) (fun a w' hx ha => ?_)
      · refine ⟨by rw [hd]; exact fun _ h => h, fun _ => ?_⟩
        rw [hd]; exact ⟨Ext.refl H hi, rfl, rfl⟩
      · mono
      · obtain ⟨rfl, rfl⟩ := ha
        have hwi := hw i
        cases hti : f i with
        | blank => rw [hti] at hnb; cases hnb
        | leaf c x =>
          rw [hti] at hwi
          have hc : Nib c := hwi.1
          simp only [nodeType_leaf hc, lift_ok_bind, raw_leaf hc, slot1_leaf, T.join]
          have hpk : packNibbles (i :: term c true) = .ok (hexPrefix (i :: c) true) :=
            pack_term (c := i :: c) (leaf := true) (hi1.append hc) (.inl rfl)
          rw [hpk, lift_ok_bind]
          exact post_encode_then hH hi (t := .leaf (i :: c) x) rfl trivial
        | ext c t =>
          rw [hti] at hwi hst
          have hc : Nib c := hwi.2.1
          simp only [nodeType_ext hc, lift_ok_bind, raw_ext hc, slot1_ext, T.join]
          have hpk : packNibbles (i :: term c false) = .ok (hexPrefix (i :: c) false) :=
            pack_term (c := i :: c) (leaf := false) (hi1.append hc) (.inr (by simp))
          rw [hpk, lift_ok_bind]
          exact post_encode_then hH hi (t := .ext (i :: c) t) rfl hst
        | branch g x =>
          rw [hti] at hst hh
          simp only [nodeType_branch, lift_ok_bind, T.join]
          have hpk : packNibbles [i] = .ok (hexPrefix [i] false) :=
            pack_term (c := [i]) (leaf := false) hi1 (.inr (by simp))
          rw [hpk, lift_ok_bind]
          exact post_encode_then hH hi (t := .ext [i] (.branch g x)) rfl ⟨hh, hst⟩
  · have hnorm : T.norm f v = .branch f v := by unfold T.norm; rw [hn]
    rw [hnorm]
    exact post_encode_then hH hi (t := .branch f v) rfl hs

theorem delete_spec (f : Nat) : ∀ (t : T) (k : List Nat) (w : World), k.length < f → t.WF → Nib k → Inv H w →
    Stored H w.kv t → Post H (delete H f (t.node H) k) w (fun it w' => it = (t.delete k).node H ∧
      Stored H w'.kv (t.delete k) ∧ Held H w'.kv (t.delete k)) := by
  induction f with
  | zero => intro _ _ _ h; omega
  | succ f ih =>
    intro t k w hk ht hn hi hs
    unfold Trie.delete
    cases t with
    | blank =>
      rw [nodeType_blank, lift_ok_bind]
      exact Post.pure H hi ⟨rfl, trivial, held_blank⟩
    | leaf c x =>
      have hc : Nib c := ht.1
      rw [nodeType_leaf hc, lift_ok_bind]
      simp only [key_leaf hc, lift_ok_bind, T.delete]
      by_cases e : k = c
      · subst e
        have : startsWith k k = true := by
          rw [startsWith_strip]
          have := strip_append k []
          rw [List.append_nil] at this
          rw [this]; rfl
        simp only [this, Bool.true_eq_false, if_false, if_true]
        exact Post.pure H hi ⟨rfl, trivial, held_blank⟩
      · simp only [e, if_false]
        have := post_encode_then hH hi (t := .leaf c x) rfl (by trivial)
        cases startsWith k c <;> exact this
    | ext c t =>
      obtain ⟨hc0, hcn, htb, ht⟩ := ht
      have hc : Nib c := hcn
      have hs0 := hs
      obtain ⟨hs1, hs2⟩ := hs
      rw [nodeType_ext hc, lift_ok_bind]
      simp only [key_ext hc, slot1_ext, lift_ok_bind, T.delete, startsWith_strip]
      cases h : strip c k with
      | none => exact post_encode_then hH hi (t := .ext c t) rfl hs0
      | some r =>
        simp only [Option.isSome_some, Bool.true_eq_false, if_false, reduceCtorEq, strip_drop h]
        have e := strip_some h
        subst e
        have hcl : 0 < c.length := List.length_pos_iff.2 hc0
        rw [List.length_append] at hk
        have hd := decode_held hi hs1 hH
        refine Post.bind H (P := fun a w' => a = t.node H ∧ w' = w) ?_ (fun _ => ?_) (fun a w' hx ha => ?_)
        · refine ⟨by rw [hd]; exact fun _ h => h, fun _ => ?_⟩
          rw [hd]; exact ⟨Ext.refl H hi, rfl, rfl⟩
        · exact mono_bind (mono_delete H _ _ _) (fun _ => by mono)
        · obtain ⟨rfl, rfl⟩ := ha
          refine Post.bind H (ih t r w' (by omega) ht (fun n hm => hn n (List.mem_append_right _ hm)) hi hs2)
            (fun _ => by mono) (fun a w2 hx2 ha => ?_)
          obtain ⟨rfl, h1, h2⟩ := ha
          have hwd := T.wf_delete t ht r
          cases htd : t.delete r with
          | blank => exact Post.pure H hx2.inv ⟨rfl, trivial, held_blank⟩
          | leaf q x =>
            rw [htd] at hwd
            have hq : Nib q := hwd.1
            have hpk : packNibbles (c ++ term q true) = .ok (hexPrefix (c ++ q) true) := by
              have := pack_term (c := c ++ q) (leaf := true) (hc.append hq) (.inl rfl)
              rwa [term, if_pos rfl, List.append_assoc] at this
            have key : Post H (lift (getNodeType ((T.leaf q x).node H)) >>= fun ty => (match ty with
                | .blank => raise .assertion
                | .branch => lift (packNibbles c) >>= fun packed => encodeNode H ((T.leaf q x).node H) >>= fun ref =>
                    encodeNode H (.list [.str packed, ref]) >>= fun _ => pure (Item.list [.str packed, ref])
                | _ => lift (rawNibbles ((T.leaf q x).node H)) >>= fun rest => lift (packNibbles (c ++ rest)) >>= fun packed =>
                    lift (slot ((T.leaf q x).node H) 1) >>= fun old => encodeNode H (.list [.str packed, old]) >>= fun _ =>
                      pure (Item.list [.str packed, old]) : M Item)) w2
                (fun it w' => it = (T.leaf (c ++ q) x).node H ∧ Stored H w'.kv (.leaf (c ++ q) x) ∧
                  Held H w'.kv (.leaf (c ++ q) x)) := by
              simp only [nodeType_leaf hq, lift_ok_bind, raw_leaf hq, hpk, slot1_leaf]
              exact post_encode_then hH hx2.inv (t := .leaf (c ++ q) x) rfl trivial
            exact key
          | ext q u =>
            rw [htd] at hwd h1
            have hq : Nib q := hwd.2.1
            have hpk : packNibbles (c ++ term q false) = .ok (hexPrefix (c ++ q) false) :=
              pack_term (c := c ++ q) (leaf := false) (hc.append hq) (.inr (by simp [hc0]))
            have key : Post H (lift (getNodeType ((T.ext q u).node H)) >>= fun ty => (match ty with
                | .blank => raise .assertion
                | .branch => lift (packNibbles c) >>= fun packed => encodeNode H ((T.ext q u).node H) >>= fun ref =>
                    encodeNode H (.list [.str packed, ref]) >>= fun _ => pure (Item.list [.str packed, ref])
                | _ => lift (rawNibbles ((T.ext q u).node H)) >>= fun rest => lift (packNibbles (c ++ rest)) >>= fun packed =>
                    lift (slot ((T.ext q u).node H) 1) >>= fun old => encodeNode H (.list [.str packed, old]) >>= fun _ =>
                      pure (Item.list [.str packed, old]) : M Item)) w2
                (fun it w' => it = (T.ext (c ++ q) u).node H ∧ Stored H w'.kv (.ext (c ++ q) u) ∧
                  Held H w'.kv (.ext (c ++ q) u)) := by
              simp only [nodeType_ext hq, lift_ok_bind, raw_ext hq, hpk, slot1_ext]
              exact post_encode_then hH hx2.inv (t := .ext (c ++ q) u) rfl h1
            exact key
          | branch g x =>
            rw [htd] at h1 h2
            have hpk : packNibbles c = .ok (hexPrefix c false) := pack_term (leaf := false) hc (.inr hc0)
            have key : Post H (lift (getNodeType ((T.branch g x).node H)) >>= fun ty => (match ty with
                | .blank => raise .assertion
                | .branch => lift (packNibbles c) >>= fun packed => encodeNode H ((T.branch g x).node H) >>= fun ref =>
                    encodeNode H (.list [.str packed, ref]) >>= fun _ => pure (Item.list [.str packed, ref])
                | _ => lift (rawNibbles ((T.branch g x).node H)) >>= fun rest => lift (packNibbles (c ++ rest)) >>= fun packed =>
                    lift (slot ((T.branch g x).node H) 1) >>= fun old => encodeNode H (.list [.str packed, old]) >>= fun _ =>
                      pure (Item.list [.str packed, old]) : M Item)) w2
                (fun it w' => it = (T.ext c (.branch g x)).node H ∧ Stored H w'.kv (.ext c (.branch g x)) ∧
                  Held H w'.kv (.ext c (.branch g x))) := by
              simp only [nodeType_branch, lift_ok_bind, hpk]
              refine Post.bind H (post_encodeNode hH hx2.inv (t := .branch g x) rfl) (fun _ => by mono)
                (fun a w3 hx3 ha => ?_)
              obtain ⟨rfl, h3⟩ := ha
              exact post_encode_then hH hx3.inv (t := .ext c (.branch g x)) rfl ⟨h3, h1.mono hx3.keep⟩
            exact key
    | branch g x =>
      rw [nodeType_branch, lift_ok_bind]
      obtain ⟨hw, hf, h2⟩ := ht
      cases k with
      | nil =>
        have : setSlot ((T.branch g x).node H) 16 blank = .ok ((T.branch g []).node H) := setSlot_branch_16 []
        simp only [this, lift_ok_bind]
        exact post_normalize hH hi hw h2.dropValue hs
      | cons n k =>
        have hn16 := hn.cons.1
        simp only [slot_branch hn16, lift_ok_bind]
        have hd := decode_held hi (hs n hn16).1 hH
        refine Post.bind H (P := fun a w' => a = (g n).node H ∧ w' = w) ?_ (fun _ => ?_) (fun a w' hx ha => ?_)
        · refine ⟨by rw [hd]; exact fun _ h => h, fun _ => ?_⟩
          rw [hd]; exact ⟨Ext.refl H hi, rfl, rfl⟩
        · refine mono_bind (mono_delete H _ _ _) (fun _ => mono_bind (mono_encodeNode _ _ _)
            (fun _ => mono_bind (mono_lift _) (fun _ => ?_)))
          split
          · exact mono_normalize _ _
          · mono
        · obtain ⟨rfl, rfl⟩ := ha
          refine Post.bind H (ih (g n) k w' (by simpa using hk) (hw n) hn.cons.2 hi (hs n hn16).2)
            (fun _ => ?_) (fun a w2 hx2 ha => ?_)
          · refine mono_bind (mono_encodeNode _ _ _) (fun _ => mono_bind (mono_lift _) (fun _ => ?_))
            split
            · exact mono_normalize _ _
            · mono
          obtain ⟨rfl, h1, h3⟩ := ha
          simp only [T.delete]
          cases hb : ((g n).delete k).isBlank with
          | true =>
            rw [T.isBlank_iff.1 hb]
            have hsl : setSlot ((T.branch g x).node H) n blank = .ok ((T.branch (setF g n .blank) x).node H) :=
              setSlot_branch (t := .blank) hn16
            have : encodeNode H (T.blank.node H) = pure blank := rfl
            rw [this, pure_bind']
            simp only [hsl, lift_ok_bind]
            refine post_normalize hH hx2.inv ?_ (h2.drop n _) (stored_set (hs.mono hx2.keep) held_blank trivial)
            intro i
            by_cases e : i = n
            · subst e; rw [setF_same]; trivial
            · rw [setF_ne _ _ e]; exact hw i
          | false =>
            refine Post.bind H (post_encodeNode hH hx2.inv hb) (fun _ => ?_) (fun r w3 hx3 hr => ?_)
            · refine mono_bind (mono_lift _) (fun _ => ?_)
              split
              · exact mono_normalize _ _
              · mono
            obtain ⟨rfl, h4⟩ := hr
            simp only [setSlot_branch hn16, lift_ok_bind]
            have htr := truthy_ref hH ((g n).delete k)
            rw [hb] at htr
            have key := post_encode_then hH hx3.inv (t := .branch (setF g n ((g n).delete k)) x) rfl
              (stored_set ((hs.mono hx2.keep).mono hx3.keep) h4 (h1.mono hx3.keep))
            simp only [Bool.false_eq_true, if_false]
            split
            · next hr => rw [hr] at htr; cases htr
            · exact key

end Verif.Trie
