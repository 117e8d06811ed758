import Verif.Proofs.State
/-!
# State proofs
-/
namespace Verif.Trie
open Verif.Rlp Verif.Spec.State

theorem bind_inv {α β : Type} {m : M α} {f : α → M β} {w w' : World} {b : β} (h : (m >>= f) w = (.ok b, w')) :
    ∃ a w1, m w = (.ok a, w1) ∧ f a w1 = (.ok b, w') := by
  cases e : m w with
  | mk r w1 =>
    cases r with
    | error x => rw [bind_error e] at h; cases h
    | ok a => rw [bind_ok e] at h; exact ⟨a, w1, rfl, h⟩

variable {H : Bytes → Bytes}

theorem decodeToNode_str {h : Bytes} (hne : h ≠ []) : decodeToNode (.str h) =
    (getNode h >>= fun b => lift (rlpDecode b) >>= fun o => spvGrabbing o >>= fun _ => pure o) := by
  cases h with
  | nil => exact absurd rfl hne
  | cons a l => rfl

/-! ## Soundness -/

/-- Everything in the store is one of `S`, under its hash. -/
def Hashed (H : Bytes → Bytes) (kv : Dict Bytes Bytes) (S : List Bytes) : Prop :=
  ∀ h b, kv.get? h = some b → b ∈ S ∧ h = H b

theorem foldl_hashed (S : List Bytes) : ∀ (l : List Bytes) (d : Dict Bytes Bytes), l ⊆ S → Hashed H d S →
    Hashed H (l.foldl (fun d r => d.set (H r) r) d) S
  | [], _, _, h => h
  | r :: l, d, hl, h => by
    refine foldl_hashed S l _ (fun x hx => hl (List.mem_cons_of_mem _ hx)) ?_
    intro k b hb
    rw [Dict.get?_set] at hb
    split at hb
    · next e => cases hb; exact ⟨hl List.mem_cons_self, e.symm⟩
    · exact h k b hb

theorem proofKv_hashed (encs : List Bytes) : Hashed H (proofKv H encs) encs :=
  foldl_hashed encs encs [] (fun _ h => h) (fun _ _ h => by cases h)

section
variable (hH : ∀ x, (H x).length = 32) {w0 : World} (hi : Inv H w0) {S : List Bytes}
  (hc : ∀ x ∈ w0.written, ∀ y ∈ S, H x = H y → x = y)
include hH hi hc

/-- Reading by hash gives the node meant. -/
theorem decodeHash_sound {t : T} (hf : fits (t.node H) = true)
    (hg : w0.kv.get? (H (encode (t.node H))) = some (encode (t.node H))) {w w' : World} (hw : Hashed H w.kv S) {n : Item}
    (h : decodeToNode (.str (H (encode (t.node H)))) w = (.ok n, w')) : n = t.node H := by
  have hne : H (encode (t.node H)) ≠ [] := by
    intro h0; have := hH (encode (t.node H)); rw [h0] at this; cases this
  rw [decodeToNode_str hne] at h
  obtain ⟨b, w1, h1, h⟩ := bind_inv h
  obtain ⟨o, w2, h2, h⟩ := bind_inv h
  obtain ⟨u, w3, h3, h⟩ := bind_inv h
  have hb : w.kv.get? (H (encode (t.node H))) = some b := by
    unfold getNode at h1
    split at h1
    · next e => cases h1; exact e
    · cases h1
  have hS := hw _ _ hb
  have he := hc _ (hi.good _ _ hg (hH _)).1 _ hS.1 hS.2
  subst he
  have ho : (.ok o : Except Err Item) = rlpDecode (encode (t.node H)) := (Prod.mk.inj h2).1.symm
  simp only [rlpDecode, decode_encode hf] at ho
  cases ho
  cases h
  rfl

theorem decode_sound {t : T} (ht : Held H w0.kv t) {w w' : World} (hw : Hashed H w.kv S) {n : Item}
    (h : decodeToNode (refOf H (t.node H)) w = (.ok n, w')) : n = t.node H := by
  cases hb : t.isBlank with
  | true =>
    rw [T.isBlank_iff.1 hb] at h ⊢
    cases h; rfl
  | false =>
    obtain ⟨xs, e, -⟩ := node_ne_blank (H := H) hb
    rw [refOf_ne hb] at h
    split at h
    · rw [e] at h ⊢; cases h; rfl
    · next hl =>
      rcases ht with ht | ht | ⟨h1, h2⟩
      · rw [ht] at hb; cases hb
      · exact absurd ht hl
      · exact decodeHash_sound hH hi hc h1 h2 hw h

theorem get_sound (f : Nat) : ∀ (t : T) (k : List Nat) (w w' : World) (x : Item), t.WF → Nib k → Stored H w0.kv t →
    Hashed H w.kv S → get f (t.node H) k w = (.ok x, w') → x = .str (t.get k) := by
  induction f with
  | zero => intro _ _ _ _ _ _ _ _ _ h; cases h
  | succ f ih =>
    intro t k w w' x ht hn hs hw h
    unfold Trie.get at h
    cases t with
    | blank => rw [nodeType_blank, lift_ok_bind] at h; cases h; rfl
    | leaf c v =>
      rw [nodeType_leaf ht.1, lift_ok_bind] at h
      simp only [key_leaf ht.1, lift_ok_bind, slot1_leaf] at h
      simp only [T.get]
      split at h
      · next e => cases h; rw [if_pos e]
      · next e => cases h; rw [if_neg e]
    | ext c t =>
      rw [nodeType_ext ht.2.1, lift_ok_bind] at h
      simp only [key_ext ht.2.1, lift_ok_bind, slot1_ext, startsWith_strip] at h
      simp only [T.get]
      cases e : strip c k with
      | none => rw [e] at h; cases h; rfl
      | some r =>
        rw [e] at h
        simp only [Option.isSome_some, if_true, strip_drop e] at h
        obtain ⟨n, w1, h1, h2⟩ := bind_inv h
        have hn' := decode_sound hH hi hc hs.1 hw h1
        subst hn'
        have hkv := (readOnly_decodeToNode (refOf H (t.node H))).same w
        rw [h1] at hkv
        have e' := strip_some e
        subst e'
        exact ih t r w1 w' x ht.2.2.2 (fun n hm => hn n (List.mem_append_right _ hm)) hs.2
          (by rw [hkv.1]; exact hw) h2
    | branch g v =>
      rw [nodeType_branch, lift_ok_bind] at h
      cases k with
      | nil => simp only [slot_branch_16] at h; cases h; rfl
      | cons n k =>
        have hn16 := hn.cons.1
        simp only [slot_branch hn16, lift_ok_bind] at h
        obtain ⟨sub, w1, h1, h2⟩ := bind_inv h
        have hn' := decode_sound hH hi hc (hs n hn16).1 hw h1
        subst hn'
        have hkv := (readOnly_decodeToNode (refOf H ((g n).node H))).same w
        rw [h1] at hkv
        exact ih (g n) k w1 w' x (ht.1 n) hn.cons.2 (hs n hn16).2 (by rw [hkv.1]; exact hw) h2
end

theorem readOnly_get (f : Nat) : ∀ (x : Item) (k : List Nat), ReadOnly (get f x k) := by
  induction f with
  | zero => intro _ _; exact readOnly_raise _
  | succ f ih =>
    intro x k
    unfold Trie.get
    repeat first
      | with_reducible exact ih _ _
      | with_reducible exact readOnly_pure _
      | with_reducible exact readOnly_lift _
      | with_reducible exact readOnly_raise _
      | with_reducible exact readOnly_decodeToNode _
      | with_reducible apply readOnly_bind
      | (intro _)
      | dsimp only
      | split

/-- The root read by its hash is the one meant. -/
theorem root_sound (hH : ∀ x, (H x).length = 32) {w0 : World} (hi : Inv H w0) {encs : List Bytes}
    (hc : ∀ x ∈ encode blank :: w0.written, ∀ y ∈ encode blank :: encs, H x = H y → x = y)
    {h : Bytes} {t : T} (ht : Rooted H w0.kv h t) {node : Item} {w w1 : World} (hw : Hashed H w.kv encs)
    (h1 : setRootHash H h w = (.ok node, w1)) : node = t.node H := by
  have hc' : ∀ x ∈ w0.written, ∀ y ∈ encs, H x = H y → x = y :=
    fun x hx y hy => hc x (List.mem_cons_of_mem _ hx) y (List.mem_cons_of_mem _ hy)
  unfold setRootHash at h1
  rw [if_pos (.inr (by rw [ht.hash]; exact hH _))] at h1
  split at h1
  · next hb =>
    cases h1
    cases hbl : t.isBlank with
    | true => rw [T.isBlank_iff.1 hbl]; rfl
    | false =>
      rcases ht.held with hh | ⟨hf, hg⟩
      · rw [hbl] at hh; cases hh
      · have hw := (hi.good _ _ hg (by rw [ht.hash]; exact hH _)).1
        exact absurd (hc _ (List.mem_cons_of_mem _ hw) _ List.mem_cons_self (by rw [← ht.hash, hb]; rfl))
          (encode_node_ne hbl hf)
  · next hb =>
    rcases ht.held with hh | ⟨hf, hg⟩
    · exfalso
      rw [T.isBlank_iff.1 hh] at ht
      exact hb ht.hash
    · rw [ht.hash] at h1 hg
      exact decodeHash_sound hH hi hc' hf hg hw h1

/-- Verification that accepts tells the truth about the tree. -/
theorem tryVerify_sound (hH : ∀ x, (H x).length = 32) {w0 : World} (hi : Inv H w0) {encs : List Bytes}
    (hc : ∀ x ∈ encode blank :: w0.written, ∀ y ∈ encode blank :: encs, H x = H y → x = y)
    {h : Bytes} {t : T} (ht : Rooted H w0.kv h t) {key value : Bytes} {w : World}
    (hv : (tryVerify H h key value encs w).1 = .ok true) : value = t.get (binToNibbles key) := by
  have hc' : ∀ x ∈ w0.written, ∀ y ∈ encs, H x = H y → x = y :=
    fun x hx y hy => hc x (List.mem_cons_of_mem _ hx) y (List.mem_cons_of_mem _ hy)
  unfold tryVerify at hv
  dsimp only at hv
  cases e : (setRootHash H h >>= fun node => getAt node key) { w with kv := proofKv H encs } with
  | mk r w' =>
    rw [e] at hv
    cases r with
    | error x => cases hv
    | ok x =>
      obtain ⟨node, w1, h1, h2⟩ := bind_inv e
      have hkv := (readOnly_setRootHash (H := H) h).same { w with kv := proofKv H encs }
      rw [h1] at hkv
      have hw1 : Hashed H w1.kv encs := by rw [hkv.1]; exact proofKv_hashed encs
      have hnode := root_sound hH hi hc ht (proofKv_hashed encs) h1
      subst hnode
      have hx := get_sound hH hi hc' _ t _ w1 w' x ht.wf (nib_binToNibbles key) ht.stored hw1 h2
      subst hx
      simp only at hv
      exact (of_decide_eq_true (Except.ok.inj hv)).symm

/-- The same for several keys. -/
theorem checkEach_sound (hH : ∀ x, (H x).length = 32) {w0 : World} (hi : Inv H w0) {S : List Bytes}
    (hc : ∀ x ∈ w0.written, ∀ y ∈ S, H x = H y → x = y) {h : Bytes} {t : T} (ht : Rooted H w0.kv h t) :
    ∀ (kvs : List (Bytes × Bytes)) (w : World), Hashed H w.kv S → (checkEach (t.node H) kvs w).1 = .ok true →
      ∀ k v, (k, v) ∈ kvs → v = t.get (binToNibbles k)
  | [], _, _, _, _, _, hm => by cases hm
  | (k, v) :: rest, w, hw, ha, k', v', hm => by
    unfold checkEach at ha
    cases e : getAt (t.node H) k w with
    | mk r w' =>
      rw [e] at ha
      have hkv := (readOnly_get ((binToNibbles k).length + 1) (t.node H) (binToNibbles k)).same w
      rw [show get ((binToNibbles k).length + 1) (t.node H) (binToNibbles k) w = (r, w') from e] at hkv
      cases r with
      | error x => cases ha
      | ok x =>
        have hx := get_sound hH hi hc _ t _ w w' x ht.wf (nib_binToNibbles k) ht.stored hw e
        subst hx
        dsimp only at ha
        split at ha
        · next hv =>
          rcases List.mem_cons.1 hm with h | h
          · cases h; exact hv.symm
          · exact checkEach_sound hH hi hc ht rest w' (by rw [hkv.1]; exact hw) ha k' v' h
        · cases ha

theorem tryVerifyMulti_sound (hH : ∀ x, (H x).length = 32) {w0 : World} (hi : Inv H w0) {encs : List Bytes}
    (hc : ∀ x ∈ encode blank :: w0.written, ∀ y ∈ encode blank :: encs, H x = H y → x = y)
    {h : Bytes} {t : T} (ht : Rooted H w0.kv h t) {kvs : List (Bytes × Bytes)} {w : World}
    (hv : (tryVerifyMulti H h kvs encs w).1 = .ok true) : ∀ k v, (k, v) ∈ kvs → v = t.get (binToNibbles k) := by
  have hc' : ∀ x ∈ w0.written, ∀ y ∈ encs, H x = H y → x = y :=
    fun x hx y hy => hc x (List.mem_cons_of_mem _ hx) y (List.mem_cons_of_mem _ hy)
  unfold tryVerifyMulti at hv
  cases e : setRootHash H h { w with kv := proofKv H encs } with
  | mk r w1 =>
    rw [e] at hv
    cases r with
    | error x => cases hv
    | ok node =>
      have hkv := (readOnly_setRootHash (H := H) h).same { w with kv := proofKv H encs }
      rw [e] at hkv
      have hnode := root_sound hH hi hc ht (proofKv_hashed encs) e
      subst hnode
      exact checkEach_sound hH hi hc' ht kvs w1 (by rw [hkv.1]; exact proofKv_hashed encs) hv

/-! ## Completeness -/

/-- The encoding under which a parent finds a node in the store. -/
def refEnc (H : Bytes → Bytes) (t : T) : List Bytes :=
  if t.isBlank = true ∨ (encode (t.node H)).length < 32 then [] else [encode (t.node H)]

/-- The encodings read from the store on the way to a key. -/
def T.path (H : Bytes → Bytes) : T → List Nat → List Bytes
  | .blank, _ => []
  | .leaf _ _, _ => []
  | .ext c t, k => match strip c k with
    | some r => refEnc H t ++ t.path H r
    | none => []
  | .branch _ _, [] => []
  | .branch f _, n :: k => refEnc H (f n) ++ (f n).path H k

/-- What reading does to the recorder: `g`, once for each encoding read. -/
structure Grabs (P : Recorder → Prop) (g : Recorder → Bytes → Recorder) (E : List Bytes) : Prop where
  grab : ∀ (x : Item) (w : World), P w.spv → fits x = true → encode x ∈ E →
    spvGrabbing x w = (.ok (), { w with spv := g w.spv (encode x) })
  keep : ∀ r e, P r → P (g r e)

section
variable (hH : ∀ x, (H x).length = 32) {P : Recorder → Prop} {g : Recorder → Bytes → Recorder} {E : List Bytes}
  (hg : Grabs P g E) {kv0 : Dict Bytes Bytes}
include hH hg

theorem decodeHash_grabs {x : Item} (hf : fits x = true) (hE : encode x ∈ E) {w : World}
    (hkv : w.kv.get? (H (encode x)) = some (encode x)) (hp : P w.spv) :
    decodeToNode (.str (H (encode x))) w = (.ok x, { w with spv := g w.spv (encode x) }) := by
  have hne : H (encode x) ≠ [] := by intro h0; have := hH (encode x); rw [h0] at this; cases this
  rw [decodeToNode_str hne]
  have h1 : getNode (H (encode x)) w = (.ok (encode x), w) := by simp [getNode, hkv]
  rw [bind_ok h1]
  have hr : rlpDecode (encode x) = .ok x := by simp [rlpDecode, decode_encode hf]
  rw [hr, lift_ok_bind, bind_ok (hg.grab x w hp hf hE)]
  rfl

theorem decode_grabs {t : T} (ht : Held H kv0 t) (hE : refEnc H t ⊆ E) {w : World}
    (hkv : ∀ e ∈ refEnc H t, w.kv.get? (H e) = some e) (hp : P w.spv) :
    decodeToNode (refOf H (t.node H)) w = (.ok (t.node H), { w with spv := (refEnc H t).foldl g w.spv }) := by
  cases hb : t.isBlank with
  | true =>
    have := T.isBlank_iff.1 hb
    subst this
    rfl
  | false =>
    obtain ⟨xs, e, -⟩ := node_ne_blank (H := H) hb
    unfold refEnc at hE hkv ⊢
    rw [refOf_ne hb]
    by_cases hl : (encode (t.node H)).length < 32
    · rw [if_pos hl, if_pos (.inr hl), e]; rfl
    · have hn : ¬ (t.isBlank = true ∨ (encode (t.node H)).length < 32) := by rw [hb]; simp [hl]
      rw [if_neg hn] at hE hkv
      rw [if_neg hl, if_neg hn]
      rcases ht with ht | ht | ⟨h1, -⟩
      · rw [ht] at hb; cases hb
      · exact absurd ht hl
      · exact decodeHash_grabs hH hg h1 (hE (List.mem_singleton.2 rfl)) (hkv _ (List.mem_singleton.2 rfl)) hp

omit hH in
theorem foldl_keep (l : List Bytes) : ∀ r, P r → P (l.foldl g r) := by
  induction l with
  | nil => exact fun _ h => h
  | cons e l ih => exact fun r h => ih _ (hg.keep r e h)

theorem get_grabs (f : Nat) : ∀ (t : T) (k : List Nat) (w : World), k.length < f → t.WF → Nib k → Stored H kv0 t →
    t.path H k ⊆ E → (∀ e ∈ t.path H k, w.kv.get? (H e) = some e) → P w.spv →
    get f (t.node H) k w = (.ok (.str (t.get k)), { w with spv := (t.path H k).foldl g w.spv }) := by
  induction f with
  | zero => intro _ _ _ h; omega
  | succ f ih =>
    intro t k w hk ht hn hs hE hkv hp
    unfold Trie.get
    cases t with
    | blank => rw [nodeType_blank, lift_ok_bind]; rfl
    | leaf c v =>
      rw [nodeType_leaf ht.1, lift_ok_bind]
      simp only [key_leaf ht.1, lift_ok_bind, slot1_leaf]
      simp only [T.get]
      split <;> rfl
    | ext c t =>
      rw [nodeType_ext ht.2.1, lift_ok_bind]
      simp only [key_ext ht.2.1, lift_ok_bind, slot1_ext, startsWith_strip]
      simp only [T.get, T.path] at hE hkv ⊢
      cases h : strip c k with
      | none => rfl
      | some r =>
        rw [h] at hE hkv
        simp only at hE hkv
        simp only [Option.isSome_some, if_true, strip_drop h]
        rw [bind_ok (decode_grabs hH hg hs.1 (fun x hx => hE (List.mem_append_left _ hx))
          (fun e he => hkv e (List.mem_append_left _ he)) hp), List.foldl_append]
        have e := strip_some h
        subst e
        have hc : 0 < c.length := List.length_pos_iff.2 ht.1
        rw [List.length_append] at hk
        exact ih t r _ (by omega) ht.2.2.2 (fun n hm => hn n (List.mem_append_right _ hm)) hs.2
          (fun x hx => hE (List.mem_append_right _ hx)) (fun e he => hkv e (List.mem_append_right _ he))
          (foldl_keep hg _ _ hp)
    | branch b v =>
      rw [nodeType_branch, lift_ok_bind]
      cases k with
      | nil => simp only [slot_branch_16]; rfl
      | cons n k =>
        have hn16 := hn.cons.1
        simp only [T.path] at hE hkv ⊢
        simp only [slot_branch hn16, lift_ok_bind]
        rw [bind_ok (decode_grabs hH hg (hs n hn16).1 (fun x hx => hE (List.mem_append_left _ hx))
          (fun e he => hkv e (List.mem_append_left _ he)) hp), List.foldl_append]
        exact ih (b n) k _ (by simpa using hk) (ht.1 n) hn.cons.2 (hs n hn16).2
          (fun x hx => hE (List.mem_append_right _ hx)) (fun e he => hkv e (List.mem_append_right _ he))
          (foldl_keep hg _ _ hp)
end

/-- What is on the path can be read back. -/
theorem refEnc_held {kv : Dict Bytes Bytes} {t : T} (ht : Held H kv t) {e : Bytes} (he : e ∈ refEnc H t) :
    ∃ x, fits x = true ∧ e = encode x ∧ kv.get? (H e) = some e := by
  unfold refEnc at he
  split at he
  · cases he
  · next hn =>
    have := List.mem_singleton.1 he
    subst this
    rcases ht with h | h | ⟨h1, h2⟩
    · exact absurd (.inl h) hn
    · exact absurd (.inr h) hn
    · exact ⟨_, h1, rfl, h2⟩

theorem path_held {kv : Dict Bytes Bytes} (t : T) : ∀ (k : List Nat), Nib k → Stored H kv t → ∀ e ∈ t.path H k,
    ∃ x, fits x = true ∧ e = encode x ∧ kv.get? (H e) = some e := by
  induction t with
  | blank => intro _ _ _ e he; cases he
  | leaf c v => intro _ _ _ e he; cases he
  | ext c t ih =>
    intro k hn hs e he
    simp only [T.path] at he
    split at he
    · next r hr =>
      rcases List.mem_append.1 he with h | h
      · exact refEnc_held hs.1 h
      · have := strip_some hr
        subst this
        exact ih r (fun n hm => hn n (List.mem_append_right _ hm)) hs.2 e h
    · cases he
  | branch f v ih =>
    intro k hn hs e he
    cases k with
    | nil => cases he
    | cons n k =>
      simp only [T.path] at he
      have hn16 := hn.cons.1
      rcases List.mem_append.1 he with h | h
      · exact refEnc_held (hs n hn16).1 h
      · exact ih n k hn.cons.2 (hs n hn16).2 e h

/-! ### Making a proof -/

/-- Recording, with the set `top`. -/
def Recording (r : Recorder) : Prop := r.proving = true ∧ (∃ m, r.mode = .recording :: m)

theorem grabs_recording (E : List Bytes) : Grabs Recording Recorder.addNode E := by
  refine ⟨?_, ?_⟩
  · rintro x w ⟨hp, m, hm⟩ hf -
    unfold spvGrabbing
    rw [if_neg (by rw [hp]; simp), hm]
    simp only [rlpEncode, hf, if_true]
  · rintro r e ⟨hp, m, hm⟩
    unfold Recorder.addNode
    split
    · exact ⟨hp, m, hm⟩
    · exact ⟨hp, m, hm⟩

/-- What is in the set. -/
theorem addNodes_spec (l : List Bytes) : ∀ (r : Recorder) (top : List Bytes) (rest : List (List Bytes)),
    r.nodes = top :: rest → ∃ top', l.foldl Recorder.addNode r = { r with nodes := top' :: rest } ∧
      ∀ e, e ∈ top' ↔ e ∈ top ∨ e ∈ l := by
  induction l with
  | nil => intro r top rest h; exact ⟨top, by cases r; simp_all, by simp⟩
  | cons e l ih =>
    intro r top rest h
    have ha : r.addNode e = { r with nodes := (if e ∈ top then top else top ++ [e]) :: rest } := by
      simp [Recorder.addNode, h]
    obtain ⟨top', h1, h2⟩ := ih (r.addNode e) _ rest (by rw [ha])
    refine ⟨top', by rw [List.foldl_cons, h1, ha], fun x => ?_⟩
    rw [h2]
    by_cases hm : e ∈ top
    · rw [if_pos hm]
      constructor
      · rintro (h | h)
        · exact .inl h
        · exact .inr (List.mem_cons_of_mem _ h)
      · rintro (h | h)
        · exact .inl h
        · rcases List.mem_cons.1 h with rfl | h
          · exact .inl hm
          · exact .inr h
    · rw [if_neg hm]
      simp only [List.mem_append, List.mem_cons, List.not_mem_nil, or_false]
      constructor
      · rintro ((h | h) | h)
        · exact .inl h
        · exact .inr (.inl h)
        · exact .inr (.inr h)
      · rintro (h | h | h)
        · exact .inl (.inl h)
        · exact .inl (.inr h)
        · exact .inr h

theorem decodeEach_spec : ∀ (l : List Bytes), (∀ e ∈ l, ∃ x, fits x = true ∧ e = encode x) →
    ∃ xs, decodeEach l = .ok xs ∧ ∀ x, x ∈ xs ↔ fits x = true ∧ encode x ∈ l
  | [], _ => ⟨[], rfl, by simp⟩
  | e :: l, h => by
    obtain ⟨xs, h1, h2⟩ := decodeEach_spec l (fun e he => h e (List.mem_cons_of_mem _ he))
    obtain ⟨x, hf, rfl⟩ := h e List.mem_cons_self
    refine ⟨x :: xs, by simp [decodeEach, rlpDecode, decode_encode hf, h1], fun y => ?_⟩
    rw [List.mem_cons, h2, List.mem_cons]
    constructor
    · rintro (rfl | ⟨h3, h4⟩)
      · exact ⟨hf, .inl rfl⟩
      · exact ⟨h3, .inr h4⟩
    · rintro ⟨h3, h4 | h4⟩
      · exact .inl (encode_inj h3 hf h4)
      · exact .inr ⟨h3, h4⟩

theorem encodeEach_spec : ∀ (l : List Item), (∀ x ∈ l, fits x = true) → encodeEach l = .ok (l.map encode)
  | [], _ => rfl
  | x :: l, h => by
    simp [encodeEach, rlpEncode, h x List.mem_cons_self, encodeEach_spec l (fun y hy => h y (List.mem_cons_of_mem _ hy))]

theorem encodeEach_ok : ∀ (l : List Item) (es : List Bytes), encodeEach l = .ok es → es = l.map encode
  | [], es, h => by cases h; rfl
  | x :: l, es, h => by
    unfold encodeEach rlpEncode at h
    by_cases hf : fits x = true
    · rw [if_pos hf] at h
      cases e : encodeEach l with
      | error y => rw [e] at h; cases h
      | ok bs => rw [e] at h; cases h; rw [encodeEach_ok l bs e]; rfl
    · rw [if_neg hf] at h; cases h

/-- The proof made for a key: the nodes read, and the root. -/
theorem generate_spec (hH : ∀ x, (H x).length = 32) {w : World} {h : Bytes} {t : T} (ht : Rooted H w.kv h t)
    (hspv : w.spv = {}) (key : Bytes) :
    ∃ ns v, generateStateProof (t.node H) key w = (.ok (ns, v), w) ∧
      (∀ x, x ∈ ns ↔ (fits x = true ∧ encode x ∈ t.path H (binToNibbles key)) ∨ x = t.node H) ∧
      v = (if t.get (binToNibbles key) = [] then none else some (.str (t.get (binToNibbles key)))) := by
  have hn := nib_binToNibbles key
  have hpath := path_held t _ hn ht.stored
  let wr : World := { w with spv := w.spv.pushRecording }
  have hget : getAt (t.node H) key wr = (.ok (.str (t.get (binToNibbles key))),
      { wr with spv := (t.path H (binToNibbles key)).foldl Recorder.addNode wr.spv }) := by
    refine get_grabs hH (grabs_recording _) _ t _ wr (Nat.lt_succ_self _) ht.wf hn ht.stored (fun _ h => h) ?_ ?_
    · intro e he
      obtain ⟨_, _, _, h3⟩ := hpath e he
      exact h3
    · exact ⟨rfl, _, rfl⟩
  obtain ⟨top, h1, h2⟩ := addNodes_spec (t.path H (binToNibbles key)) wr.spv [] [] (by simp [wr, Recorder.pushRecording, hspv])
  rw [h1] at hget
  obtain ⟨xs, hx1, hx2⟩ := decodeEach_spec top (by
    intro e he
    rcases (h2 e).1 he with h | h
    · cases h
    · obtain ⟨x, h1, h2, -⟩ := hpath e h
      exact ⟨x, h1, h2⟩)
  have hprod : produceSpvProof (t.node H) key w = (.ok (xs, .str (t.get (binToNibbles key))), w) := by
    unfold produceSpvProof
    have e0 : pushRecording w = (.ok (), wr) := rfl
    rw [bind_ok e0, bind_ok hget]
    have e1 : getNodelist { wr with spv := { wr.spv with nodes := [top] } } =
        (.ok xs, { wr with spv := { wr.spv with nodes := [top] } }) := by
      simp [getNodelist, hx1]
    rw [bind_ok e1]
    cases w with
    | mk kv spv written =>
      simp only at hspv
      subst hspv
      rfl
  refine ⟨xs ++ [t.node H], _, ?_, ?_, rfl⟩
  · unfold generateStateProof
    rw [bind_ok hprod]
    dsimp only
    by_cases hb : t.get (binToNibbles key) = []
    · rw [hb]; rfl
    · rw [if_neg hb]
      generalize t.get (binToNibbles key) = y at hb
      cases y with
      | nil => exact absurd rfl hb
      | cons a l => rfl
  · intro x
    rw [List.mem_append, hx2, h2]
    simp

/-! ### Checking it -/

/-- Verifying against the set `S`. -/
def Verifying (S : List Bytes) (r : Recorder) : Prop :=
  r.proving = true ∧ (∃ m, r.mode = .verifying :: m) ∧ ∃ rest, r.nodes = S :: rest

theorem grabs_verifying (S : List Bytes) : Grabs (Verifying S) (fun r _ => r) S := by
  refine ⟨?_, fun _ _ h => h⟩
  rintro x w ⟨hp, ⟨m, hm⟩, rest, hr⟩ hf hE
  unfold spvGrabbing
  rw [if_neg (by rw [hp]; simp), hm]
  simp only [rlpEncode, hf, if_true, hr, hE]

theorem foldl_present : ∀ (l : List Bytes) (d : Dict Bytes Bytes) (k : Bytes), (∃ b, d.get? k = some b) ∨ (∃ r ∈ l, k = H r) →
    ∃ b, (l.foldl (fun d r => d.set (H r) r) d).get? k = some b
  | [], d, k, h => by
    rcases h with h | ⟨r, hr, -⟩
    · exact h
    · cases hr
  | r :: l, d, k, h => by
    refine foldl_present l _ k ?_
    rw [Dict.get?_set]
    by_cases e : H r = k
    · rw [if_pos e]; exact .inl ⟨r, rfl⟩
    · rw [if_neg e]
      rcases h with h | ⟨r', hr, he⟩
      · exact .inl h
      · rcases List.mem_cons.1 hr with rfl | hr
        · exact absurd he.symm e
        · exact .inr ⟨r', hr, he⟩

theorem proofKv_get {encs : List Bytes} (hc : ∀ x ∈ encs, ∀ y ∈ encs, H x = H y → x = y) {e : Bytes} (he : e ∈ encs) :
    (proofKv H encs).get? (H e) = some e := by
  obtain ⟨b, hb⟩ := foldl_present (H := H) encs [] (H e) (.inr ⟨e, he, rfl⟩)
  have := proofKv_hashed encs _ _ hb
  rw [hc e he b this.1 this.2]
  rw [hc e he b this.1 this.2] at hb
  exact hb

theorem foldl_id (l : List Bytes) (r : Recorder) : l.foldl (fun r _ => r) r = r := by
  induction l with
  | nil => rfl
  | cons _ l ih => exact ih

/-- A list with the same nodes is accepted, and the recorder is as before. -/
theorem verify_complete (hH : ∀ x, (H x).length = 32) {w0 : World} (hi : Inv H w0) (hd : Distinct H w0) {h : Bytes}
    {t : T} (ht : Rooted H w0.kv h t) (key : Bytes) {ns : List Item}
    (hns : ∀ x, x ∈ ns ↔ (fits x = true ∧ encode x ∈ t.path H (binToNibbles key)) ∨ x = t.node H) (w : World) :
    ∃ w', verifySpvProof H h key (t.get (binToNibbles key)) ns w = (.ok true, w') ∧ w'.kv = w.kv ∧
      w'.written = w.written ∧ (w.spv = {} → w' = w) := by
  have hn := nib_binToNibbles key
  have hpath := path_held t _ hn ht.stored
  have hfit : fits (t.node H) = true := by
    rcases ht.held with hb | ⟨hf, -⟩
    · rw [T.isBlank_iff.1 hb]; rfl
    · exact hf
  have henc := encodeEach_spec ns (fun x hx => by
    rcases (hns x).1 hx with h | h
    · exact h.1
    · rw [h]; exact hfit)
  have hmem : ∀ e, e ∈ ns.map encode ↔ e ∈ t.path H (binToNibbles key) ∨ e = encode (t.node H) := by
    intro e
    rw [List.mem_map]
    constructor
    · rintro ⟨x, hx, rfl⟩
      rcases (hns x).1 hx with h | h
      · exact .inl h.2
      · exact .inr (by rw [h])
    · rintro (h | h)
      · obtain ⟨x, h1, h2, -⟩ := hpath e h
        exact ⟨x, (hns x).2 (.inl ⟨h1, by rw [← h2]; exact h⟩), h2.symm⟩
      · exact ⟨_, (hns _).2 (.inr rfl), h.symm⟩
  have hsub : ∀ e ∈ ns.map encode, e ∈ encode blank :: w0.written := by
    intro e he
    rcases (hmem e).1 he with h | h
    · obtain ⟨x, _, _, h3⟩ := hpath e h
      exact List.mem_cons_of_mem _ (hi.good _ _ h3 (hH _)).1
    · subst h
      rcases ht.held with hb | ⟨hf, hg⟩
      · rw [T.isBlank_iff.1 hb]; exact List.mem_cons_self
      · exact List.mem_cons_of_mem _ (hi.good _ _ hg (by rw [ht.hash]; exact hH _)).1
  have hc : ∀ x ∈ ns.map encode, ∀ y ∈ ns.map encode, H x = H y → x = y :=
    fun x hx y hy => hd x (hsub x hx) y (hsub y hy)
  let wv : World := { w with spv := { mode := .verifying :: w.spv.mode, nodes := ns.map encode :: w.spv.nodes, proving := true } }
  have hpush : pushVerifying ns w = (.ok (ns.map encode), wv) := by
    unfold pushVerifying
    rw [henc]
  let wk : World := { wv with kv := proofKv H (ns.map encode) }
  have hP : Verifying (ns.map encode) wk.spv := ⟨rfl, ⟨_, rfl⟩, ⟨_, rfl⟩⟩
  have hroot : setRootHash H h wk = (.ok (t.node H), wk) := by
    unfold setRootHash
    rw [if_pos (.inr (by rw [ht.hash]; exact hH _))]
    cases hb : t.isBlank with
    | true =>
      have := T.isBlank_iff.1 hb
      subst this
      have e : h = blankRoot H := ht.hash
      rw [if_pos e]; rfl
    | false =>
      rw [if_neg (ht.not_blank hH hi hd hb), ht.hash]
      have he : encode (t.node H) ∈ ns.map encode := (hmem _).2 (.inr rfl)
      exact decodeHash_grabs hH (grabs_verifying _) hfit he (proofKv_get hc he) hP
  have hget : getAt (t.node H) key wk = (.ok (.str (t.get (binToNibbles key))), wk) := by
    have := get_grabs hH (grabs_verifying (ns.map encode)) _ t _ wk (Nat.lt_succ_self _) ht.wf hn ht.stored
      (fun e he => (hmem e).2 (.inl he)) (fun e he => proofKv_get hc ((hmem e).2 (.inl he))) hP
    rw [foldl_id] at this
    exact this
  refine ⟨{ w with spv := wv.spv.pop }, ?_, rfl, rfl, ?_⟩
  · unfold verifySpvProof
    rw [bind_ok hpush]
    unfold tryVerify
    have e : (setRootHash H h >>= fun node => getAt node key) wk = (.ok (.str (t.get (binToNibbles key))), wk) := by
      rw [bind_ok hroot, hget]
    dsimp only
    rw [show ({ wv with kv := proofKv H (ns.map encode) } : World) = wk from rfl, e]
    simp only [decide_true]
    rfl
  · intro hs
    cases w with
    | mk kv spv written => simp only at hs; subst hs; rfl

end Verif.Trie
