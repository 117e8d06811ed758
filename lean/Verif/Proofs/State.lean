import Verif.Proofs.Trie
import Verif.Spec.State
/-!
# The state over a history of operations
-/
namespace Verif.Trie
open Verif.Rlp Verif.Spec.State

variable (H : Bytes → Bytes)

/-- What the trie holds for a value. -/
def valEnc : Option Bytes → Bytes
  | none => []
  | some v => encode (.list [.str v])

theorem valEnc_some_ne (v : Bytes) : valEnc (some v) ≠ [] := by
  intro h
  have := encode_pos (.list [.str v])
  simp only [valEnc] at h
  rw [h] at this; cases this

/-- The root hash `h` stands for the tree `t`, which can be read from the store. -/
structure Rooted (kv : Dict Bytes Bytes) (h : Bytes) (t : T) : Prop where
  wf : t.WF
  hash : h = H (encode (t.node H))
  stored : Stored H kv t
  held : t.isBlank = true ∨ (fits (t.node H) = true ∧ kv.get? h = some (encode (t.node H)))

/-- The tree has this content. -/
structure Shows (t : T) (m : Content) : Prop where
  get : ∀ b, t.get (binToNibbles b) = valEnc (m b)
  keys : ∀ k, t.get k ≠ [] → ∃ b, k = binToNibbles b
  fits : ∀ b v, m b = some v → fits (.list [.str v]) = true

/-- All nodes stay; the store may change in other keys. -/
def Keep (kv kv' : Dict Bytes Bytes) : Prop := ∀ k x, k.length = 32 → kv.get? k = some x → kv'.get? k = some x

variable {H}
variable (hH : ∀ x, (H x).length = 32)
include hH

theorem Held.keep {kv kv' : Dict Bytes Bytes} (h : Keep kv kv') {t : T} (ht : Held H kv t) : Held H kv' t := by
  rcases ht with ht | ht | ⟨h1, h2⟩
  · exact .inl ht
  · exact .inr (.inl ht)
  · exact .inr (.inr ⟨h1, h _ _ (hH _) h2⟩)

theorem Stored.keep {kv kv' : Dict Bytes Bytes} (h : Keep kv kv') {t : T} (ht : Stored H kv t) : Stored H kv' t := by
  induction t with
  | blank => trivial
  | leaf c v => trivial
  | ext c t ih => exact ⟨ht.1.keep hH h, ih ht.2⟩
  | branch f v ih => exact fun i hi => ⟨(ht i hi).1.keep hH h, ih i (ht i hi).2⟩

theorem Rooted.keep {kv kv' : Dict Bytes Bytes} (h : Keep kv kv') {r : Bytes} {t : T} (ht : Rooted H kv r t) :
    Rooted H kv' r t := by
  refine ⟨ht.wf, ht.hash, ht.stored.keep hH h, ?_⟩
  rcases ht.held with hb | ⟨h1, h2⟩
  · exact .inl hb
  · exact .inr ⟨h1, h _ _ (by rw [ht.hash]; exact hH _) h2⟩

omit hH in
theorem Keep.refl (kv : Dict Bytes Bytes) : Keep kv kv := fun _ _ _ h => h

omit hH in
theorem Keep.trans {a b c : Dict Bytes Bytes} (h : Keep a b) (h' : Keep b c) : Keep a c :=
  fun k x hl hx => h' k x hl (h k x hl hx)

omit hH in
theorem shows_blank : Shows .blank (fun _ => none) :=
  ⟨fun _ => rfl, fun _ h => absurd rfl h, fun _ _ h => by cases h⟩

omit hH in
theorem rooted_blank (kv : Dict Bytes Bytes) : Rooted H kv (blankRoot H) .blank := ⟨trivial, rfl, trivial, .inl rfl⟩

/-! ## Reading changes nothing but the recorder -/

structure ReadOnly {α : Type} (m : M α) : Prop where
  same : ∀ w, (m w).2.kv = w.kv ∧ (m w).2.written = w.written

omit hH in
theorem readOnly_bind {α β : Type} {m : M α} {f : α → M β} (hm : ReadOnly m) (hf : ∀ a, ReadOnly (f a)) :
    ReadOnly (m >>= f) := by
  constructor
  intro w
  have h1 := hm.same w
  cases h : m w with
  | mk r w' =>
    rw [h] at h1
    cases r with
    | ok a =>
      rw [bind_ok h]
      have h2 := (hf a).same w'
      exact ⟨h2.1.trans h1.1, h2.2.trans h1.2⟩
    | error e => rw [bind_error h]; exact h1

omit hH in
theorem readOnly_pure {α : Type} (a : α) : ReadOnly (pure a : M α) := ⟨fun _ => ⟨rfl, rfl⟩⟩

omit hH in
theorem readOnly_lift {α : Type} (x : Except Err α) : ReadOnly (lift x) := ⟨fun _ => ⟨rfl, rfl⟩⟩

omit hH in
theorem readOnly_raise {α : Type} (e : Err) : ReadOnly (raise e : M α) := ⟨fun _ => ⟨rfl, rfl⟩⟩

omit hH in
theorem readOnly_spv (o : Item) : ReadOnly (spvGrabbing o) := by
  constructor
  intro w
  unfold spvGrabbing
  split
  · exact ⟨rfl, rfl⟩
  · split
    · exact ⟨rfl, rfl⟩
    · split <;> exact ⟨rfl, rfl⟩
    · split
      · exact ⟨rfl, rfl⟩
      · exact ⟨rfl, rfl⟩
      · split <;> exact ⟨rfl, rfl⟩

omit hH in
theorem readOnly_getNode (k : Bytes) : ReadOnly (getNode k) := by
  constructor; intro w; unfold getNode; split <;> exact ⟨rfl, rfl⟩

omit hH in
theorem readOnly_decodeToNode (x : Item) : ReadOnly (decodeToNode x) := by
  unfold decodeToNode
  split
  · exact readOnly_pure _
  · exact readOnly_pure _
  · exact readOnly_bind (readOnly_getNode _) (fun b => readOnly_bind (readOnly_lift _) (fun o =>
      readOnly_bind (readOnly_spv o) (fun _ => readOnly_pure _)))

omit hH in
theorem readOnly_setRootHash (h : Bytes) : ReadOnly (setRootHash H h) := by
  unfold setRootHash
  split
  · split
    · exact readOnly_pure _
    · exact readOnly_decodeToNode _
  · exact readOnly_raise _

/-! ## Single operations -/

omit hH in
theorem shows_update {t : T} {m : Content} (h : Shows t m) (k v : Bytes) (hv : Rlp.fits (.list [.str v]) = true) :
    Shows (t.update (binToNibbles k) (encode (.list [.str v]))) (m.put k (some v)) := by
  refine ⟨?_, ?_, ?_⟩
  · intro b
    rw [T.get_update, Content.put]
    by_cases e : b = k
    · subst e; simp [valEnc]
    · rw [if_neg (fun h => e (binToNibbles_inj h)), if_neg e, h.get]
  · intro q hq
    rw [T.get_update] at hq
    split at hq
    · next e => exact ⟨k, e⟩
    · exact h.keys q hq
  · intro b w hb
    rw [Content.put] at hb
    split at hb
    · cases hb; exact hv
    · exact h.fits b w hb

omit hH in
theorem shows_delete {t : T} (ht : t.WF) {m : Content} (h : Shows t m) (k : Bytes) :
    Shows (t.delete (binToNibbles k)) (m.put k none) := by
  refine ⟨?_, ?_, ?_⟩
  · intro b
    rw [T.get_delete t ht, Content.put]
    by_cases e : b = k
    · subst e; simp [valEnc]
    · rw [if_neg (fun h => e (binToNibbles_inj h)), if_neg e, h.get]
  · intro q hq
    rw [T.get_delete t ht] at hq
    split at hq
    · exact absurd rfl hq
    · exact h.keys q hq
  · intro b w hb
    rw [Content.put] at hb
    split at hb
    · cases hb
    · exact h.fits b w hb

/-- Writing a root. -/
theorem post_replaceRoot {w : World} (hi : Inv H w) (t : T) :
    Post H (replaceRoot H (t.node H)) w (fun _ w' => t.isBlank = true ∨
      (fits (t.node H) = true ∧ w'.kv.get? (H (encode (t.node H))) = some (encode (t.node H)))) := by
  cases hb : t.isBlank with
  | true => rw [T.isBlank_iff.1 hb]; exact Post.pure H hi (.inl rfl)
  | false =>
    obtain ⟨xs, e, -⟩ := node_ne_blank (H := H) hb
    have he : replaceRoot H (t.node H) = (lift (rlpEncode (t.node H)) >>= fun r =>
        putNode H r >>= fun _ => pure ()) := by
      rw [e]
      simp only [replaceRoot, encodeNode, Bool.true_eq_false, and_false, if_false]
      cases h : rlpEncode (.list xs) <;> rfl
    rw [he]
    unfold rlpEncode
    cases hf : fits (t.node H) with
    | false => exact ⟨fun _ h => h, fun _ => rfl⟩
    | true =>
      simp only [if_true, lift_ok_bind]
      exact Post.bind H (post_putNode H hH hi _) (fun _ => mono_pure _)
        (fun _ w' hx hp => Post.pure H hx.inv (.inr ⟨trivial, hp⟩))

omit hH in
theorem mono_replaceRoot (x : Item) : Mono (replaceRoot H x) := by
  unfold replaceRoot; mono

/-- After a write, the new root is this tree. -/
def Becomes (H : Bytes → Bytes) (t : T) (it : Item) (w : World) : Prop :=
  it = t.node H ∧ Rooted H w.kv (H (encode (t.node H))) t

theorem post_finish {m : M Item} {w : World} {t : T} (ht : t.WF) (h : Post H m w (fun it w' => it = t.node H ∧
    Stored H w'.kv t ∧ Held H w'.kv t)) :
    Post H (m >>= fun new => replaceRoot H new >>= fun _ => pure new) w (Becomes H t) := by
  refine Post.bind H h (fun it => mono_bind (mono_replaceRoot it) (fun _ => mono_pure _)) (fun it w' hx hp => ?_)
  obtain ⟨rfl, hs, -⟩ := hp
  refine Post.bind H (post_replaceRoot hH hx.inv t) (fun _ => mono_pure _) (fun _ w'' hx' hp' => ?_)
  exact Post.pure H hx'.inv ⟨rfl, ht, rfl, hs.mono hx'.keep, hp'⟩

theorem post_stateSet {w : World} (hi : Inv H w) {h : Bytes} {t : T} (ht : Rooted H w.kv h t) (k v : Bytes) :
    Post H (stateSet H (t.node H) k v) w (fun it w' => Rlp.fits (.list [.str v]) = true ∧
      Becomes H (t.update (binToNibbles k) (encode (.list [.str v]))) it w') := by
  unfold stateSet rlpEncode
  cases hf : Rlp.fits (.list [.str v]) with
  | false => exact ⟨fun _ h => h, fun _ => rfl⟩
  | true =>
    simp only [if_true, lift_ok_bind]
    have hn := nib_binToNibbles k
    exact Post.weaken H (post_finish hH (T.wf_update t ht.wf _ hn _ (valEnc_some_ne v))
      (update_spec hH _ t _ _ w (Nat.lt_succ_self _) ht.wf hn hi ht.stored)) (fun _ _ _ hp => ⟨trivial, hp⟩)

theorem post_stateRemove {w : World} (hi : Inv H w) {h : Bytes} {t : T} (ht : Rooted H w.kv h t) (k : Bytes) :
    Post H (stateRemove H (t.node H) k) w (Becomes H (t.delete (binToNibbles k))) :=
  post_finish hH (T.wf_delete t ht.wf _)
    (delete_spec hH _ t _ w (Nat.lt_succ_self _) ht.wf (nib_binToNibbles k) hi ht.stored)

/-! ## Roots -/

/-- No two strings hashed collide. -/
def Distinct (H : Bytes → Bytes) (w : World) : Prop :=
  ∀ x ∈ encode blank :: w.written, ∀ y ∈ encode blank :: w.written, H x = H y → x = y

omit hH in
theorem Distinct.noColl {w : World} (h : Distinct H w) : NoColl H w :=
  fun x hx y hy => h x (List.mem_cons_of_mem _ hx) y (List.mem_cons_of_mem _ hy)

omit hH in
theorem Distinct.mono {w w' : World} (hs : w.written ⊆ w'.written) (h : Distinct H w') : Distinct H w :=
  fun x hx y hy => h x (List.cons_subset_cons _ hs hx) y (List.cons_subset_cons _ hs hy)

omit hH in
theorem encode_node_ne {t : T} (hb : t.isBlank = false) (hf : fits (t.node H) = true) :
    encode (t.node H) ≠ encode blank := by
  intro h
  have := encode_inj hf (by rfl) h
  rw [node_blank_iff] at this
  rw [this] at hb; cases hb

theorem Rooted.not_blank {w : World} (hi : Inv H w) (hd : Distinct H w) {h : Bytes} {t : T} (ht : Rooted H w.kv h t)
    (hb : t.isBlank = false) : h ≠ blankRoot H := by
  intro e
  rcases ht.held with hb' | ⟨hf, hg⟩
  · rw [hb] at hb'; cases hb'
  · have := hi.good h _ hg (by rw [e]; exact hH _)
    refine encode_node_ne hb hf (hd _ (List.mem_cons_of_mem _ this.1) _ List.mem_cons_self ?_)
    rw [← this.2, e]; rfl

theorem decode_root {w : World} (hi : Inv H w) {h : Bytes} {t : T} (ht : Rooted H w.kv h t) (hb : t.isBlank = false) :
    decodeToNode (.str h) w = (.ok (t.node H), w) := by
  rcases ht.held with hb' | ⟨hf, hg⟩
  · rw [hb] at hb'; cases hb'
  · have hne : h ≠ [] := by
      intro h0; have := hH (encode (t.node H)); rw [← ht.hash, h0] at this; cases this
    have hd : decodeToNode (.str h) =
        (getNode h >>= fun b => lift (rlpDecode b) >>= fun o => spvGrabbing o >>= fun _ => pure o) := by
      cases h with
      | nil => exact absurd rfl hne
      | cons a l => rfl
    rw [hd]
    have hg' : getNode h w = (.ok (encode (t.node H)), w) := by simp [getNode, hg]
    rw [bind_ok hg']
    have hr : rlpDecode (encode (t.node H)) = .ok (t.node H) := by simp [rlpDecode, decode_encode hf]
    rw [hr, lift_ok_bind]
    have hs : spvGrabbing (t.node H) w = (.ok (), w) := by simp [spvGrabbing, hi.quiet]
    rw [bind_ok hs]
    rfl

/-- Reading a root by its hash. -/
theorem hashToNode_spec {w : World} (hi : Inv H w) (hd : Distinct H w) {h : Bytes} {t : T} (ht : Rooted H w.kv h t) :
    hashToNode H h w = (.ok (t.node H), w) := by
  unfold hashToNode
  cases hb : t.isBlank with
  | true =>
    rw [T.isBlank_iff.1 hb] at ht ⊢
    have e : h = blankRoot H := ht.hash
    rw [if_pos e]; rfl
  | false =>
    rw [if_neg (ht.not_blank hH hi hd hb)]
    exact decode_root hH hi ht hb

theorem setRootHash_spec {w : World} (hi : Inv H w) (hd : Distinct H w) {h : Bytes} {t : T} (ht : Rooted H w.kv h t) :
    setRootHash H h w = (.ok (t.node H), w) := by
  have := hashToNode_spec hH hi hd ht
  unfold setRootHash
  rw [if_pos (.inr (by rw [ht.hash]; exact hH _))]
  exact this

omit hH in
theorem headHash_spec {w : World} (hi : Inv H w) {h : Bytes} {t : T} (ht : Rooted H w.kv h t) :
    headHash H (t.node H) w = (.ok h, w) := by
  rcases ht.held with hb | ⟨hf, -⟩
  · have := T.isBlank_iff.1 hb
    subst this
    rw [ht.hash]; rfl
  · cases hb : t.isBlank with
    | true =>
      have := T.isBlank_iff.1 hb
      subst this
      rw [ht.hash]; rfl
    | false =>
      obtain ⟨xs, e, -⟩ := node_ne_blank (H := H) hb
      have hd : headHash H (t.node H) = (lift (rlpEncode (t.node H)) >>= fun val => spvGrabbing (t.node H) >>= fun _ =>
          pure (H val)) := by rw [e]; rfl
      rw [hd]
      unfold rlpEncode
      rw [if_pos hf, lift_ok_bind]
      have hs : spvGrabbing (t.node H) w = (.ok (), w) := by simp [spvGrabbing, hi.quiet]
      rw [bind_ok hs, ht.hash]; rfl

/-! ## Reading -/

omit hH in
theorem getDecoded_some {v : Bytes} (hv : fits (.list [.str v]) = true) :
    getDecoded (encode (.list [.str v])) = .ok v := by
  simp [getDecoded, decode_encode hv]

theorem read_spec {w : World} (hi : Inv H w) {h : Bytes} {t : T} (ht : Rooted H w.kv h t) {m : Content}
    (hm : Shows t m) (k : Bytes) : (getAt (t.node H) k >>= decodeValue) w = (.ok (m k), w) := by
  have hg : getAt (t.node H) k w = (.ok (.str (t.get (binToNibbles k))), w) :=
    get_spec hH _ t _ w (Nat.lt_succ_self _) ht.wf (nib_binToNibbles k) hi ht.stored
  rw [bind_ok hg, hm.get]
  cases e : m k with
  | none => rfl
  | some v =>
    have hne := valEnc_some_ne v
    have hd : decodeValue (.str (valEnc (some v))) = (lift (getDecoded (valEnc (some v))) >>= fun b => pure (some b)) := by
      generalize valEnc (some v) = x at hne
      cases x with
      | nil => exact absurd rfl hne
      | cons a l => rfl
    rw [hd]
    simp only [valEnc]
    rw [getDecoded_some (hm.fits k v e)]
    rfl

/-! ## The history -/

/-- The current and the committed root are as they should be. -/
structure Here (H : Bytes → Bytes) (w : World) (root : Item) (a : Abs) : Prop where
  inv : Inv H w
  spv : w.spv = {}
  cur : ∃ t, root = t.node H ∧ Rooted H w.kv (H (encode (t.node H))) t ∧ Shows t a.current
  com : ∃ h t, w.kv.get? rootHashKey = some h ∧ Rooted H w.kv h t ∧ Shows t a.committed

/-- So are the roots noted before. -/
structure Past (H : Bytes → Bytes) (kv : Dict Bytes Bytes) (hashes : List Bytes) (past : List Content) : Prop where
  length : hashes.length = past.length
  get : ∀ (i : Nat) (h : Bytes) (m : Content), hashes[i]? = some h → past[i]? = some m → ∃ t, Rooted H kv h t ∧ Shows t m

structure Sess (H : Bytes → Bytes) (s : Session) (a : Abs) : Prop where
  here : Here H s.world s.root a
  past : Past H s.world.kv s.hashes a.past

/-- What an operation does. -/
def Result (H : Bytes → Bytes) (w : World) (r : Except Err Item × World) (a : Abs) : Prop :=
  w.written ⊆ r.2.written ∧ (Distinct H r.2 → match r.1 with
    | .ok root => Keep w.kv r.2.kv ∧ Here H r.2 root a
    | .error e => e = .big)

theorem key_ne (x : Bytes) : rootHashKey ≠ H x := by
  intro h
  have := hH x
  rw [← h] at this; cases this

omit hH in
theorem keep_putRoot {kv : Dict Bytes Bytes} (h : Bytes) : Keep kv (kv.set rootHashKey h) := by
  intro k x hl hx
  rw [Dict.get?_set, if_neg]
  · exact hx
  · rintro rfl; cases hl

omit hH in
theorem inv_putRoot {w : World} (hi : Inv H w) (h : Bytes) : Inv H { w with kv := w.kv.set rootHashKey h } := by
  refine ⟨?_, hi.quiet⟩
  intro k x hx hl
  simp only [Dict.get?_set] at hx
  rw [if_neg (by rintro rfl; cases hl)] at hx
  exact hi.good k x hx hl

omit hH in
theorem Ext.toKeep {w w' : World} (h : Ext H w w') : Keep w.kv w'.kv := fun k x _ hx => h.keep k x hx

/-- Writing keeps the committed root. -/
theorem result_post {w : World} {root : Item} {a a' : Abs} (hh : Here H w root a) {m : M Item}
    {P : Item → World → Prop} (hp : Post H m w P) (hc : a'.committed = a.committed)
    (h : ∀ it w', Ext H w w' → P it w' → ∃ t, it = t.node H ∧ Rooted H w'.kv (H (encode (t.node H))) t ∧
      Shows t a'.current) : Result H w (m w) a' := by
  refine ⟨hp.1, fun hd => ?_⟩
  have h2 := hp.2 hd.noColl
  revert h2
  cases (m w).1 with
  | error e => exact id
  | ok it =>
    rintro ⟨hx, hp'⟩
    refine ⟨hx.toKeep, hx.inv, by rw [hx.spv, hh.spv], h it _ hx hp', ?_⟩
    obtain ⟨hc', t, h1, h2, h3⟩ := hh.com
    exact ⟨hc', t, hx.keep _ _ h1, h2.keep hH hx.toKeep, by rw [hc]; exact h3⟩

/-- Putting nodes, one after the other. -/
theorem putAll_ext (new : List Bytes) : ∀ (w : World), Inv H w → NoColl H (putAll H w new) →
    Ext H w (putAll H w new) := by
  induction new with
  | nil =>
    intro w hi _
    have e : putAll H w [] = w := by simp [putAll]
    rw [e]
    exact Ext.refl H hi
  | cons r l ih =>
    intro w hi hn
    have e : putAll H w (r :: l) = putAll H (putNode H r w).2 l := by
      simp [putAll, putNode]
    rw [e] at hn ⊢
    have hsub : (putNode H r w).2.written ⊆ (putAll H (putNode H r w).2 l).written :=
      fun x hx => List.mem_append_left _ hx
    have h1 := (post_putNode H hH hi r).2 (noColl_sub H hsub hn)
    exact h1.1.trans H (ih _ h1.1.inv hn)

/-- Opening the store. -/
theorem open_spec {w : World} (hi : Inv H w) (hd : Distinct H w) {h : Bytes} {t : T}
    (hk : w.kv.get? rootHashKey = some h) (ht : Rooted H w.kv h t) :
    openState H w = (.ok (t.node H), w) := by
  unfold openState
  rw [hk]
  exact setRootHash_spec hH hi hd ht

omit hH in
theorem openState_written (w : World) : (openState H w).2.written = w.written := by
  unfold openState
  split
  · exact ((readOnly_setRootHash _).same w).2
  · exact ((readOnly_setRootHash (H := H) _).same _).2

theorem result_crash {w : World} {root : Item} {a a' : Abs} (hh : Here H w root a) (m : M Item) (n : Nat)
    (hc : a'.current = a.committed) (hc' : a'.committed = a.committed) : Result H w (crash H m n w) a' := by
  obtain ⟨h, t, h1, h2, h3⟩ := hh.com
  unfold crash
  generalize hn : ((m w).2.written.drop w.written.length).take n = new
  dsimp only
  have hwr := openState_written (H := H)
  refine ⟨?_, fun hd => ?_⟩
  · rw [hwr]; exact fun x hx => List.mem_append_left _ hx
  · have hd' : Distinct H { putAll H w new with spv := {} } := by
      refine Distinct.mono ?_ hd
      rw [hwr]; exact fun x hx => hx
    have hx := putAll_ext hH new w hh.inv hd'.noColl
    have hi : Inv H { putAll H w new with spv := {} } := ⟨hx.inv.good, rfl⟩
    have ht := h2.keep hH hx.toKeep
    have ho := open_spec hH hi hd' (hx.keep _ _ h1) ht
    rw [ho]
    refine ⟨hx.toKeep, hi, rfl, ⟨t, rfl, ?_, by rw [hc]; exact h3⟩, ⟨h, t, hx.keep _ _ h1, ht, by rw [hc']; exact h3⟩⟩
    have := ht.hash
    subst this
    exact ht

theorem result_commit {w : World} {root : Item} {a a' : Abs} (hh : Here H w root a) {h : Bytes} {t : T}
    (ht : Rooted H w.kv h t) (hs : Shows t a'.committed) (hc : a'.current = a.current) :
    Result H w ((putRoot h >>= fun _ => pure root) w) a' := by
  refine ⟨fun x hx => hx, fun hd => ?_⟩
  show Keep _ _ ∧ Here H { w with kv := w.kv.set rootHashKey h } root a'
  have hk := keep_putRoot (kv := w.kv) h
  obtain ⟨t', h1, h2, h3⟩ := hh.cur
  refine ⟨hk, inv_putRoot hh.inv h, hh.spv, ⟨t', h1, h2.keep hH hk, by rw [hc]; exact h3⟩, ⟨h, t, ?_, ht.keep hH hk, hs⟩⟩
  rw [Dict.get?_set, if_pos rfl]

omit hH in
theorem mono_revertToHead (h : Bytes) : Mono (revertToHead H h) := by
  unfold revertToHead hashToNode
  refine mono_bind ?_ (fun _ => mono_bind (mono_replaceRoot _) (fun _ => mono_pure _))
  split
  · exact mono_pure _
  · exact mono_decodeToNode _

theorem result_revert {w : World} {root : Item} {a a' : Abs} (hh : Here H w root a) {h : Bytes} {t : T}
    (ht : Rooted H w.kv h t) (hs : Shows t a'.current) (hc : a'.committed = a.committed) :
    Result H w (revertToHead H h w) a' := by
  have hmono := mono_revertToHead (H := H) h
  refine ⟨hmono.le _, fun hd => ?_⟩
  have hd0 := hd.mono (hmono.le _)
  have hn := hashToNode_spec hH hh.inv hd0 ht
  have e : revertToHead H h w = (replaceRoot H (t.node H) >>= fun _ => pure (t.node H)) w := bind_ok hn
  rw [e] at hd ⊢
  have hp : Post H (replaceRoot H (t.node H) >>= fun _ => pure (t.node H)) w (fun it w' => it = t.node H) :=
    Post.bind H (post_replaceRoot hH hh.inv t) (fun _ => mono_pure _) (fun _ _ hx' _ => Post.pure H hx'.inv rfl)
  refine (result_post hH hh (a' := a') hp hc ?_).2 hd
  rintro it w' hx' rfl
  have := ht.hash
  subst this
  exact ⟨t, rfl, ht.keep hH hx'.toKeep, hs⟩

/-- Each operation does what it should. -/
theorem act_spec {s : Session} {a : Abs} (hs : Sess H s a) (op : Op)
    (hx : ∀ i h, op = .commitAt i → s.hashes[i]? = some h → isHex h = false)
    (hidx : ∀ i, op = .commitAt i ∨ op = .revertTo i → i < s.hashes.length) :
    Result H s.world (act H s op s.world) (a.apply op) := by
  have hh := hs.here
  obtain ⟨t, hroot, ht, hsh⟩ := hh.cur
  cases op with
  | set k v =>
    simp only [act, hroot]
    refine result_post hH hh (post_stateSet hH hh.inv ht k v) rfl ?_
    rintro it w' - ⟨hf, hb⟩
    exact ⟨_, hb.1, hb.2, shows_update hsh k v hf⟩
  | remove k =>
    simp only [act, hroot]
    refine result_post hH hh (post_stateRemove hH hh.inv ht k) rfl ?_
    rintro it w' - hb
    exact ⟨_, hb.1, hb.2, shows_delete ht.wf hsh k⟩
  | commit =>
    have e : act H s .commit s.world = (putRoot (H (encode (t.node H))) >>= fun _ => pure s.root) s.world := by
      show ((headHash H s.root >>= fun h => putRoot h) >>= fun _ => pure s.root) s.world = _
      have h1 := headHash_spec hh.inv ht
      rw [← hroot] at h1 ⊢
      have h2 : (headHash H s.root >>= fun h => putRoot h) s.world =
          (.ok (), { s.world with kv := s.world.kv.set rootHashKey (H (encode s.root)) }) := bind_ok h1
      rw [bind_ok h2]; rfl
    rw [e]
    exact result_commit hH hh ht hsh rfl
  | commitAt i =>
    have hi := hidx i (.inl rfl)
    obtain ⟨h, hh1⟩ : ∃ h, s.hashes[i]? = some h := ⟨_, List.getElem?_eq_getElem hi⟩
    obtain ⟨m, hm⟩ : ∃ m, a.past[i]? = some m := ⟨_, List.getElem?_eq_getElem (by rw [← hs.past.length]; exact hi)⟩
    obtain ⟨t', h1, h2⟩ := hs.past.get i h m hh1 hm
    have hne : h ≠ [] := by intro h0; have := hH (encode (t'.node H)); rw [← h1.hash, h0] at this; cases this
    have e : act H s (.commitAt i) = (putRoot h >>= fun _ => pure s.root) := by
      simp only [act, hh1]
      have : commit H s.root (some h) = putRoot h := by
        unfold commit
        cases h with
        | nil => exact absurd rfl hne
        | cons b l => simp [hx i (b :: l) rfl hh1]
      rw [this]
    rw [e]
    exact result_commit hH hh h1 (by simp only [Abs.apply, hm, Option.getD_some]; exact h2) rfl
  | revertTo i =>
    have hi := hidx i (.inr rfl)
    obtain ⟨h, hh1⟩ : ∃ h, s.hashes[i]? = some h := ⟨_, List.getElem?_eq_getElem hi⟩
    obtain ⟨m, hm⟩ : ∃ m, a.past[i]? = some m := ⟨_, List.getElem?_eq_getElem (by rw [← hs.past.length]; exact hi)⟩
    obtain ⟨t', h1, h2⟩ := hs.past.get i h m hh1 hm
    simp only [act, hh1]
    exact result_revert hH hh h1 (by simp only [Abs.apply, hm, Option.getD_some]; exact h2) rfl
  | revertToCommitted =>
    obtain ⟨h, t', h0, h1, h2⟩ := hh.com
    have e : act H s .revertToCommitted s.world = revertToHead H h s.world := by
      have : committedHeadHash s.world = (.ok h, s.world) := by simp [committedHeadHash, getNode, h0]
      exact bind_ok this
    rw [e]
    exact result_revert hH hh h1 h2 rfl
  | reopen =>
    have := result_crash hH hh (pure s.root) 0 (a' := a.apply .reopen) rfl rfl
    have e : crash H (pure s.root) 0 s.world = act H s .reopen s.world := by
      simp [crash, act, putAll]
    rw [← e]; exact this
  | crashSet k v n => exact result_crash hH hh _ n rfl rfl
  | crashRemove k n => exact result_crash hH hh _ n rfl rfl

/-! ## Runs -/

omit hH in
theorem mono_readOnly {α : Type} {m : M α} (h : ReadOnly m) : Mono m :=
  ⟨fun w x hx => by rw [(h.same w).2]; exact hx⟩

omit hH in
theorem mono_putRoot (h : Bytes) : Mono (putRoot h) := ⟨fun _ _ hx => hx⟩

omit hH in
theorem mono_headHash (x : Item) : Mono (headHash H x) := by
  unfold headHash getRootHash
  split
  · exact mono_pure _
  · exact mono_raise _
  · exact mono_bind (mono_lift _) (fun _ => mono_bind (mono_spv _) (fun _ => mono_pure _))

omit hH in
theorem mono_crash (m : M Item) (n : Nat) : Mono (crash H m n) :=
  ⟨fun w x hx => by
    unfold crash
    dsimp only
    rw [openState_written]
    exact List.mem_append_left _ hx⟩

omit hH in
theorem mono_act (s : Session) (op : Op) : Mono (act H s op) := by
  cases op with
  | set k v =>
    unfold act stateSet trieUpdate
    exact mono_bind (mono_lift _) (fun _ => mono_bind (mono_update _ _ _ _ _) (fun _ =>
      mono_bind (mono_replaceRoot _) (fun _ => mono_pure _)))
  | remove k =>
    unfold act stateRemove trieDelete
    exact mono_bind (mono_delete _ _ _ _) (fun _ => mono_bind (mono_replaceRoot _) (fun _ => mono_pure _))
  | commit =>
    unfold act commit
    exact mono_bind (mono_bind (mono_headHash _) (fun _ => mono_putRoot _)) (fun _ => mono_pure _)
  | commitAt i =>
    simp only [act]
    split
    · refine mono_bind ?_ (fun _ => mono_pure _)
      unfold commit
      split
      · split
        · exact mono_bind (mono_lift _) (fun _ => mono_putRoot _)
        · exact mono_putRoot _
      · exact mono_bind (mono_headHash _) (fun _ => mono_putRoot _)
    · exact mono_raise _
  | revertTo i =>
    simp only [act]
    split
    · exact mono_revertToHead _
    · exact mono_raise _
  | revertToCommitted => exact mono_bind (mono_getNode _) (fun _ => mono_revertToHead _)
  | reopen =>
    refine ⟨fun w x hx => ?_⟩
    show x ∈ (openState H _).2.written
    rw [openState_written]; exact hx
  | crashSet k v n => exact mono_crash _ n
  | crashRemove k n => exact mono_crash _ n

omit hH in
/-- A step that succeeds, in parts. -/
theorem step_ok {s s' : Session} {op : Op} (h : s.step H op = .ok s') :
    ∃ root h w1, act H s op s.world = (.ok root, w1) ∧ headHash H root w1 = (.ok h, s'.world) ∧ s'.root = root ∧
      s'.hashes = s.hashes ++ [h] := by
  unfold Session.step at h
  cases e : act H s op s.world with
  | mk r w1 =>
    cases r with
    | error x => rw [bind_error e] at h; cases h
    | ok root =>
      rw [bind_ok e] at h
      cases e2 : headHash H root w1 with
      | mk r2 w2 =>
        cases r2 with
        | error x => rw [bind_error e2] at h; cases h
        | ok hd =>
          rw [bind_ok e2] at h
          cases h
          exact ⟨root, hd, w1, rfl, e2, rfl, rfl⟩

omit hH in
theorem step_mono {s s' : Session} {op : Op} (h : s.step H op = .ok s') : s.world.written ⊆ s'.world.written := by
  obtain ⟨root, hd, w1, h1, h2, -, -⟩ := step_ok h
  have m1 := (mono_act (H := H) s op).le s.world
  have m2 := (mono_headHash (H := H) root).le w1
  rw [h1] at m1
  rw [h2] at m2
  exact fun x hx => m2 (m1 hx)

omit hH in
theorem step_index {s s' : Session} {op : Op} (h : s.step H op = .ok s') (i : Nat)
    (hop : op = .commitAt i ∨ op = .revertTo i) : i < s.hashes.length := by
  obtain ⟨root, hd, w1, h1, -⟩ := step_ok h
  cases e : s.hashes[i]? with
  | some x => exact (List.getElem?_eq_some_iff.1 e).1
  | none =>
    rcases hop with rfl | rfl
    · simp only [act, e] at h1; cases h1
    · simp only [act, e] at h1; cases h1

theorem sess_step {s s' : Session} {a : Abs} (hs : Sess H s a) {op : Op} (h : s.step H op = .ok s')
    (hd : Distinct H s'.world) (hx : ∀ i h, op = .commitAt i → s.hashes[i]? = some h → isHex h = false) :
    Sess H s' (a.step op) := by
  have hr := act_spec hH hs op hx (step_index h)
  obtain ⟨root, hd', w1, h1, h2, rfl, h4⟩ := step_ok h
  rw [h1] at hr
  have m2 := (mono_headHash (H := H) s'.root).le w1
  rw [h2] at m2
  obtain ⟨hk, hh⟩ := hr.2 (hd.mono m2)
  obtain ⟨t, ht1, ht2, ht3⟩ := hh.cur
  have h5 := headHash_spec hh.inv ht2
  rw [← ht1, h2] at h5
  have hw : s'.world = w1 := (Prod.mk.inj h5).2
  have hd2 : hd' = H (encode s'.root) := Except.ok.inj (Prod.mk.inj h5).1
  refine ⟨⟨?_, ?_, ?_, ?_⟩, ?_, ?_⟩
  · rw [hw]; exact hh.inv
  · rw [hw]; exact hh.spv
  · rw [hw]; exact hh.cur
  · rw [hw]; exact hh.com
  · rw [h4]; simp only [Abs.step, List.length_append, List.length_cons, List.length_nil]
    rw [hs.past.length]
  · intro i h m hi hm
    rw [h4] at hi
    simp only [Abs.step] at hm
    rw [hw]
    by_cases e : i < s.hashes.length
    · rw [List.getElem?_append_left e] at hi
      rw [List.getElem?_append_left (by rw [← hs.past.length]; exact e)] at hm
      obtain ⟨t', k1, k2⟩ := hs.past.get i h m hi hm
      exact ⟨t', k1.keep hH hk, k2⟩
    · rw [List.getElem?_append_right (by omega)] at hi
      rw [List.getElem?_append_right (by rw [← hs.past.length]; omega)] at hm
      have hi0 : i - s.hashes.length = 0 := by
        cases hq : i - s.hashes.length with
        | zero => rfl
        | succ n => rw [hq] at hi; cases hi
      rw [hi0] at hi
      rw [← hs.past.length, hi0] at hm
      cases hi; cases hm
      refine ⟨t, ?_, ht3⟩
      rw [hd2, ht1]; exact ht2

theorem init_eq : Session.init H =
    .ok ⟨{ kv := [(rootHashKey, blankRoot H)] }, blank, [blankRoot H]⟩ := by
  have e : openState H {} = (.ok blank, { kv := [(rootHashKey, blankRoot H)] }) := by
    show setRootHash H (blankRoot H) _ = _
    unfold setRootHash
    rw [if_pos (.inr (hH _)), if_pos rfl]; rfl
  unfold Session.init
  rw [bind_ok e]; rfl

theorem sess_init {s : Session} (h : Session.init H = .ok s) : Sess H s Abs.init := by
  rw [init_eq hH] at h
  cases h
  refine ⟨⟨⟨?_, rfl⟩, rfl, ⟨.blank, rfl, rooted_blank _, shows_blank⟩, ⟨blankRoot H, .blank, ?_, rooted_blank _, shows_blank⟩⟩,
    rfl, ?_⟩
  · intro k x hx hl
    rw [Dict.get?_cons] at hx
    rw [if_neg] at hx
    · cases hx
    · rintro rfl; cases hl
  · rw [Dict.get?_cons, if_pos rfl]
  · intro i h m hi hm
    cases i with
    | succ n => cases hi
    | zero => cases hi; cases hm; exact ⟨.blank, rooted_blank _, shows_blank⟩

omit hH in
theorem runFrom_mono : ∀ (ops : List Op) (s s' : Session), Session.runFrom H (.ok s) ops = .ok s' →
    s.world.written ⊆ s'.world.written ∧ s.hashes <+: s'.hashes
  | [], s, s', h => by cases h; exact ⟨fun _ h => h, List.prefix_refl _⟩
  | op :: ops, s, s', h => by
    rw [Session.runFrom] at h
    cases e : s.step H op with
    | error x => rw [e] at h; cases ops <;> cases h
    | ok s1 =>
      rw [e] at h
      have := runFrom_mono ops s1 s' h
      obtain ⟨_, hd, _, _, _, _, h4⟩ := step_ok e
      exact ⟨fun x hx => this.1 (step_mono e hx), List.IsPrefix.trans ⟨[hd], h4.symm⟩ this.2⟩

/-- The hashes passed to `commit` are not made of hexadecimal digits only. -/
def NoHex (s : Session) (ops : List Op) : Prop :=
  ∀ i, Op.commitAt i ∈ ops → ∀ h, s.hashes[i]? = some h → isHex h = false

theorem sess_runFrom : ∀ (ops : List Op) (s s' : Session) (a : Abs), Session.runFrom H (.ok s) ops = .ok s' →
    Sess H s a → Distinct H s'.world → NoHex s' ops → Sess H s' (ops.foldl Abs.step a)
  | [], s, s', a, h, hs, _, _ => by cases h; exact hs
  | op :: ops, s, s', a, h, hs, hd, hx => by
    have hp := (runFrom_mono _ s s' h).2
    rw [Session.runFrom] at h
    cases e : s.step H op with
    | error x => rw [e] at h; cases ops <;> cases h
    | ok s1 =>
      rw [e] at h
      refine sess_runFrom ops s1 s' _ h (sess_step hH hs e (hd.mono (runFrom_mono ops s1 s' h).1) ?_) hd
        (fun i hi => hx i (List.mem_cons_of_mem _ hi))
      rintro i hh rfl hi
      refine hx i List.mem_cons_self hh ?_
      obtain ⟨l, hl⟩ := hp
      rw [← hl, List.getElem?_append_left (List.getElem?_eq_some_iff.1 hi).1]
      exact hi

theorem sess_run {ops : List Op} {s : Session} (h : Session.run H ops = .ok s) (hd : Distinct H s.world)
    (hx : NoHex s ops) : Sess H s (Abs.run ops) := by
  unfold Session.run at h
  cases e : Session.init H with
  | error x => rw [e] at h; cases ops <;> cases h
  | ok s0 =>
    rw [e] at h
    exact sess_runFrom hH ops s0 s _ h (sess_init hH e) hd hx

/-! ## Hashes determine trees -/

section
variable {w1 w2 : World} (hi1 : Inv H w1) (hi2 : Inv H w2)
  (hc : ∀ x ∈ w1.written, ∀ y ∈ w2.written, H x = H y → x = y)
include hi1 hi2 hc

theorem refOf_inj {t1 t2 : T} (h1 : Held H w1.kv t1) (h2 : Held H w2.kv t2)
    (h : refOf H (t1.node H) = refOf H (t2.node H)) : t1.node H = t2.node H := by
  have hne : ∀ x, Item.str (H x) ≠ blank := by
    intro x e
    have := hH x
    rw [Item.str.inj e] at this; cases this
  cases hb1 : t1.isBlank with
  | true =>
    have e1 := T.isBlank_iff.1 hb1
    subst e1
    cases hb2 : t2.isBlank with
    | true => rw [T.isBlank_iff.1 hb2]
    | false =>
      rw [refOf_blank, refOf_ne hb2] at h
      split at h
      · obtain ⟨xs, e, -⟩ := node_ne_blank (H := H) hb2
        rw [e] at h; cases h
      · exact absurd h.symm (hne _)
  | false =>
    rw [refOf_ne hb1] at h
    obtain ⟨xs, ex, -⟩ := node_ne_blank (H := H) hb1
    cases hb2 : t2.isBlank with
    | true =>
      have e2 := T.isBlank_iff.1 hb2
      subst e2
      rw [refOf_blank] at h
      split at h
      · rw [ex] at h; cases h
      · exact absurd h (hne _)
    | false =>
      rw [refOf_ne hb2] at h
      obtain ⟨ys, ey, -⟩ := node_ne_blank (H := H) hb2
      by_cases l1 : (encode (t1.node H)).length < 32
      · rw [if_pos l1] at h
        by_cases l2 : (encode (t2.node H)).length < 32
        · rw [if_pos l2] at h; exact h
        · rw [if_neg l2, ex] at h; cases h
      · rw [if_neg l1] at h
        by_cases l2 : (encode (t2.node H)).length < 32
        · rw [if_pos l2, ey] at h; cases h
        · rw [if_neg l2] at h
          rcases h1 with h1 | h1 | ⟨f1, g1⟩
          · rw [hb1] at h1; cases h1
          · exact absurd h1 l1
          · rcases h2 with h2 | h2 | ⟨f2, g2⟩
            · rw [hb2] at h2; cases h2
            · exact absurd h2 l2
            · exact encode_inj f1 f2 (hc _ (hi1.good _ _ g1 (hH _)).1 _ (hi2.good _ _ g2 (hH _)).1 (Item.str.inj h))

theorem node_inj (t1 : T) : ∀ t2 : T, t1.WF → t2.WF → Stored H w1.kv t1 → Stored H w2.kv t2 →
    t1.node H = t2.node H → t1 = t2 := by
  induction t1 with
  | blank =>
    intro t2 _ _ _ _ h
    exact (T.isBlank_iff.1 (node_blank_iff.1 h.symm)).symm
  | leaf c v =>
    intro t2 wf1 wf2 _ _ h
    cases t2 with
    | blank => cases h
    | leaf c' v' =>
      simp only [T.node, Item.list.injEq, List.cons.injEq, Item.str.injEq, and_true] at h
      rw [(hexPrefix_inj wf1.1 wf2.1 h.1).1, h.2]
    | ext c' t' =>
      simp only [T.node, Item.list.injEq, List.cons.injEq, Item.str.injEq, and_true] at h
      have := (hexPrefix_inj wf1.1 wf2.2.1 h.1).2
      cases this
    | branch f v' =>
      have := congrArg (fun x => match x with | Item.list l => l.length | _ => 0) h
      simp [T.node] at this
  | ext c t ih =>
    intro t2 wf1 wf2 s1 s2 h
    cases t2 with
    | blank => cases h
    | leaf c' v' =>
      simp only [T.node, Item.list.injEq, List.cons.injEq, Item.str.injEq, and_true] at h
      have := (hexPrefix_inj wf1.2.1 wf2.1 h.1).2
      cases this
    | ext c' t' =>
      simp only [T.node, Item.list.injEq, List.cons.injEq, Item.str.injEq, and_true] at h
      rw [(hexPrefix_inj wf1.2.1 wf2.2.1 h.1).1]
      rw [ih t' wf1.2.2.2 wf2.2.2.2 s1.2 s2.2 (refOf_inj hH hi1 hi2 hc s1.1 s2.1 h.2)]
    | branch f v' =>
      have := congrArg (fun x => match x with | Item.list l => l.length | _ => 0) h
      simp [T.node] at this
  | branch f v ih =>
    intro t2 wf1 wf2 s1 s2 h
    cases t2 with
    | blank => cases h
    | leaf c' v' =>
      have := congrArg (fun x => match x with | Item.list l => l.length | _ => 0) h
      simp [T.node] at this
    | ext c' t' =>
      have := congrArg (fun x => match x with | Item.list l => l.length | _ => 0) h
      simp [T.node] at this
    | branch g v' =>
      have hv : v = v' := by
        have h1 := slot_branch_16 (H := H) (f := f) (v := v)
        rw [h, slot_branch_16] at h1
        injection h1 with h1
        injection h1 with h1
        exact h1.symm
      have hf : f = g := by
        funext i
        by_cases hi : i < 16
        · have h1 := slot_branch (H := H) (f := f) (v := v) hi
          rw [h, slot_branch hi] at h1
          injection h1 with h1
          exact ih i (g i) (wf1.1 i) (wf2.1 i) (s1 i hi).2 (s2 i hi).2
            (refOf_inj hH hi1 hi2 hc (s1 i hi).1 (s2 i hi).1 h1.symm)
        · rw [wf1.2.1 i (by omega), wf2.2.1 i (by omega)]
      rw [hv, hf]
end

omit hH in
/-- Trees with the same content are the same. -/
theorem shows_canonical {t1 t2 : T} (h1 : t1.WF) (h2 : t2.WF) {m : Content} (s1 : Shows t1 m) (s2 : Shows t2 m) :
    t1 = t2 := by
  refine T.canonical t1 t2 h1 h2 (fun k => ?_)
  by_cases e : t1.get k = []
  · by_cases e2 : t2.get k = []
    · rw [e, e2]
    · obtain ⟨b, rfl⟩ := s2.keys k e2
      rw [s1.get, s2.get]
  · obtain ⟨b, rfl⟩ := s1.keys k e
    rw [s1.get, s2.get]

omit hH in
theorem valEnc_inj {a b : Option Bytes} (ha : ∀ v, a = some v → fits (.list [.str v]) = true)
    (hb : ∀ v, b = some v → fits (.list [.str v]) = true) (h : valEnc a = valEnc b) : a = b := by
  cases a with
  | none =>
    cases b with
    | none => rfl
    | some v => exact absurd h.symm (valEnc_some_ne v)
  | some u =>
    cases b with
    | none => exact absurd h (valEnc_some_ne u)
    | some v =>
      have := encode_inj (ha u rfl) (hb v rfl) h
      injection this with this
      injection this with this
      injection this with this
      rw [this]

omit hH in
theorem shows_unique {t : T} {m1 m2 : Content} (s1 : Shows t m1) (s2 : Shows t m2) : m1 = m2 := by
  funext b
  exact valEnc_inj (s1.fits b) (s2.fits b) (by rw [← s1.get, ← s2.get])

end Verif.Trie
