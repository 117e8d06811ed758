import Verif.Model.Trie
/-!
# Reasoning about computations that write nodes

`Post m w P`: run from `w`, the computation only adds to the list of written encodings, and unless two of them collide
it ends with `P`, or raises because a payload is too long.
-/
namespace Verif.Trie
open Verif.Rlp

theorem bind_ok {α β : Type} {m : M α} {f : α → M β} {w w' : World} {a : α} (h : m w = (.ok a, w')) :
    (m >>= f) w = f a w' := by
  show (match m w with | (.ok a, w') => f a w' | (.error e, w') => (.error e, w')) = _
  rw [h]

theorem bind_error {α β : Type} {m : M α} {f : α → M β} {w w' : World} {e : Err} (h : m w = (.error e, w')) :
    (m >>= f) w = (.error e, w') := by
  show (match m w with | (.ok a, w') => f a w' | (.error e, w') => (.error e, w')) = _
  rw [h]

@[simp] theorem lift_ok_bind {α β : Type} (a : α) (f : α → M β) : (lift (.ok a) >>= f) = f a := rfl
@[simp] theorem lift_error_bind {α β : Type} (e : Err) (f : α → M β) : (lift (.error e) >>= f) = raise e := rfl
@[simp] theorem pure_bind' {α β : Type} (a : α) (f : α → M β) : ((pure a : M α) >>= f) = f a := rfl
@[simp] theorem raise_bind {α β : Type} (e : Err) (f : α → M β) : ((raise e : M α) >>= f) = raise e := rfl
theorem bind_pure' {α : Type} (m : M α) : (m >>= pure) = m := by
  funext w
  show (match m w with | (.ok a, w') => _ | (.error e, w') => _) = _
  cases h : m w with
  | mk r w' => cases r <;> rfl

/-! ## Only adding -/

structure Mono {α : Type} (m : M α) : Prop where
  le : ∀ w, w.written ⊆ (m w).2.written

theorem mono_pure {α : Type} (a : α) : Mono (pure a : M α) := ⟨fun _ _ h => h⟩
theorem mono_lift {α : Type} (x : Except Err α) : Mono (lift x) := ⟨fun _ _ h => h⟩
theorem mono_raise {α : Type} (e : Err) : Mono (raise e : M α) := ⟨fun _ _ h => h⟩

theorem mono_bind {α β : Type} {m : M α} {f : α → M β} (hm : Mono m) (hf : ∀ a, Mono (f a)) : Mono (m >>= f) := by
  constructor
  intro w x hx
  have h1 := hm.le w hx
  cases h : m w with
  | mk r w' =>
    rw [h] at h1
    cases r with
    | ok a => rw [bind_ok h]; exact (hf a).le w' h1
    | error e => rw [bind_error h]; exact h1

theorem mono_spv (x : Item) : Mono (spvGrabbing x) := by
  constructor
  intro w
  unfold spvGrabbing
  split
  · exact fun _ h => h
  · split
    · exact fun _ h => h
    · split <;> exact fun _ h => h
    · split
      · exact fun _ h => h
      · exact fun _ h => h
      · split <;> exact fun _ h => h

theorem mono_getNode (k : Bytes) : Mono (getNode k) := by
  constructor; intro w; unfold getNode; split <;> exact fun _ h => h

theorem mono_decodeToNode (x : Item) : Mono (decodeToNode x) := by
  unfold decodeToNode
  split
  · exact mono_pure _
  · exact mono_pure _
  · exact mono_bind (mono_getNode _) (fun b => mono_bind (mono_lift _) (fun o => mono_bind (mono_spv o)
      (fun _ => mono_pure _)))

variable (H : Bytes → Bytes)

theorem mono_putNode (b : Bytes) : Mono (putNode H b) := by
  constructor; intro w x hx; exact List.mem_append_left _ hx

theorem mono_encodeNode (x : Item) (r : Bool) : Mono (encodeNode H x r) := by
  unfold encodeNode
  split
  · exact mono_pure _
  · refine mono_bind (mono_lift _) (fun b => ?_)
    split
    · exact mono_pure _
    · exact mono_bind (mono_putNode H b) (fun _ => mono_pure _)

/-- Closes `Mono` goals built from the pieces above. -/
macro "mono" : tactic => `(tactic|
  repeat first
    | with_reducible exact mono_pure _
    | with_reducible exact mono_lift _
    | with_reducible exact mono_raise _
    | with_reducible exact mono_encodeNode _ _ _
    | with_reducible exact mono_decodeToNode _
    | with_reducible apply mono_bind
    | (intro _)
    | dsimp only
    | split)

theorem mono_finishKv (c : List Nat) (p : Nat) (n : Item) (e : Bool) : Mono (finishKv H c p n e) := by
  unfold finishKv; mono

theorem mono_oldSide (i : Bool) (c : Nat) (r : List Nat) (o : Item) : Mono (oldSide H i c r o) := by
  unfold oldSide; mono

theorem mono_update (f : Nat) (x : Item) (k : List Nat) (v : Bytes) : Mono (update H f x k v) := by
  induction f generalizing x k with
  | zero => exact mono_raise _
  | succ f ih =>
    unfold update
    repeat first
      | with_reducible exact ih _ _
      | with_reducible exact mono_finishKv _ _ _ _ _
      | with_reducible exact mono_oldSide _ _ _ _ _
      | with_reducible exact mono_pure _
      | with_reducible exact mono_lift _
      | with_reducible exact mono_raise _
      | with_reducible exact mono_encodeNode _ _ _
      | with_reducible exact mono_decodeToNode _
      | with_reducible apply mono_bind
      | (intro _)
      | dsimp only
      | split

theorem mono_normalize (x : Item) : Mono (normalize H x) := by
  unfold normalize; mono

theorem mono_delete (f : Nat) (x : Item) (k : List Nat) : Mono (delete H f x k) := by
  induction f generalizing x k with
  | zero => exact mono_raise _
  | succ f ih =>
    unfold delete
    repeat first
      | with_reducible exact ih _ _
      | with_reducible exact mono_normalize _ _
      | with_reducible exact mono_pure _
      | with_reducible exact mono_lift _
      | with_reducible exact mono_raise _
      | with_reducible exact mono_encodeNode _ _ _
      | with_reducible exact mono_decodeToNode _
      | with_reducible apply mono_bind
      | (intro _)
      | dsimp only
      | split

/-! ## What holds afterwards -/

/-- No two encodings written collide. -/
def NoColl (w : World) : Prop := ∀ x ∈ w.written, ∀ y ∈ w.written, H x = H y → x = y

/-- Nodes stand in the store under their hash. -/
def Good (w : World) : Prop := ∀ h x, w.kv.get? h = some x → h.length = 32 → x ∈ w.written ∧ h = H x

/-- What a world must satisfy: the store is right and no proof is being made. -/
structure Inv (w : World) : Prop where
  good : Good H w
  quiet : w.spv.proving = false

/-- `w'` has all of `w`. -/
structure Ext (w w' : World) : Prop where
  inv : Inv H w'
  keep : ∀ h x, w.kv.get? h = some x → w'.kv.get? h = some x
  written : w.written ⊆ w'.written
  spv : w'.spv = w.spv

theorem Ext.refl {w : World} (h : Inv H w) : Ext H w w := ⟨h, fun _ _ h => h, fun _ h => h, rfl⟩
theorem Ext.trans {a b c : World} (h1 : Ext H a b) (h2 : Ext H b c) : Ext H a c :=
  ⟨h2.inv, fun h x hx => h2.keep h x (h1.keep h x hx), fun _ hx => h2.written (h1.written hx), by rw [h2.spv, h1.spv]⟩

def Post {α : Type} (m : M α) (w : World) (P : α → World → Prop) : Prop :=
  w.written ⊆ (m w).2.written ∧
  (NoColl H (m w).2 → match (m w).1 with
    | .ok a => Ext H w (m w).2 ∧ P a (m w).2
    | .error e => e = .big)

theorem noColl_sub {w w' : World} (h : w.written ⊆ w'.written) (hn : NoColl H w') : NoColl H w :=
  fun x hx y hy e => hn x (h hx) y (h hy) e

theorem Post.bind {α β : Type} {m : M α} {f : α → M β} {w : World} {P : α → World → Prop} {Q : β → World → Prop}
    (hm : Post H m w P) (hf : ∀ a, Mono (f a)) (h : ∀ a w', Ext H w w' → P a w' → Post H (f a) w' Q) :
    Post H (m >>= f) w Q := by
  obtain ⟨h1, h2⟩ := hm
  cases e : m w with
  | mk r w' =>
    rw [e] at h1 h2
    cases r with
    | error e' =>
      refine ⟨by rw [bind_error e]; exact h1, ?_⟩
      rw [bind_error e]
      exact h2
    | ok a =>
      refine ⟨by rw [bind_ok e]; exact fun x hx => (hf a).le w' (h1 hx), ?_⟩
      rw [bind_ok e]
      intro hn
      obtain ⟨h3, h4⟩ := h2 (noColl_sub H ((hf a).le w') hn)
      have h5 := (h a w' h3 h4).2 hn
      revert h5
      cases (f a w').1 with
      | error e' => exact id
      | ok b => exact fun h5 => ⟨h3.trans H h5.1, h5.2⟩

theorem Post.pure {α : Type} {a : α} {w : World} {P : α → World → Prop} (hi : Inv H w) (h : P a w) :
    Post H (pure a : M α) w P := ⟨fun _ h => h, fun _ => ⟨Ext.refl H hi, h⟩⟩

theorem Post.weaken {α : Type} {m : M α} {w : World} {P Q : α → World → Prop} (h : Post H m w P)
    (hq : ∀ a w', Ext H w w' → P a w' → Q a w') : Post H m w Q := by
  refine ⟨h.1, fun hn => ?_⟩
  have := h.2 hn
  revert this
  cases (m w).1 with
  | error e => exact id
  | ok a => exact fun h => ⟨h.1, hq _ _ h.1 h.2⟩

variable (hH : ∀ x, (H x).length = 32)
include hH

/-- Writing a node. -/
theorem post_putNode {w : World} (hi : Inv H w) (b : Bytes) :
    Post H (putNode H b) w (fun _ w' => w'.kv.get? (H b) = some b) := by
  refine ⟨(mono_putNode H b).le w, fun hn => ?_⟩
  show Ext H w _ ∧ _
  refine ⟨⟨⟨?_, hi.quiet⟩, ?_, fun x hx => List.mem_append_left _ hx, rfl⟩, ?_⟩
  · intro h x hx hl
    simp only [putNode, Dict.get?_set] at hx
    split at hx
    · next e => cases hx; exact ⟨List.mem_append_right _ (List.mem_singleton.2 rfl), e.symm⟩
    · have := hi.good h x hx hl
      exact ⟨List.mem_append_left _ this.1, this.2⟩
  · intro h x hx
    simp only [putNode, Dict.get?_set]
    split
    · next e =>
      have := hi.good h x hx (by rw [← e]; exact hH b)
      rw [hn b (List.mem_append_right _ (List.mem_singleton.2 rfl)) x (List.mem_append_left _ this.1)
        (by rw [e]; exact this.2)]
    · exact hx
  · simp [putNode, Dict.get?_set]

end Verif.Trie
