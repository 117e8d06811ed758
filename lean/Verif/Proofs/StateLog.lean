import Verif.Proofs.State
/-!
# All writes of an operation are in the list of written encodings

So cutting that list short is cutting the operation short.
-/
namespace Verif.Trie
open Verif.Rlp Verif.Spec.State

variable (H : Bytes → Bytes)

structure Logged {α : Type} (m : M α) : Prop where
  log : ∀ w, ∃ new, (m w).2.kv = (putAll H w new).kv ∧ (m w).2.written = w.written ++ new

theorem logged_readOnly {α : Type} {m : M α} (h : ReadOnly m) : Logged H m :=
  ⟨fun w => ⟨[], by rw [(h.same w).1]; rfl, by rw [(h.same w).2]; simp⟩⟩

theorem logged_pure {α : Type} (a : α) : Logged H (pure a : M α) := logged_readOnly H (readOnly_pure a)
theorem logged_lift {α : Type} (x : Except Err α) : Logged H (lift x) := logged_readOnly H (readOnly_lift x)
theorem logged_raise {α : Type} (e : Err) : Logged H (raise e : M α) := logged_readOnly H (readOnly_raise e)
theorem logged_decodeToNode (x : Item) : Logged H (decodeToNode x) := logged_readOnly H (readOnly_decodeToNode x)

theorem logged_bind {α β : Type} {m : M α} {f : α → M β} (hm : Logged H m) (hf : ∀ a, Logged H (f a)) :
    Logged H (m >>= f) := by
  constructor
  intro w
  obtain ⟨n1, k1, l1⟩ := hm.log w
  cases h : m w with
  | mk r w' =>
    rw [h] at k1 l1
    cases r with
    | error e => rw [bind_error h]; exact ⟨n1, k1, l1⟩
    | ok a =>
      rw [bind_ok h]
      obtain ⟨n2, k2, l2⟩ := (hf a).log w'
      refine ⟨n1 ++ n2, ?_, by rw [l2, l1, List.append_assoc]⟩
      rw [k2]
      simp only [putAll, List.foldl_append] at k1 ⊢
      rw [k1]

theorem logged_putNode (b : Bytes) : Logged H (putNode H b) := ⟨fun _ => ⟨[b], rfl, rfl⟩⟩

theorem logged_encodeNode (x : Item) (r : Bool) : Logged H (encodeNode H x r) := by
  unfold encodeNode
  split
  · exact logged_pure H _
  · refine logged_bind H (logged_lift H _) (fun b => ?_)
    split
    · exact logged_pure H _
    · exact logged_bind H (logged_putNode H b) (fun _ => logged_pure H _)

macro "logged" : tactic => `(tactic|
  repeat first
    | with_reducible exact logged_pure _ _
    | with_reducible exact logged_lift _ _
    | with_reducible exact logged_raise _ _
    | with_reducible exact logged_encodeNode _ _ _
    | with_reducible exact logged_decodeToNode _ _
    | with_reducible apply logged_bind
    | (intro _)
    | dsimp only
    | split)

theorem logged_finishKv (c : List Nat) (p : Nat) (n : Item) (e : Bool) : Logged H (finishKv H c p n e) := by
  unfold finishKv; logged

theorem logged_oldSide (i : Bool) (c : Nat) (r : List Nat) (o : Item) : Logged H (oldSide H i c r o) := by
  unfold oldSide; logged

theorem logged_update (f : Nat) (x : Item) (k : List Nat) (v : Bytes) : Logged H (update H f x k v) := by
  induction f generalizing x k with
  | zero => exact logged_raise H _
  | succ f ih =>
    unfold update
    repeat first
      | with_reducible exact ih _ _
      | with_reducible exact logged_finishKv _ _ _ _ _
      | with_reducible exact logged_oldSide _ _ _ _ _
      | with_reducible exact logged_pure _ _
      | with_reducible exact logged_lift _ _
      | with_reducible exact logged_raise _ _
      | with_reducible exact logged_encodeNode _ _ _
      | with_reducible exact logged_decodeToNode _ _
      | with_reducible apply logged_bind
      | (intro _)
      | dsimp only
      | split

theorem logged_normalize (x : Item) : Logged H (normalize H x) := by
  unfold normalize; logged

theorem logged_delete (f : Nat) (x : Item) (k : List Nat) : Logged H (delete H f x k) := by
  induction f generalizing x k with
  | zero => exact logged_raise H _
  | succ f ih =>
    unfold delete
    repeat first
      | with_reducible exact ih _ _
      | with_reducible exact logged_normalize _ _
      | with_reducible exact logged_pure _ _
      | with_reducible exact logged_lift _ _
      | with_reducible exact logged_raise _ _
      | with_reducible exact logged_encodeNode _ _ _
      | with_reducible exact logged_decodeToNode _ _
      | with_reducible apply logged_bind
      | (intro _)
      | dsimp only
      | split

theorem logged_replaceRoot (x : Item) : Logged H (replaceRoot H x) := by
  unfold replaceRoot; logged

theorem logged_stateSet (root : Item) (k v : Bytes) : Logged H (stateSet H root k v) :=
  logged_bind H (logged_lift H _) (fun _ => logged_bind H (logged_update H _ _ _ _) (fun _ =>
    logged_bind H (logged_replaceRoot H _) (fun _ => logged_pure H _)))

theorem logged_stateRemove (root : Item) (k : Bytes) : Logged H (stateRemove H root k) :=
  logged_bind H (logged_delete H _ _ _) (fun _ =>
    logged_bind H (logged_replaceRoot H _) (fun _ => logged_pure H _))

theorem Logged.kv {α : Type} {m : M α} (h : Logged H m) (w : World) :
    (m w).2.kv = (putAll H w ((m w).2.written.drop w.written.length)).kv := by
  obtain ⟨new, h1, h2⟩ := h.log w
  rw [h1, h2, List.drop_left]

end Verif.Trie
