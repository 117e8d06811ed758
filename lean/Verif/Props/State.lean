import Verif.Proofs.State
import Verif.Proofs.StateLog
import Verif.Spec.Merkle
/-!
# C11, C12, C14: the state is a map, its root hash stands for its content, commits and reverts are exact

A history is a list of operations on a store that was empty at first (`Verif.Spec.State`), among them restarts and
operations cut short by a crash. `H` is any function to 32 bytes. The conclusions hold unless two different strings
among those hashed in the session have the same hash.

`NoHex`: `commit(rootHash)` takes a hash made of ASCII hexadecimal digits only for a hexadecimal one, so the hashes
passed must not be such (`hex_hash_commit_lost`).
-/
namespace Verif.Props
open Verif.Rlp Verif.Trie Verif.Spec.State

variable {H : Bytes → Bytes} (hH : ∀ x, (H x).length = 32)
include hH

omit hH in
theorem distinct_of_no_collision {s : Session} (h : ¬ Spec.Collision H s.hashed s.hashed) : Distinct H s.world := by
  intro x hx y hy e
  by_cases hxy : x = y
  · exact hxy
  · exact absurd ⟨x, hx, y, hy, hxy, e⟩ h

/-- **C11.** Whatever the history, reading a key returns the value last set for it and not removed since, and nothing
for other keys; reading changes nothing. -/
theorem state_is_a_map {ops : List Op} {s : Session} (h : Session.run H ops = .ok s) (hx : NoHex s ops) (k : Bytes) :
    stateGet H s.root k false s.world = (.ok ((Abs.run ops).current k), s.world) ∨
      Spec.Collision H s.hashed s.hashed := by
  by_cases hc : Spec.Collision H s.hashed s.hashed
  · exact .inr hc
  · left
    have hs := sess_run hH h (distinct_of_no_collision hc) hx
    obtain ⟨t, e, ht, hm⟩ := hs.here.cur
    rw [e]
    exact read_spec hH hs.here.inv ht hm k

/-- **C14.** Reading the committed state returns the value as of the last commit, whatever followed. -/
theorem committed_reads {ops : List Op} {s : Session} (h : Session.run H ops = .ok s) (hx : NoHex s ops) (k : Bytes) :
    stateGet H s.root k true s.world = (.ok ((Abs.run ops).committed k), s.world) ∨
      Spec.Collision H s.hashed s.hashed := by
  by_cases hc : Spec.Collision H s.hashed s.hashed
  · exact .inr hc
  · left
    have hd := distinct_of_no_collision hc
    have hs := sess_run hH h hd hx
    obtain ⟨r, t, hr, ht, hm⟩ := hs.here.com
    have e1 : committedHeadHash s.world = (.ok r, s.world) := by simp [committedHeadHash, getNode, hr]
    unfold stateGet
    rw [if_neg (by simp), bind_ok e1, bind_ok (hashToNode_spec hH hs.here.inv hd ht)]
    exact read_spec hH hs.here.inv ht hm k

/-- **C14.** Every root hash noted on the way still gives the whole content of that moment. -/
theorem past_reads {ops : List Op} {s : Session} (h : Session.run H ops = .ok s) (hx : NoHex s ops) (i : Nat) (r : Bytes)
    (hi : s.hashes[i]? = some r) (k : Bytes) :
    (∃ m, (Abs.run ops).past[i]? = some m ∧ getForRootHash H r k s.world = (.ok (m k), s.world)) ∨
      Spec.Collision H s.hashed s.hashed := by
  by_cases hc : Spec.Collision H s.hashed s.hashed
  · exact .inr hc
  · left
    have hd := distinct_of_no_collision hc
    have hs := sess_run hH h hd hx
    have hlt := (List.getElem?_eq_some_iff.1 hi).1
    rw [hs.past.length] at hlt
    have hm := List.getElem?_eq_getElem hlt
    obtain ⟨t, ht, hsh⟩ := hs.past.get i r _ hi hm
    refine ⟨_, hm, ?_⟩
    unfold getForRootHash
    rw [bind_ok (hashToNode_spec hH hs.here.inv hd ht)]
    exact read_spec hH hs.here.inv ht hsh k

/-- The root hash of the state is the one noted last. -/
theorem head_hash_noted {ops : List Op} {s : Session} (h : Session.run H ops = .ok s) (hx : NoHex s ops) :
    (∃ r, headHash H s.root s.world = (.ok r, s.world) ∧ s.hashes.getLast? = some r ∧
      (Abs.run ops).past.getLast? = some (Abs.run ops).current) ∨ Spec.Collision H s.hashed s.hashed := by
  by_cases hc : Spec.Collision H s.hashed s.hashed
  · exact .inr hc
  · left
    have hd := distinct_of_no_collision hc
    have hs := sess_run hH h hd hx
    obtain ⟨t, e, ht, hm⟩ := hs.here.cur
    have hlast : ∀ (ops : List Op) (a : Abs), a.past.getLast? = some a.current →
        (ops.foldl Abs.step a).past.getLast? = some (ops.foldl Abs.step a).current := by
      intro ops
      induction ops with
      | nil => exact fun _ h => h
      | cons op ops ih => intro a _; exact ih _ (by simp [Abs.step])
    have hA : (Abs.run ops).past.getLast? = some (Abs.run ops).current := hlast ops Abs.init rfl
    have hlen := hs.past.length
    cases hp : s.hashes.getLast? with
    | none =>
      rw [List.getLast?_eq_none_iff] at hp
      rw [hp] at hlen
      rw [List.eq_nil_of_length_eq_zero hlen.symm] at hA
      cases hA
    | some r =>
      have h1 : s.hashes[s.hashes.length - 1]? = some r := by rw [← List.getLast?_eq_getElem?]; exact hp
      have h2 : (Abs.run ops).past[s.hashes.length - 1]? = some (Abs.run ops).current := by
        rw [hlen, ← List.getLast?_eq_getElem?]; exact hA
      obtain ⟨t', ht', hm'⟩ := hs.past.get _ _ _ h1 h2
      have htt := shows_canonical ht.wf ht'.wf hm hm'
      subst htt
      refine ⟨r, ?_, rfl, hA⟩
      rw [e, ht'.hash]
      exact headHash_spec hs.here.inv ht

/-- **C12.** Two histories, on two nodes: wherever the contents are the same, so are the root hashes. -/
theorem same_content_same_root {ops ops' : List Op} {s s' : Session} (h : Session.run H ops = .ok s)
    (h' : Session.run H ops' = .ok s') (hx : NoHex s ops) (hx' : NoHex s' ops') (i j : Nat) (m : Content)
    (hi : (Abs.run ops).past[i]? = some m) (hj : (Abs.run ops').past[j]? = some m) :
    (∃ r, s.hashes[i]? = some r ∧ s'.hashes[j]? = some r) ∨
      Spec.Collision H s.hashed s.hashed ∨ Spec.Collision H s'.hashed s'.hashed := by
  by_cases hc : Spec.Collision H s.hashed s.hashed
  · exact .inr (.inl hc)
  · by_cases hc' : Spec.Collision H s'.hashed s'.hashed
    · exact .inr (.inr hc')
    · left
      have hs := sess_run hH h (distinct_of_no_collision hc) hx
      have hs' := sess_run hH h' (distinct_of_no_collision hc') hx'
      have l1 : i < s.hashes.length := by rw [hs.past.length]; exact (List.getElem?_eq_some_iff.1 hi).1
      have l2 : j < s'.hashes.length := by rw [hs'.past.length]; exact (List.getElem?_eq_some_iff.1 hj).1
      obtain ⟨t, ht, hm⟩ := hs.past.get i _ m (List.getElem?_eq_getElem l1) hi
      obtain ⟨t', ht', hm'⟩ := hs'.past.get j _ m (List.getElem?_eq_getElem l2) hj
      have htt := shows_canonical ht.wf ht'.wf hm hm'
      subst htt
      refine ⟨_, List.getElem?_eq_getElem l1, ?_⟩
      rw [List.getElem?_eq_getElem l2, ht.hash, ht'.hash]

/-- **C12.** The other way round: the same root hash means the same content. -/
theorem same_root_same_content {ops ops' : List Op} {s s' : Session} (h : Session.run H ops = .ok s)
    (h' : Session.run H ops' = .ok s') (hx : NoHex s ops) (hx' : NoHex s' ops') (i j : Nat) (r : Bytes)
    (hi : s.hashes[i]? = some r) (hj : s'.hashes[j]? = some r) :
    (∃ m, (Abs.run ops).past[i]? = some m ∧ (Abs.run ops').past[j]? = some m) ∨
      Spec.Collision H (s.hashed ++ s'.hashed) (s.hashed ++ s'.hashed) := by
  by_cases hc : Spec.Collision H (s.hashed ++ s'.hashed) (s.hashed ++ s'.hashed)
  · exact .inr hc
  · left
    have hall : ∀ x ∈ s.hashed ++ s'.hashed, ∀ y ∈ s.hashed ++ s'.hashed, H x = H y → x = y := by
      intro x hx y hy e
      by_cases hxy : x = y
      · exact hxy
      · exact absurd ⟨x, hx, y, hy, hxy, e⟩ hc
    have hd : Distinct H s.world := fun x hx y hy => hall x (List.mem_append_left _ hx) y (List.mem_append_left _ hy)
    have hd' : Distinct H s'.world := fun x hx y hy => hall x (List.mem_append_right _ hx) y (List.mem_append_right _ hy)
    have hcross : ∀ x ∈ s.hashed, ∀ y ∈ s'.hashed, H x = H y → x = y :=
      fun x hx y hy => hall x (List.mem_append_left _ hx) y (List.mem_append_right _ hy)
    have hs := sess_run hH h hd hx
    have hs' := sess_run hH h' hd' hx'
    have l1 : i < (Abs.run ops).past.length := by rw [← hs.past.length]; exact (List.getElem?_eq_some_iff.1 hi).1
    have l2 : j < (Abs.run ops').past.length := by rw [← hs'.past.length]; exact (List.getElem?_eq_some_iff.1 hj).1
    obtain ⟨t, ht, hm⟩ := hs.past.get i r _ hi (List.getElem?_eq_getElem l1)
    obtain ⟨t', ht', hm'⟩ := hs'.past.get j r _ hj (List.getElem?_eq_getElem l2)
    have hroot : ∀ {s : Session} {a : Abs} {t : T} {r : Bytes}, Sess H s a → Rooted H s.world.kv r t →
        encode (t.node H) ∈ s.hashed ∧ fits (t.node H) = true := by
      intro s a t r hs ht
      rcases ht.held with hb | ⟨hf, hg⟩
      · rw [T.isBlank_iff.1 hb]; exact ⟨List.mem_cons_self, rfl⟩
      · exact ⟨List.mem_cons_of_mem _ (hs.here.inv.good _ _ hg (by rw [ht.hash]; exact hH _)).1, hf⟩
    obtain ⟨e1, f1⟩ := hroot hs ht
    obtain ⟨e2, f2⟩ := hroot hs' ht'
    have henc := hcross _ e1 _ e2 (by rw [← ht.hash, ← ht'.hash])
    have hnode := encode_inj f1 f2 henc
    have htt := node_inj hH hs.here.inv hs'.here.inv
      (fun x hx y hy => hcross x (List.mem_cons_of_mem _ hx) y (List.mem_cons_of_mem _ hy)) t t' ht.wf ht'.wf
      ht.stored ht'.stored hnode
    subst htt
    refine ⟨_, List.getElem?_eq_getElem l1, ?_⟩
    rw [List.getElem?_eq_getElem l2, shows_unique hm hm']

/-- **C11, C14.** No operation fails after any history, except for a payload of 2^64 bytes or more. -/
theorem state_operation_succeeds {ops : List Op} {s : Session} (h : Session.run H ops = .ok s) (hx : NoHex s ops)
    (op : Op) (hop : NoHex s [op]) (hidx : ∀ i, op = .commitAt i ∨ op = .revertTo i → i < s.hashes.length) (e : Err)
    (he : (act H s op s.world).1 = .error e) :
    e = .big ∨ Spec.Collision H (encode blank :: (act H s op s.world).2.written)
      (encode blank :: (act H s op s.world).2.written) := by
  by_cases hc : Spec.Collision H (encode blank :: (act H s op s.world).2.written)
      (encode blank :: (act H s op s.world).2.written)
  · exact .inr hc
  · left
    have hd : Distinct H (act H s op s.world).2 := by
      intro x hx y hy e
      by_cases hxy : x = y
      · exact hxy
      · exact absurd ⟨x, hx, y, hy, hxy, e⟩ hc
    have hs := sess_run hH h (hd.mono ((mono_act (H := H) s op).le _)) hx
    have hr := (act_spec hH hs op (fun i h e hi => hop i (by rw [e]; exact List.mem_singleton.2 rfl) h hi) hidx).2 hd
    rw [he] at hr
    exact hr

omit hH in
/-- The crash of the specification is that of the code: the list that it cuts short has all that the operation puts
into the store, in order. -/
theorem crash_cuts_writes (root : Item) (k v : Bytes) (w : World) :
    (stateSet H root k v w).2.kv =
      (putAll H w ((stateSet H root k v w).2.written.drop w.written.length)).kv ∧
    (stateRemove H root k w).2.kv =
      (putAll H w ((stateRemove H root k w).2.written.drop w.written.length)).kv :=
  ⟨(logged_stateSet H root k v).kv H w, (logged_stateRemove H root k).kv H w⟩

/-! ## A case that meets the hypotheses -/

omit hH

/-- A function to 32 bytes, for examples. -/
def trieHash (x : Bytes) : Bytes :=
  let n := x.foldl (fun a b => (a * 263 + b.toNat + 1) % 2 ^ 240) 7
  (List.range 30).map (fun i => UInt8.ofNat (n / 256 ^ i % 256)) ++ [1, 2]

theorem trieHash_length (x : Bytes) : (trieHash x).length = 32 := by simp [trieHash]

/-- Keys that are prefixes of each other, values above and below 32 bytes, deletions that merge nodes, a commit, a
revert to a noted root, a crash in the middle of a write, a restart. -/
def sampleOps : List Op :=
  [.set [0x12, 0x34] (List.replicate 40 7), .set [0x12] [1], .set [0x12, 0x35] [2], .set [] [3], .commit,
   .remove [0x12], .set [0x52, 0x34] (List.replicate 33 9), .revertTo 3, .set [0x13] [], .crashSet [0x14] [8] 1,
   .remove [0x12, 0x34], .remove [0x12, 0x35], .commitAt 2, .remove [], .reopen, .set [0x77] [4], .revertToCommitted]

instance (H : Bytes → Bytes) (S T : List Bytes) : Decidable (Spec.Collision H S T) :=
  inferInstanceAs (Decidable (∃ x ∈ S, ∃ y ∈ T, x ≠ y ∧ H x = H y))

/-- The history runs, its hypotheses hold, and the contents are these. -/
def sampleHolds : Bool :=
  match Session.run trieHash sampleOps with
  | .ok s =>
    decide (¬ Spec.Collision trieHash s.hashed s.hashed) && s.hashes.all (fun h => !isHex h) &&
      decide (s.hashes.length = 18) && decide (12 ≤ s.world.written.length) &&
      decide ([[0x12, 0x34], [0x12], [0x12, 0x35], [], [0x77], [0x14]].map (Abs.run sampleOps).current =
        [some (List.replicate 40 7), some [1], none, none, none, none]) &&
      decide ((stateGet trieHash s.root [0x12] false s.world).1.toOption = some (some [1]))
  | .error _ => false

example : sampleHolds = true := by decide +kernel

/-! ## The hypothesis on hashes is needed -/

/-- Another function to 32 bytes, all of them hexadecimal digits. -/
def hexHash (x : Bytes) : Bytes :=
  let n := x.foldl (fun a b => (a * 263 + b.toNat + 1) % 16 ^ 32) 7
  (List.range 32).map (fun i => UInt8.ofNat (48 + n / 8 ^ i % 8))

/-- A root hash made of hexadecimal digits passed to `commit` is taken for the hexadecimal form of another: the
committed state can no longer be read, and the store can no longer be opened. -/
def hexLost : Bool :=
  match Session.run hexHash [.set [1] [2], .commitAt 1] with
  | .ok s =>
    decide (¬ Spec.Collision hexHash s.hashed s.hashed) &&
      decide ((stateGet hexHash s.root [1] false s.world).1.toOption = some (some [2])) &&
      (match (stateGet hexHash s.root [1] true s.world).1 with
        | .error e => e = .key
        | .ok _ => false) &&
      (match (openState hexHash s.world).1 with
        | .error e => e = .type
        | .ok _ => false)
  | .error _ => false

theorem hex_hash_commit_lost : (∀ x, (hexHash x).length = 32) ∧ hexLost = true :=
  ⟨fun x => by simp [hexHash], by decide +kernel⟩

end Verif.Props
