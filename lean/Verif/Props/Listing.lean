import Verif.Spec.Listing
import Verif.Proofs.Listing
import Verif.Props.StateProof
/-!
# C103: listing the state

Histories, hashes and collisions are as for C11. `f` is the depth of recursion allowed; two levels for each byte of the
longest key are enough.
-/
namespace Verif.Props
open Verif.Rlp Verif.Trie Verif.Spec.State

variable {H : Bytes → Bytes} (hH : ∀ x, (H x).length = 32)
include hH

/-- Every content has a longest key, so the bounds below can always be met. -/
theorem C103_finite {ops : List Op} {s : Session} (h : Session.run H ops = .ok s) (hx : NoHex s ops) :
    ((∃ n, (Abs.run ops).current.Within n) ∧ ∀ (i : Nat) (m : Content), (Abs.run ops).past[i]? = some m → ∃ n, m.Within n) ∨
      Spec.Collision H s.hashed s.hashed := by
  by_cases hc : Spec.Collision H s.hashed s.hashed
  · exact .inr hc
  · left
    have hs := sess_run hH h (distinct_of_no_collision hc) hx
    obtain ⟨t, -, ht, hm⟩ := hs.here.cur
    refine ⟨content_bounded ht.wf hm, fun i m hi => ?_⟩
    have l1 : i < s.hashes.length := by rw [hs.past.length]; exact (List.getElem?_eq_some_iff.1 hi).1
    obtain ⟨t, ht, hm⟩ := hs.past.get i _ m (List.getElem?_eq_getElem l1) hi
    exact content_bounded ht.wf hm

/-- **C103.** After every history, listing the current state gives each of its keys once with its value, and nothing
else; listing changes nothing. -/
theorem C103_as_dict {ops : List Op} {s : Session} (h : Session.run H ops = .ok s) (hx : NoHex s ops) {n f : Nat}
    (hn : (Abs.run ops).current.Within n) (hf : 2 * n < f) :
    (∃ d, asDict f s.root s.world = (.ok d, s.world) ∧ Complete id (Abs.run ops).current d) ∨
      Spec.Collision H s.hashed s.hashed := by
  by_cases hc : Spec.Collision H s.hashed s.hashed
  · exact .inr hc
  · left
    have hs := sess_run hH h (distinct_of_no_collision hc) hx
    obtain ⟨t, e, ht, hm⟩ := hs.here.cur
    obtain ⟨d, r, h1, -, h3, h4, h5⟩ := list_node hH hs.here.inv ht hm (f := f) (by omega)
      (fun b v hb => by have := hn b v hb; omega)
    obtain ⟨r', g1, g2, g3⟩ := decodeValues_spec hm.fits r h4 (fun k x hk => by rw [← h5]; exact hk)
    refine ⟨r', ?_, by rw [g2]; exact h4, fun k => ?_⟩
    · unfold asDict toDict
      rw [e]
      have e1 : (toDictNode f (orRoot (t.node H) none) >>= fun d => lift (toBin [] d [])) s.world = (.ok r, s.world) := by
        rw [show orRoot (t.node H) none = t.node H from rfl, bind_ok h1, h3]; rfl
      rw [bind_ok e1, g1]
      rfl
    · rw [g3]
      unfold Dict.has
      rw [h5]
      cases (Abs.run ops).current k <;> rfl

/-- **C103.** The length of the trie is the number of its keys. -/
theorem C103_len {ops : List Op} {s : Session} (h : Session.run H ops = .ok s) (hx : NoHex s ops) {n f : Nat}
    (hn : (Abs.run ops).current.Within n) (hf : 2 * n < f) (d : Dict Bytes Bytes)
    (hd : Complete id (Abs.run ops).current d) :
    getSize f s.root s.world = (.ok d.length, s.world) ∨ Spec.Collision H s.hashed s.hashed := by
  by_cases hc : Spec.Collision H s.hashed s.hashed
  · exact .inr hc
  · left
    have hs := sess_run hH h (distinct_of_no_collision hc) hx
    obtain ⟨t, e, ht, hm⟩ := hs.here.cur
    rw [e, getSize_spec hH f t _ (by omega)
      (keys_bounded hm (fun b v hb => by have := hn b v hb; omega)) ht.wf hs.here.inv ht.stored]
    rw [paths_length ht.wf hm hd.1 (fun b => ?_)]
    rw [Dict.mem_keys]
    have := hd.2 b
    rw [this]
    cases (Abs.run ops).current b <;> simp

/-- **C103**, except for the root hash of the empty state. Listing by a root hash noted on the way gives the content of
that moment, whatever the current state is. -/
theorem C103_leaves_partial {ops : List Op} {s : Session} (h : Session.run H ops = .ok s) (hx : NoHex s ops) (i : Nat)
    (r : Bytes) (hi : s.hashes[i]? = some r) (m : Content) (hm : (Abs.run ops).past[i]? = some m) {n f : Nat}
    (hn : m.Within n) (hf : 2 * n < f) (hr : r ≠ blankRoot H) :
    (∃ d, allLeaves H f s.root r s.world = (.ok d, s.world) ∧ Complete leafForm m d) ∨
      Spec.Collision H s.hashed s.hashed := by
  by_cases hc : Spec.Collision H s.hashed s.hashed
  · exact .inr hc
  · left
    have hd := distinct_of_no_collision hc
    have hs := sess_run hH h hd hx
    obtain ⟨t, ht, hsh⟩ := hs.past.get i r m hi hm
    have hb : t.isBlank = false := by
      cases hb : t.isBlank with
      | false => rfl
      | true =>
        rw [T.isBlank_iff.1 hb] at ht
        exact absurd ht.hash hr
    obtain ⟨d, r', h1, -, h3, h4, h5⟩ := list_node hH hs.here.inv ht hsh (f := f) (by omega)
      (fun b v hb => by have := hn b v hb; omega)
    refine ⟨r', ?_, h4, h5⟩
    unfold allLeaves toDict
    rw [bind_ok (hashToNode_spec hH hs.here.inv hd ht)]
    have ho : orRoot s.root (some (t.node H)) = t.node H := by
      obtain ⟨xs, e, hne⟩ := node_ne_blank (H := H) hb
      rw [e]
      cases xs with
      | nil => exact absurd rfl hne
      | cons a l => rfl
    rw [ho, bind_ok h1, h3]
    rfl

/-- **C103**, where the code falls short. Listing by the root hash of the empty state gives the content of the current
state, with what is not committed. -/
theorem C103_blank_leaves {ops : List Op} {s : Session} (h : Session.run H ops = .ok s) (hx : NoHex s ops) {n f : Nat}
    (hn : (Abs.run ops).current.Within n) (hf : 2 * n < f) :
    (∃ d, allLeaves H f s.root (blankRoot H) s.world = (.ok d, s.world) ∧ Complete leafForm (Abs.run ops).current d) ∨
      Spec.Collision H s.hashed s.hashed := by
  by_cases hc : Spec.Collision H s.hashed s.hashed
  · exact .inr hc
  · left
    have hs := sess_run hH h (distinct_of_no_collision hc) hx
    obtain ⟨t, e, ht, hm⟩ := hs.here.cur
    obtain ⟨d, r, h1, -, h3, h4, h5⟩ := list_node hH hs.here.inv ht hm (f := f) (by omega)
      (fun b v hb => by have := hn b v hb; omega)
    refine ⟨r, ?_, h4, h5⟩
    unfold allLeaves toDict
    have e1 : hashToNode H (blankRoot H) s.world = (.ok blank, s.world) := by
      unfold hashToNode
      rw [if_pos rfl]
      rfl
    rw [bind_ok e1]
    have ho : orRoot s.root (some blank) = t.node H := by rw [e]; rfl
    rw [ho, bind_ok h1, h3]
    rfl

/-- **C103.** Listing the keys with a prefix gives exactly those, with their values, and changes nothing. The proof that
comes with it convinces every verifier of all of them, and of the absence of every other key with the prefix, in
whatever order its nodes are listed. -/
theorem C103_prefix {ops : List Op} {s : Session} (h : Session.run H ops = .ok s) (hx : NoHex s ops) (p : Bytes)
    {n f : Nat} (hn : (Abs.run ops).current.Within n) (hf : 2 * n < f) :
    (∃ r ns d, headHash H s.root s.world = (.ok r, s.world) ∧
      generatePrefixProof f s.root p s.world = (.ok (ns, d), s.world) ∧
      Complete leafForm ((Abs.run ops).current.below p) d ∧
      ∀ (ns' : List Item), (∀ x, x ∈ ns' ↔ x ∈ ns) → ∀ (keys : List Bytes), (∀ k ∈ keys, p <+: k) → ∀ w, w.spv = {} →
        verifyStateProofMulti H r (keys.map (fun k => (k, (Abs.run ops).current k))) ns' w = (.ok true, w)) ∨
      Spec.Collision H s.hashed s.hashed := by
  by_cases hc : Spec.Collision H s.hashed s.hashed
  · exact .inr hc
  · left
    have hd := distinct_of_no_collision hc
    have hs := sess_run hH h hd hx
    obtain ⟨t, e, ht, hm⟩ := hs.here.cur
    obtain ⟨ns, d, h1, h2, h3, h4⟩ := prefix_spec' hH ht hs.here.spv hm p (f := f) (by omega)
      (fun b v hb => by have := hn b v hb; omega)
    have ho := last_ok (H := H) t _ (nib_binToNibbles p) ht.wf ht.stored
    refine ⟨_, ns, d, by rw [e]; exact headHash_spec hs.here.inv ht, by rw [e]; exact h1, ⟨h3, fun k => ?_⟩, ?_⟩
    · rw [h4]
      unfold Content.below
      by_cases hp : p <+: k
      · simp only [hp, decide_true, if_true]; rfl
      · simp only [hp, decide_false, Bool.false_eq_true, if_false, Option.map_none]
    · intro ns' hns keys hkeys w hw
      have hfit : fits (t.node H) = true ∧ encode (t.node H) ∈ encode blank :: s.world.written := by
        rcases ht.held with hb | ⟨hf, hg⟩
        · rw [T.isBlank_iff.1 hb]; exact ⟨rfl, List.mem_cons_self⟩
        · exact ⟨hf, List.mem_cons_of_mem _ (hs.here.inv.good _ _ hg (hH _)).1⟩
      obtain ⟨w', h5, -, -, h6⟩ := verifyMulti_complete hH hs.here.inv hd ht (keys := keys) (ns := ns')
        (by
          intro x hx
          rcases (h2 x).1 ((hns x).1 hx) with ⟨hf, he⟩ | h
          · refine ⟨hf, List.mem_cons_of_mem _ ?_⟩
            have hget : s.world.kv.get? (H (encode x)) = some (encode x) := by
              rcases List.mem_append.1 he with he | he
              · obtain ⟨_, _, _, h⟩ := ho.held _ he; exact h
              · exact quiet_all ho.stored _ he
            exact (hs.here.inv.good _ _ hget (hH _)).1
          · rw [h]; exact hfit)
        ((hns _).2 ((h2 _).2 (.inr rfl)))
        (by
          intro k hk e' he
          obtain ⟨q, hq⟩ := (prefix_nibbles p k).2 (hkeys k hk)
          have hnib := nib_binToNibbles k
          rw [hq] at he hnib
          have hin := ho.path q hnib he
          have hx : ∃ x, fits x = true ∧ e' = encode x ∧ s.world.kv.get? (H e') = some e' := by
            rcases List.mem_append.1 hin with h | h
            · exact ho.held _ h
            · exact all_held _ ho.stored _ h
          obtain ⟨x, x1, x2, -⟩ := hx
          exact ⟨x, (hns x).2 ((h2 x).2 (.inl ⟨x1, by rw [← x2]; exact hin⟩)), x2⟩) w
      have hev : ∀ l : List Bytes, encodeValues (l.map (fun k => (k, (Abs.run ops).current k))) =
          .ok (l.map (fun k => (k, t.get (binToNibbles k)))) := by
        intro l
        induction l with
        | nil => rfl
        | cons k l ih =>
          have hv : encodeValue ((Abs.run ops).current k) = .ok (t.get (binToNibbles k)) := by
            rw [hm.get]
            cases hk : (Abs.run ops).current k with
            | none => rfl
            | some u => simp only [encodeValue, rlpEncode, hm.fits k u hk, if_true, valEnc]
          simp only [List.map_cons, encodeValues, hv, ih]
      unfold verifyStateProofMulti
      rw [hev, lift_ok_bind]
      rw [h5, h6 hw]

/-! ## Cases that meet the hypotheses -/

omit hH

/-- Keys that are prefixes of each other, values above and below 32 bytes. The listings are these, the empty prefix and
prefixes that end inside a path included; the root hash of the empty state lists the current one. -/
def sampleListing : Bool :=
  match Session.run trieHash (sampleOps.take 7) with
  | .ok s =>
    decide (¬ Spec.Collision trieHash s.hashed s.hashed) &&
    decide ((asDict 5 s.root s.world).1.toOption = some [([0x12, 0x34], List.replicate 40 7), ([0x12, 0x35], [2]),
      ([0x52, 0x34], List.replicate 33 9), ([], [3])]) &&
    decide ((getSize 5 s.root s.world).1.toOption = some 4) &&
    decide ((generatePrefixProof 5 s.root [0x12] s.world).1.toOption.map (fun p => p.2.keys) =
      some [[0x12, 0x34], [0x12, 0x35]]) &&
    decide ((generatePrefixProof 5 s.root [] s.world).1.toOption.map (fun p => p.2.keys.length) = some 4) &&
    decide ((generatePrefixProof 5 s.root [0x52] s.world).1.toOption.map (fun p => p.2.keys) = some [[0x52, 0x34]]) &&
    decide ((generatePrefixProof 5 s.root [0x13] s.world).1.toOption.map (fun p => p.2.keys) = some []) &&
    decide (s.hashes[0]? = some (blankRoot trieHash)) &&
    decide ((allLeaves trieHash 5 s.root (blankRoot trieHash) s.world).1.toOption.map Dict.keys =
      some [[0x12, 0x34], [0x12, 0x35], [0x52, 0x34], []]) &&
    (match s.hashes[2]? with
    | some r => decide (r ≠ blankRoot trieHash) &&
        decide ((allLeaves trieHash 5 s.root r s.world).1.toOption.map Dict.keys = some [[0x12, 0x34], [0x12]])
    | none => false)
  | .error _ => false

example : sampleListing = true := by decide +kernel

/-- The keys of that history have at most two bytes. -/
example : (Abs.run (sampleOps.take 7)).current.Within 2 := by
  intro k v h
  simp only [sampleOps, List.take, Abs.run, List.foldl, Abs.step, Abs.apply, Abs.init, Content.put] at h
  repeat (split at h; · (next e => subst e; decide))
  cases h

end Verif.Props
