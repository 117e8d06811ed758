import Verif.Proofs.StateProof
import Verif.Props.State
/-!
# C13: state proofs

The prover is a state after any history. The verifier is any process; `w` is what it has in memory. The proof nodes are
arbitrary values.
-/
namespace Verif.Props
open Verif.Rlp Verif.Trie Verif.Spec.State

variable {H : Bytes → Bytes} (hH : ∀ x, (H x).length = 32)
include hH

theorem verify_spv_sound {ops : List Op} {s : Session} (h : Session.run H ops = .ok s) (hx : NoHex s ops) (i : Nat)
    (r : Bytes) (hi : s.hashes[i]? = some r) (m : Content) (hm : (Abs.run ops).past[i]? = some m)
    (hc : ¬ Spec.Collision H s.hashed s.hashed) (key : Bytes) (value : Option Bytes) (ns : List Item)
    (hc' : ¬ Spec.Collision H s.hashed (encode blank :: ns.map encode)) (v : Bytes) (hv : encodeValue value = .ok v)
    (w : World) (ha : (verifySpvProof H r key v ns w).1 = .ok true) : m key = value := by
  have hs := sess_run hH h (distinct_of_no_collision hc) hx
  obtain ⟨t, ht, hsh⟩ := hs.past.get i r m hi hm
  have hcross : ∀ x ∈ encode blank :: s.world.written, ∀ y ∈ encode blank :: ns.map encode, H x = H y → x = y := by
    intro x hx y hy e
    by_cases hxy : x = y
    · exact hxy
    · exact absurd ⟨x, hx, y, hy, hxy, e⟩ hc'
  unfold verifySpvProof at ha
  cases e : pushVerifying ns w with
  | mk res w1 =>
    cases res with
    | error x => rw [bind_error e] at ha; cases ha
    | ok encs =>
      rw [bind_ok e] at ha
      have henc : encs = ns.map encode := by
        unfold pushVerifying at e
        cases e2 : encodeEach ns with
        | error x => rw [e2] at e; cases e
        | ok es => rw [e2] at e; cases e; exact encodeEach_ok ns encs e2
      subst henc
      have := tryVerify_sound hH hs.here.inv hcross ht ha
      rw [hsh.get] at this
      have hval : v = valEnc value ∧ ∀ u, value = some u → fits (.list [.str u]) = true := by
        unfold encodeValue at hv
        split at hv
        · cases hv; exact ⟨rfl, fun _ h => by cases h⟩
        · unfold rlpEncode at hv
          split at hv
          · next hf => cases hv; exact ⟨rfl, fun _ h => by cases h; exact hf⟩
          · cases hv
      rw [hval.1] at this
      exact (valEnc_inj hval.2 (hsh.fits key) this).symm

/-- **C13.** If a verifier accepts that `key` has `value` (or, for `none`, that there is no such key) under a root hash
of the state, then so it was in the state at that moment, whatever the proof nodes, unless a proof node collides with a
node of the state. -/
theorem state_proof_sound {ops : List Op} {s : Session} (h : Session.run H ops = .ok s) (hx : NoHex s ops) (i : Nat)
    (r : Bytes) (hi : s.hashes[i]? = some r) (m : Content) (hm : (Abs.run ops).past[i]? = some m) (key : Bytes)
    (value : Option Bytes) (ns : List Item) (w : World) (ha : (verifyStateProof H r key value ns w).1 = .ok true) :
    m key = value ∨ Spec.Collision H s.hashed s.hashed ∨
      Spec.Collision H s.hashed (encode blank :: ns.map encode) := by
  by_cases hc : Spec.Collision H s.hashed s.hashed
  · exact .inr (.inl hc)
  · by_cases hc' : Spec.Collision H s.hashed (encode blank :: ns.map encode)
    · exact .inr (.inr hc')
    · left
      unfold verifyStateProof at ha
      cases hv : encodeValue value with
      | error e => rw [hv] at ha; cases ha
      | ok v =>
        rw [hv, lift_ok_bind] at ha
        exact verify_spv_sound hH h hx i r hi m hm hc key value ns hc' v hv w ha

/-- **C13.** The same for several keys at once: if the verifier accepts, all of them have the values given. -/
theorem state_proof_multi_sound {ops : List Op} {s : Session} (h : Session.run H ops = .ok s) (hx : NoHex s ops) (i : Nat)
    (r : Bytes) (hi : s.hashes[i]? = some r) (m : Content) (hm : (Abs.run ops).past[i]? = some m)
    (keyValues : List (Bytes × Option Bytes)) (ns : List Item) (w : World)
    (ha : (verifyStateProofMulti H r keyValues ns w).1 = .ok true) :
    (∀ key value, (key, value) ∈ keyValues → m key = value) ∨ Spec.Collision H s.hashed s.hashed ∨
      Spec.Collision H s.hashed (encode blank :: ns.map encode) := by
  by_cases hc : Spec.Collision H s.hashed s.hashed
  · exact .inr (.inl hc)
  · by_cases hc' : Spec.Collision H s.hashed (encode blank :: ns.map encode)
    · exact .inr (.inr hc')
    · left
      have hs := sess_run hH h (distinct_of_no_collision hc) hx
      obtain ⟨t, ht, hsh⟩ := hs.past.get i r m hi hm
      have hcross : ∀ x ∈ encode blank :: s.world.written, ∀ y ∈ encode blank :: ns.map encode, H x = H y → x = y := by
        intro x hx y hy e
        by_cases hxy : x = y
        · exact hxy
        · exact absurd ⟨x, hx, y, hy, hxy, e⟩ hc'
      unfold verifyStateProofMulti at ha
      cases hv : encodeValues keyValues with
      | error e => rw [hv] at ha; cases ha
      | ok kvs =>
        rw [hv, lift_ok_bind] at ha
        cases e : pushVerifying ns w with
        | mk res w1 =>
          cases res with
          | error x => rw [bind_error e] at ha; cases ha
          | ok encs =>
            rw [bind_ok e] at ha
            have henc : encs = ns.map encode := by
              unfold pushVerifying at e
              cases e2 : encodeEach ns with
              | error x => rw [e2] at e; cases e
              | ok es => rw [e2] at e; cases e; exact encodeEach_ok ns encs e2
            subst henc
            have hall := tryVerifyMulti_sound hH hs.here.inv hcross ht ha
            have key : ∀ (l : List (Bytes × Option Bytes)) (es : List (Bytes × Bytes)), encodeValues l = .ok es →
                ∀ k v, (k, v) ∈ l → (k, valEnc v) ∈ es ∧ ∀ u, v = some u → fits (.list [.str u]) = true := by
              intro l
              induction l with
              | nil => intro es _ k v hm; cases hm
              | cons p l ih =>
                obtain ⟨k0, v0⟩ := p
                intro es he k v hm
                unfold encodeValues at he
                cases e1 : encodeValue v0 with
                | error x => rw [e1] at he; cases he
                | ok x =>
                  cases e2 : encodeValues l with
                  | error y => rw [e1, e2] at he; cases he
                  | ok ys =>
                    rw [e1, e2] at he
                    cases he
                    rcases List.mem_cons.1 hm with h | h
                    · cases h
                      unfold encodeValue at e1
                      split at e1
                      · cases e1; exact ⟨List.mem_cons_self, fun _ h => by cases h⟩
                      · unfold rlpEncode at e1
                        split at e1
                        · next hf => cases e1; exact ⟨List.mem_cons_self, fun _ h => by cases h; exact hf⟩
                        · cases e1
                    · have := ih ys e2 k v h
                      exact ⟨List.mem_cons_of_mem _ this.1, this.2⟩
            intro k v hmem
            obtain ⟨h1, h2⟩ := key keyValues kvs hv k v hmem
            have h3 := hall k _ h1
            rw [hsh.get] at h3
            exact (valEnc_inj h2 (hsh.fits k) h3).symm

omit hH in
/-- The nodes in a serialized proof. -/
def serializedNodes (bytes : Bytes) : List Bytes :=
  match decode bytes with
  | some (.list ns) => ns.map encode
  | _ => []

/-- **C13.** The same for proofs that arrive as bytes: whatever the bytes. -/
theorem serialized_proof_sound {ops : List Op} {s : Session} (h : Session.run H ops = .ok s) (hx : NoHex s ops) (i : Nat)
    (r : Bytes) (hi : s.hashes[i]? = some r) (m : Content) (hm : (Abs.run ops).past[i]? = some m) (key : Bytes)
    (value : Option Bytes) (bytes : Bytes) (w : World) (ha : (verifySerialized H r key value bytes w).1 = .ok true) :
    m key = value ∨ Spec.Collision H s.hashed s.hashed ∨
      Spec.Collision H s.hashed (encode blank :: serializedNodes bytes) := by
  by_cases hc : Spec.Collision H s.hashed s.hashed
  · exact .inr (.inl hc)
  · by_cases hc' : Spec.Collision H s.hashed (encode blank :: serializedNodes bytes)
    · exact .inr (.inr hc')
    · left
      unfold verifySerialized at ha
      cases hv : encodeValue value with
      | error e => rw [hv] at ha; cases ha
      | ok v =>
        rw [hv, lift_ok_bind] at ha
        unfold rlpDecode at ha
        unfold serializedNodes at hc'
        cases hd : decode bytes with
        | none => rw [hd] at ha; cases ha
        | some x =>
          rw [hd] at ha hc'
          rw [lift_ok_bind] at ha
          cases x with
          | list ns => exact verify_spv_sound hH h hx i r hi m hm hc key value ns hc' v hv w ha
          | str b =>
            cases b with
            | nil => exact verify_spv_sound hH h hx i r hi m hm hc key value [] hc' v hv w ha
            | cons a l => cases ha

/-- **C13.** The proof that a state makes for a key has its value, leaves the state as it was, and is accepted by every
verifier, in whatever order its nodes are listed; and the verifier's memory is as before. -/
theorem state_proof_complete {ops : List Op} {s : Session} (h : Session.run H ops = .ok s) (hx : NoHex s ops)
    (key : Bytes) :
    (∃ r ns v, headHash H s.root s.world = (.ok r, s.world) ∧
      generateStateProof s.root key s.world = (.ok (ns, v), s.world) ∧
      v = ((Abs.run ops).current key).map (fun u => .str (encode (.list [.str u]))) ∧
      ∀ (ns' : List Item), (∀ x, x ∈ ns' ↔ x ∈ ns) → ∀ w, w.spv = {} →
        verifyStateProof H r key ((Abs.run ops).current key) ns' w = (.ok true, w)) ∨
      Spec.Collision H s.hashed s.hashed := by
  by_cases hc : Spec.Collision H s.hashed s.hashed
  · exact .inr hc
  · left
    have hd := distinct_of_no_collision hc
    have hs := sess_run hH h hd hx
    obtain ⟨t, e, ht, hm⟩ := hs.here.cur
    obtain ⟨ns, v, h1, h2, h3⟩ := generate_spec hH ht hs.here.spv key
    refine ⟨_, ns, v, by rw [e]; exact headHash_spec hs.here.inv ht, by rw [e]; exact h1, ?_, ?_⟩
    · rw [h3, hm.get]
      cases hk : (Abs.run ops).current key with
      | none => rfl
      | some u => rw [if_neg (valEnc_some_ne u)]; rfl
    · intro ns' hns w hw
      obtain ⟨w', h4, -, -, h7⟩ := verify_complete hH hs.here.inv hd ht key (ns := ns')
        (fun x => by rw [hns, h2]) w
      have hv : encodeValue ((Abs.run ops).current key) = .ok (t.get (binToNibbles key)) := by
        rw [hm.get]
        cases hk : (Abs.run ops).current key with
        | none => rfl
        | some u => simp only [encodeValue, rlpEncode, hm.fits key u hk, if_true, valEnc]
      unfold verifyStateProof
      rw [hv, lift_ok_bind, h4, h7 hw]

omit hH in
/-- **C13.** Serializing a list of nodes and verifying the bytes is verifying the list. -/
theorem serialized_same (r key : Bytes) (value : Option Bytes) (ns : List Item) (bytes : Bytes)
    (hb : serializeProof ns = .ok bytes) (w : World) :
    verifySerialized H r key value bytes w = verifyStateProof H r key value ns w := by
  unfold serializeProof rlpEncode at hb
  split at hb
  · next hf =>
    cases hb
    have hr : rlpDecode (encode (.list ns)) = .ok (.list ns) := by simp [rlpDecode, decode_encode hf]
    unfold verifySerialized verifyStateProof
    cases encodeValue value with
    | error e => rfl
    | ok v => simp only [lift_ok_bind, hr]
  · cases hb

omit hH in
/-- **C13**, where the code falls short. If the bytes of a serialized proof decode to a byte string instead of a list,
verification raises and leaves the proof recorder of the process in use. -/
theorem malformed_proof_poisons (r key : Bytes) (value : Option Bytes) (bytes b : Bytes) (hb : b ≠ [])
    (hd : decode bytes = some (.str b)) (hv : ∃ v, encodeValue value = .ok v) (w : World) :
    verifySerialized H r key value bytes w =
      (.error .type, { w with spv := { w.spv with mode := .verifying :: w.spv.mode, proving := true } }) := by
  obtain ⟨v, hv⟩ := hv
  unfold verifySerialized
  have hr : rlpDecode bytes = .ok (.str b) := by simp [rlpDecode, hd]
  rw [hv, lift_ok_bind, hr, lift_ok_bind]
  cases b with
  | nil => exact absurd rfl hb
  | cons a l => rfl

/-- **C13**, where the code falls short. From then on every read of the state by root hash in that process raises: the
content is not empty and `r` is its root hash. -/
theorem poisoned_reads_fail {ops : List Op} {s : Session} (h : Session.run H ops = .ok s) (hx : NoHex s ops) (i : Nat)
    (r : Bytes) (hi : s.hashes[i]? = some r) (m : Content) (hm : (Abs.run ops).past[i]? = some m) (k0 v0 : Bytes)
    (hne : m k0 = some v0) (key : Bytes) :
    (getForRootHash H r key { s.world with spv :=
      { s.world.spv with mode := .verifying :: s.world.spv.mode, proving := true } }).1 = .error .index ∨
      Spec.Collision H s.hashed s.hashed := by
  by_cases hc : Spec.Collision H s.hashed s.hashed
  · exact .inr hc
  · left
    have hd := distinct_of_no_collision hc
    have hs := sess_run hH h hd hx
    obtain ⟨t, ht, hsh⟩ := hs.past.get i r m hi hm
    have hb : t.isBlank = false := by
      cases hb : t.isBlank with
      | false => rfl
      | true =>
        have := hsh.get k0
        rw [T.isBlank_iff.1 hb, hne] at this
        exact absurd this.symm (valEnc_some_ne v0)
    rcases ht.held with hb' | ⟨hf, hg⟩
    · rw [hb] at hb'; cases hb'
    · have hne : r ≠ [] := by intro h0; have := hH (encode (t.node H)); rw [← ht.hash, h0] at this; cases this
      generalize hw : ({ s.world with spv :=
        { s.world.spv with mode := .verifying :: s.world.spv.mode, proving := true } } : World) = wp
      have hkv : wp.kv = s.world.kv := by rw [← hw]
      have hsp : wp.spv = { mode := [.verifying], nodes := [], proving := true } := by rw [← hw, hs.here.spv]
      have h1 : hashToNode H r wp = (.error .index, wp) := by
        unfold hashToNode
        rw [if_neg (ht.not_blank hH hs.here.inv hd hb), decodeToNode_str hne]
        have hg' : getNode r wp = (.ok (encode (t.node H)), wp) := by simp [getNode, hkv, hg]
        rw [bind_ok hg']
        have hr : rlpDecode (encode (t.node H)) = .ok (t.node H) := by simp [rlpDecode, decode_encode hf]
        rw [hr, lift_ok_bind]
        have hgr : spvGrabbing (t.node H) wp = (.error .index, wp) := by simp [spvGrabbing, hsp]
        rw [bind_error hgr]
      unfold getForRootHash
      rw [bind_error h1]

/-! ## Cases that meet the hypotheses -/

omit hH

/-- A key that is there, one that is not and one on the way: proofs are made and accepted, also in bytes; with another
value they are refused. -/
def sampleProofs : Bool :=
  match Session.run trieHash (sampleOps.take 7) with
  | .ok s =>
    [[0x12, 0x34], [0x12], [0x99], []].all (fun key =>
      match (generateStateProof s.root key s.world).1, (headHash trieHash s.root s.world).1 with
      | .ok (ns, _), .ok r =>
        let value := (Abs.run (sampleOps.take 7)).current key
        decide ((verifyStateProof trieHash r key value ns.reverse {}).1.toOption = some true) &&
        decide ((verifyStateProof trieHash r key (some [77]) ns {}).1.toOption = some false) &&
        (match serializeProof ns with
        | .ok b => decide ((verifySerialized trieHash r key value b {}).1.toOption = some true)
        | .error _ => false)
      | _, _ => false)
  | .error _ => false

example : sampleProofs = true := by decide +kernel

/-- Bytes that poison the recorder. -/
example : decode [0x83, 97, 98, 99] = some (.str [97, 98, 99]) := rfl

end Verif.Props
