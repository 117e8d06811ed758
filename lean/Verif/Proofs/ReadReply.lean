import Verif.Spec.ReadReply
import Verif.Props.StateProof
import Verif.Proofs.Count
/-!
# Proofs about replies to read requests
-/
namespace Verif.Read
open Verif.Rlp Verif.Trie Verif.Spec.State Verif.Spec.Read

variable {H : Bytes → Bytes}

theorem lastSig_snoc (puts : List Sig) (g : Sig) (r : Bytes) :
    lastSig (puts ++ [g]) r = if g.stateRoot = r then some g else lastSig puts r := by
  unfold lastSig
  rw [List.filter_append]
  by_cases h : g.stateRoot = r
  · simp [h]
  · simp [h]

theorem storeOf_sig (puts : List Sig) (r : Bytes) : (storeOf puts).sig r = lastSig puts r := by
  induction puts using snoc_induction with
  | nil => rfl
  | snoc l g ih =>
    have e : storeOf (l ++ [g]) = (storeOf l).put g := by simp [storeOf]
    rw [e, lastSig_snoc, ← ih]
    unfold Store.sig Store.put
    rw [Dict.get?_set]

theorem lastSig_isSome (puts : List Sig) (r : Bytes) : (lastSig puts r).isSome = true ↔ ∃ g ∈ puts, g.stateRoot = r := by
  unfold lastSig
  constructor
  · intro h
    obtain ⟨g, hg⟩ := Option.isSome_iff_exists.1 h
    have := List.mem_filter.1 (List.mem_of_getLast? hg)
    exact ⟨g, this.1, by simpa using this.2⟩
  · intro ⟨g, h1, h2⟩
    have : g ∈ puts.filter (fun s => s.stateRoot = r) := List.mem_filter.2 ⟨h1, by simpa using h2⟩
    cases he : (puts.filter (fun s => s.stateRoot = r)).getLast? with
    | some _ => rfl
    | none => rw [List.getLast?_eq_none_iff.1 he] at this; cases this

theorem lastRoot_eq (ledgerId : Nat) (audit : List (Dict Nat Bytes)) :
    lastRoot ledgerId audit = lastAuditRoot ledgerId audit := by
  induction audit with
  | nil => rfl
  | cons t ts ih =>
    have key : ∀ (x : Option Bytes), (x.toList.filter (fun r => r ≠ []) ++
        (ts.filterMap (fun t => t.get? ledgerId)).filter (fun r => r ≠ [])).getLast? =
        (match lastAuditRoot ledgerId ts with
        | some r => some r
        | none => match x with
          | some [] => none
          | r => r) := by
      intro x
      rw [List.getLast?_append]
      unfold lastAuditRoot
      cases ((ts.filterMap (fun t => t.get? ledgerId)).filter (fun r => r ≠ [])).getLast? with
      | some r => rfl
      | none =>
        match x with
        | none => rfl
        | some [] => rfl
        | some (b :: l) => rfl
    have := key (t.get? ledgerId)
    unfold lastRoot
    rw [ih]
    refine Eq.trans this.symm ?_
    unfold lastAuditRoot
    rw [List.filterMap_cons]
    cases t.get? ledgerId with
    | none => simp
    | some r => simp only [Option.toList_some, ← List.filter_append, List.singleton_append]

theorem catchKey_ok {α : Type} {m : M α} {x a : α} {w w' : World} (h : m w = (.ok a, w')) :
    catchKey m x w = (.ok a, w') := by
  simp [catchKey, h]

theorem catchKey_big {α : Type} {m : M α} {x : α} {w w' : World} (h : m w = (.error .big, w')) :
    catchKey m x w = (.error .big, w') := by
  simp [catchKey, h]

theorem getDecoded_valEnc {u : Bytes} (hf : fits (.list [.str u]) = true) : getDecoded (valEnc (some u)) = .ok u := by
  unfold getDecoded valEnc
  rw [decode_encode hf]

theorem decodeFound_spec {t : T} {m : Content} (hm : Shows t m) (k : Bytes) (w : World) :
    decodeFound (if t.get (binToNibbles k) = [] then none else some (.str (t.get (binToNibbles k)))) w =
      (.ok (m k), w) := by
  rw [hm.get]
  cases e : m k with
  | none => rfl
  | some u =>
    rw [if_neg (valEnc_some_ne u)]
    have hg := getDecoded_valEnc (hm.fits k u e)
    have hne := valEnc_some_ne u
    show decodeValue (.str (valEnc (some u))) w = _
    generalize valEnc (some u) = x at hg hne
    cases x with
    | nil => exact absurd rfl hne
    | cons a l =>
      show (do pure (some (← lift (getDecoded (a :: l))) ) : M (Option Bytes)) w = _
      rw [hg]; rfl

/-- The value at a root the state holds, with its proof. -/
theorem getValue_rooted (hH : ∀ x, (H x).length = 32) {w : World} (hi : Inv H w) (hd : Distinct H w) (hs : w.spv = {})
    {r : Bytes} {t : T} (ht : Rooted H w.kv r t) {m : Content} (hm : Shows t m) (puts : List Sig) (key : Bytes)
    (head : Option Bytes)
    (hr : rootFor head w = (.ok r, w)) :
    (∃ p, getValue H (storeOf puts) key head w = (.ok (m key, p), w) ∧ Proves H puts r key (m key) true p) ∨
      getValue H (storeOf puts) key head w = (.error .big, w) := by
  unfold getValue
  rw [bind_ok hr, storeOf_sig]
  have hnode := hashToNode_spec hH hi hd ht
  cases hg : lastSig puts r with
  | none =>
    have hno : ¬ ∃ g ∈ puts, g.stateRoot = r := by
      rw [← lastSig_isSome, hg]; exact fun h => by cases h
    left
    refine ⟨none, ?_, ⟨⟨nofun, fun h => absurd h.2 hno⟩, nofun, nofun, nofun⟩⟩
    apply catchKey_ok
    have e : getForRootHash H r key w = (.ok (m key), w) := by
      unfold getForRootHash
      rw [bind_ok hnode]
      exact read_spec hH hi ht hm key
    rw [bind_ok e]; rfl
  | some g =>
    have hyes : ∃ g ∈ puts, g.stateRoot = r := by rw [← lastSig_isSome, hg]; rfl
    obtain ⟨ns, v, h1, h2, h3⟩ := generate_spec hH ht hs key
    cases hb : serializeProof ns with
    | error e =>
      right
      have he : e = .big := by
        unfold serializeProof rlpEncode at hb
        split at hb
        · cases hb
        · cases hb; rfl
      subst he
      apply catchKey_big
      unfold proveValue
      rw [bind_ok hnode, bind_ok h1]
      simp only [hb]
      rfl
    | ok bytes =>
      left
      refine ⟨some ⟨r, g, bytes⟩, ?_, ⟨⟨fun _ => ⟨rfl, hyes⟩, fun _ => rfl⟩, fun p h => (by cases h; rfl),
        fun p h => (by cases h; exact hg), ?_⟩⟩
      · apply catchKey_ok
        unfold proveValue
        rw [bind_ok hnode, bind_ok h1]
        simp only [hb, lift_ok_bind]
        rw [h3, bind_ok (decodeFound_spec hm key w)]; rfl
      · intro p hp w' hw'
        cases hp
        rw [Props.serialized_same r key (m key) ns bytes hb w']
        obtain ⟨w2, h4, -, -, h7⟩ := verify_complete hH hi hd ht key h2 w'
        have hv : encodeValue (m key) = .ok (t.get (binToNibbles key)) := by
          rw [hm.get]
          cases hk : m key with
          | none => rfl
          | some u => simp only [encodeValue, rlpEncode, hm.fits key u hk, if_true, valEnc]
        unfold verifyStateProof
        rw [hv, lift_ok_bind, h4, h7 hw']

/-- The proof that reaches the client. -/
theorem proves_support {puts : List Sig} {r key : Bytes} {v : Option Bytes} {p : Option Read.Proof}
    (h : Proves H puts r key v true p) (support : Bool) :
    Proves H puts r key v support (if support = true then p else none) := by
  cases support with
  | true => exact h
  | false => exact ⟨⟨nofun, nofun⟩, nofun, nofun, nofun⟩

theorem committed_rooted {s : Session} {a : Abs} (hs : Sess H s a) :
    ∃ r t, committedHeadHash s.world = (.ok r, s.world) ∧ Rooted H s.world.kv r t ∧ Shows t a.committed := by
  obtain ⟨r, t, hr, ht, hm⟩ := hs.here.com
  exact ⟨r, t, by simp [committedHeadHash, getNode, hr], ht, hm⟩

theorem Rooted.ne_nil (hH : ∀ x, (H x).length = 32) {kv : Dict Bytes Bytes} {r : Bytes} {t : T} (ht : Rooted H kv r t) :
    r ≠ [] := by
  intro h0
  have := hH (encode (t.node H))
  rw [← ht.hash, h0] at this
  cases this

/-- A read of the committed state. -/
theorem getValue_committed (hH : ∀ x, (H x).length = 32) {s : Session} {a : Abs} (hs : Sess H s a)
    (hd : Distinct H s.world) (puts : List Sig) (key : Bytes) :
    ∃ r, committedHeadHash s.world = (.ok r, s.world) ∧
    ((∃ p, getValue H (storeOf puts) key none s.world = (.ok (a.committed key, p), s.world) ∧
        Proves H puts r key (a.committed key) true p) ∨
      getValue H (storeOf puts) key none s.world = (.error .big, s.world)) := by
  obtain ⟨r, t, hr, ht, hm⟩ := committed_rooted hs
  exact ⟨r, hr, getValue_rooted hH hs.here.inv hd hs.here.spv ht hm puts key none hr⟩

/-- A read at a root noted before. -/
theorem getValue_past (hH : ∀ x, (H x).length = 32) {s : Session} {a : Abs} (hs : Sess H s a)
    (hd : Distinct H s.world) (puts : List Sig) (key : Bytes) {i : Nat} {r : Bytes} {m : Content}
    (hi : s.hashes[i]? = some r) (hm : a.past[i]? = some m) :
    (∃ p, getValue H (storeOf puts) key (some r) s.world = (.ok (m key, p), s.world) ∧
        Proves H puts r key (m key) true p) ∨
      getValue H (storeOf puts) key (some r) s.world = (.error .big, s.world) := by
  obtain ⟨t, ht, hsh⟩ := hs.past.get i r m hi hm
  refine getValue_rooted hH hs.here.inv hd hs.here.spv ht hsh puts key (some r) ?_
  have := Rooted.ne_nil hH ht
  cases r with
  | nil => exact absurd rfl this
  | cons b l => rfl

theorem getForRootHash_rooted (hH : ∀ x, (H x).length = 32) {w : World} (hi : Inv H w) (hd : Distinct H w)
    {r : Bytes} {t : T} (ht : Rooted H w.kv r t) {m : Content} (hm : Shows t m) (key : Bytes) :
    getForRootHash H r key w = (.ok (m key), w) := by
  unfold getForRootHash
  rw [bind_ok (hashToNode_spec hH hi hd ht)]
  exact read_spec hH hi ht hm key

end Verif.Read
