import Verif.Proofs.ReadReply
/-!
# C85: replies to read requests are the content of the state, with a proof of it

The state has any history. `puts` are the multi-signatures stored so far, any list. Proofs verify unless two of the
strings hashed collide, or the proof is too long to be written at all (2^64 bytes).
-/
namespace Verif.Props
open Verif.Rlp Verif.Trie Verif.Read Verif.Spec.State Verif.Spec.Read

attribute [local irreducible] ascii

variable {H : Bytes → Bytes} (hH : ∀ x, (H x).length = 32)
include hH

/-- **C13.** The proof that a state makes for a key at any root hash noted on the way has the value of that moment,
leaves the state as it was, and is accepted by every verifier. -/
theorem state_proof_complete_past {ops : List Op} {s : Session} (h : Session.run H ops = .ok s) (hx : NoHex s ops)
    (i : Nat) (r : Bytes) (hi : s.hashes[i]? = some r) (m : Content) (hm : (Abs.run ops).past[i]? = some m)
    (key : Bytes) :
    (∃ node ns v, hashToNode H r s.world = (.ok node, s.world) ∧
      generateStateProof node key s.world = (.ok (ns, v), s.world) ∧
      v = (m key).map (fun u => .str (encode (.list [.str u]))) ∧
      ∀ (ns' : List Item), (∀ x, x ∈ ns' ↔ x ∈ ns) → ∀ w, w.spv = {} →
        verifyStateProof H r key (m key) ns' w = (.ok true, w)) ∨
      Spec.Collision H s.hashed s.hashed := by
  by_cases hc : Spec.Collision H s.hashed s.hashed
  · exact .inr hc
  · left
    have hd := distinct_of_no_collision hc
    have hs := sess_run hH h hd hx
    obtain ⟨t, ht, hsh⟩ := hs.past.get i r m hi hm
    obtain ⟨ns, v, h1, h2, h3⟩ := generate_spec hH ht hs.here.spv key
    refine ⟨_, ns, v, hashToNode_spec hH hs.here.inv hd ht, h1, ?_, ?_⟩
    · rw [h3, hsh.get]
      cases hk : m key with
      | none => rfl
      | some u => rw [if_neg (valEnc_some_ne u)]; rfl
    · intro ns' hns w hw
      obtain ⟨w', h4, -, -, h7⟩ := verify_complete hH hs.here.inv hd ht key (ns := ns')
        (fun x => by rw [hns, h2]) w
      have hv : encodeValue (m key) = .ok (t.get (binToNibbles key)) := by
        rw [hsh.get]
        cases hk : m key with
        | none => rfl
        | some u => simp only [encodeValue, rlpEncode, hsh.fits key u hk, if_true, valEnc]
      unfold verifyStateProof
      rw [hv, lift_ok_bind, h4, h7 hw]

/-- **C85.** The reply about acceptance mechanisms: its data is what the state has for the key asked for, at the
committed root or at the root of the time asked for, and its proof proves that. Nothing changes. -/
theorem aml_reply {ops : List Op} {s : Session} (h : Session.run H ops = .ok s) (hx : NoHex s ops) (puts : List Sig)
    (ts : Int → Option Bytes) (hts : ∀ t r, ts t = some r → r ∈ s.hashes) (support : Bool) (q : Query) :
    (∃ root m rep, About ops s ts q.version.isSome q.timestamp root m ∧
      getAml H (storeOf puts) ts support q s.world = (.ok rep, s.world) ∧ rep.data = m (amlKey q) ∧
      Proves H puts root (amlKey q) (m (amlKey q)) support rep.proof) ∨
    (∃ t, q.version = none ∧ q.timestamp = some t ∧ ts t = none ∧
      getAml H (storeOf puts) ts support q s.world = (.ok ⟨none, none⟩, s.world)) ∨
    getAml H (storeOf puts) ts support q s.world = (.error .big, s.world) ∨ Spec.Collision H s.hashed s.hashed := by
  by_cases hc : Spec.Collision H s.hashed s.hashed
  · exact .inr (.inr (.inr hc))
  have hd := distinct_of_no_collision hc
  have hs := sess_run hH h hd hx
  obtain ⟨version, digest, timestamp⟩ := q
  cases version with
  | some v =>
    obtain ⟨r, hr, ⟨p, h1, h2⟩ | h1⟩ := getValue_committed hH hs hd puts (amlVersion v)
    · left
      refine ⟨r, _, makeResult support ((Abs.run ops).committed (amlVersion v)) p, ⟨hr, rfl⟩, ?_, rfl,
        proves_support h2 support⟩
      simp only [getAml]
      rw [bind_ok h1]; rfl
    · right; right; left
      simp only [getAml]
      rw [bind_error h1]
  | none =>
    cases timestamp with
    | none =>
      obtain ⟨r, hr, ⟨p, h1, h2⟩ | h1⟩ := getValue_committed hH hs hd puts amlLatest
      · left
        refine ⟨r, _, makeResult support ((Abs.run ops).committed amlLatest) p, ⟨hr, rfl⟩, ?_, rfl,
          proves_support h2 support⟩
        simp only [getAml]
        rw [bind_ok h1]; rfl
      · right; right; left
        simp only [getAml]
        rw [bind_error h1]
    | some t =>
      cases ht : ts t with
      | none =>
        right; left
        refine ⟨t, rfl, rfl, ht, ?_⟩
        simp only [getAml, ht]
        cases support <;> rfl
      | some r =>
        obtain ⟨i, hi⟩ := List.getElem?_of_mem (hts t r ht)
        have hlt := (List.getElem?_eq_some_iff.1 hi).1
        rw [hs.past.length] at hlt
        have hm := List.getElem?_eq_getElem hlt
        rcases getValue_past hH hs hd puts amlLatest hi hm with ⟨p, h1, h2⟩ | h1
        · left
          refine ⟨r, _, makeResult support _ p, ⟨ht, i, hi, hm⟩, ?_, rfl, proves_support h2 support⟩
          simp only [getAml, ht]
          rw [bind_ok h1]; rfl
        · right; right; left
          simp only [getAml, ht]
          rw [bind_error h1]

/-- **C85.** The reply about frozen ledgers. -/
theorem frozen_reply {ops : List Op} {s : Session} (h : Session.run H ops = .ok s) (hx : NoHex s ops) (puts : List Sig)
    (support : Bool) :
    (∃ root rep, committedHeadHash s.world = (.ok root, s.world) ∧
      getFrozen H (storeOf puts) support s.world = (.ok rep, s.world) ∧
      ((Abs.run ops).committed (ascii "4:FROZEN_LEDGERS") ≠ some [] →
        rep.data = (Abs.run ops).committed (ascii "4:FROZEN_LEDGERS")) ∧
      Proves H puts root (ascii "4:FROZEN_LEDGERS") ((Abs.run ops).committed (ascii "4:FROZEN_LEDGERS")) support
        rep.proof) ∨
    getFrozen H (storeOf puts) support s.world = (.error .big, s.world) ∨ Spec.Collision H s.hashed s.hashed := by
  by_cases hc : Spec.Collision H s.hashed s.hashed
  · exact .inr (.inr hc)
  have hd := distinct_of_no_collision hc
  have hs := sess_run hH h hd hx
  obtain ⟨r, t, hr, ht, hm⟩ := committed_rooted hs
  have hrf : rootFor (some r) s.world = (.ok r, s.world) := by
    have := Read.Rooted.ne_nil hH ht
    cases r with
    | nil => exact absurd rfl this
    | cons b l => rfl
  rcases getValue_rooted hH hs.here.inv hd hs.here.spv ht hm puts frozenPath (some r) hrf with ⟨p, h1, h2⟩ | h1
  · left
    refine ⟨r, makeResult support (if (Abs.run ops).committed frozenPath = some [] then none
      else (Abs.run ops).committed frozenPath) p, hr, ?_, fun hne => ?_, proves_support h2 support⟩
    · unfold getFrozen
      apply catchKey_ok
      rw [bind_ok hr, bind_ok h1]; rfl
    · exact if_neg hne
  · right; left
    unfold getFrozen
    apply catchKey_big
    rw [bind_ok hr, bind_error h1]

/-- **C85.** The reply about author agreements asked for by digest: its data is what the state has for the digest, and
its proof proves that. -/
theorem taa_digest_reply {ops : List Op} {s : Session} (h : Session.run H ops = .ok s) (hx : NoHex s ops)
    (puts : List Sig) (ts : Int → Option Bytes) (support : Bool) (q : Query) (hv : q.version = none) (d : Bytes)
    (hq : q.digest = some d) :
    (∃ root rep, committedHeadHash s.world = (.ok root, s.world) ∧
      getTaa H (storeOf puts) ts support q s.world = (.ok rep, s.world) ∧
      rep.data = (Abs.run ops).committed (taaKey q) ∧
      Proves H puts root (taaKey q) ((Abs.run ops).committed (taaKey q)) support rep.proof) ∨
    getTaa H (storeOf puts) ts support q s.world = (.error .big, s.world) ∨ Spec.Collision H s.hashed s.hashed := by
  by_cases hc : Spec.Collision H s.hashed s.hashed
  · exact .inr (.inr hc)
  have hd := distinct_of_no_collision hc
  have hs := sess_run hH h hd hx
  obtain ⟨version, digest, timestamp⟩ := q
  subst hv hq
  obtain ⟨r, hr, ⟨p, h1, h2⟩ | h1⟩ := getValue_committed hH hs hd puts (taaDigest d)
  · left
    refine ⟨r, makeResult support ((Abs.run ops).committed (taaDigest d)) p, hr, ?_, rfl, proves_support h2 support⟩
    simp only [getTaa]
    rw [bind_ok h1]; rfl
  · right; left
    simp only [getTaa]
    rw [bind_error h1]

/-- **C85**, the part that holds: the reply about author agreements asked for by version, by time, or for the one in
force has the agreement whose digest the state has for the key asked for, at the same root; its proof proves the
digest. The proof does not prove the rest (`taa_data_unproved`). -/
theorem taa_reply_partial {ops : List Op} {s : Session} (h : Session.run H ops = .ok s) (hx : NoHex s ops)
    (puts : List Sig) (ts : Int → Option Bytes) (hts : ∀ t r, ts t = some r → r ∈ s.hashes) (support : Bool) (q : Query)
    (hq : q.version.isSome = true ∨ q.digest = none) :
    (∃ root m rep, About ops s ts q.version.isSome q.timestamp root m ∧
      getTaa H (storeOf puts) ts support q s.world = (.ok rep, s.world) ∧
      rep.data = (m (taaKey q)).bind (fun d => m (ascii "2:d:" ++ d)) ∧
      Proves H puts root (taaKey q) (m (taaKey q)) support rep.proof) ∨
    (∃ t, q.version = none ∧ q.timestamp = some t ∧ ts t = none ∧
      getTaa H (storeOf puts) ts support q s.world = (.ok ⟨none, none⟩, s.world)) ∨
    getTaa H (storeOf puts) ts support q s.world = (.error .big, s.world) ∨ Spec.Collision H s.hashed s.hashed := by
  by_cases hc : Spec.Collision H s.hashed s.hashed
  · exact .inr (.inr (.inr hc))
  have hd := distinct_of_no_collision hc
  have hs := sess_run hH h hd hx
  have hret : ∀ (head : Option Bytes) (r : Bytes) (t : T) (m : Content) (p : Option Read.Proof) (key : Bytes),
      rootFor head s.world = (.ok r, s.world) → Rooted H s.world.kv r t → Shows t m →
      returnByDigest H support p head (m key) s.world =
        (.ok (makeResult support ((m key).bind (fun d => m (ascii "2:d:" ++ d))) p), s.world) := by
    intro head r t m p key hr ht hm
    cases e : m key with
    | none => rfl
    | some d =>
      simp only [returnByDigest]
      rw [bind_ok hr, bind_ok (getForRootHash_rooted hH hs.here.inv hd ht hm (taaDigest d))]
      rfl
  have hcom : ∀ key : Bytes, (∃ root rep, committedHeadHash s.world = (.ok root, s.world) ∧
        (getValue H (storeOf puts) key none >>= fun x => returnByDigest H support x.2 none x.1) s.world =
          (.ok rep, s.world) ∧
        rep.data = ((Abs.run ops).committed key).bind (fun d => (Abs.run ops).committed (ascii "2:d:" ++ d)) ∧
        Proves H puts root key ((Abs.run ops).committed key) support rep.proof) ∨
      (getValue H (storeOf puts) key none >>= fun x => returnByDigest H support x.2 none x.1) s.world =
        (.error .big, s.world) := by
    intro key
    obtain ⟨r, t, hr, ht, hm⟩ := committed_rooted hs
    rcases getValue_rooted hH hs.here.inv hd hs.here.spv ht hm puts key none hr with ⟨p, h1, h2⟩ | h1
    · left
      refine ⟨r, makeResult support (((Abs.run ops).committed key).bind
        (fun d => (Abs.run ops).committed (ascii "2:d:" ++ d))) p, hr, ?_, rfl, proves_support h2 support⟩
      rw [bind_ok h1]
      exact hret none r t _ p key hr ht hm
    · right
      rw [bind_error h1]
  obtain ⟨version, digest, timestamp⟩ := q
  cases version with
  | some v =>
    rcases hcom (taaVersion v) with ⟨root, rep, a, b, c, d⟩ | b
    · exact .inl ⟨root, _, rep, ⟨a, rfl⟩, b, c, d⟩
    · exact .inr (.inr (.inl b))
  | none =>
    have hq' : digest = none := by
      rcases hq with h | h
      · cases h
      · exact h
    subst hq'
    cases timestamp with
    | none =>
      rcases hcom taaLatest with ⟨root, rep, a, b, c, d⟩ | b
      · exact .inl ⟨root, _, rep, ⟨a, rfl⟩, b, c, d⟩
      · exact .inr (.inr (.inl b))
    | some t =>
      cases ht : ts t with
      | none =>
        right; left
        refine ⟨t, rfl, rfl, ht, ?_⟩
        simp only [getTaa, ht]
        cases support <;> rfl
      | some r =>
        obtain ⟨i, hi⟩ := List.getElem?_of_mem (hts t r ht)
        have hlt := (List.getElem?_eq_some_iff.1 hi).1
        rw [hs.past.length] at hlt
        have hm := List.getElem?_eq_getElem hlt
        obtain ⟨tr, htr, hsh⟩ := hs.past.get i r _ hi hm
        have hrf : rootFor (some r) s.world = (.ok r, s.world) := by
          have := Read.Rooted.ne_nil hH htr
          cases r with
          | nil => exact absurd rfl this
          | cons b l => rfl
        rcases getValue_past hH hs hd puts taaLatest hi hm with ⟨p, h1, h2⟩ | h1
        · left
          refine ⟨r, _, makeResult support (((Abs.run ops).past[i] taaLatest).bind
            (fun d => (Abs.run ops).past[i] (ascii "2:d:" ++ d))) p, ⟨ht, i, hi, hm⟩, ?_, rfl,
            proves_support h2 support⟩
          simp only [getTaa, ht]
          rw [bind_ok h1]
          exact hret (some r) r tr _ p taaLatest hrf htr hsh
        · right; right; left
          simp only [getTaa, ht]
          rw [bind_error h1]

omit hH in
/-- **C85.** GET_TXN: the transaction with that number, and beside it the multi-signature stored last for the last
state root of the ledger in the audit ledger. -/
theorem get_txn_reply (puts : List Sig) (txns : List Bytes) (audit : List (Dict Nat Bytes)) (ledgerId seqNo : Nat)
    (t : Bytes) (h1 : 1 ≤ seqNo) (ht : txns[seqNo - 1]? = some t) :
    getTxn (storeOf puts) txns audit ledgerId seqNo =
      ⟨some t, (lastAuditRoot ledgerId audit).bind (fun r => lastSig puts r)⟩ := by
  rw [← lastRoot_eq]
  cases seqNo with
  | zero => cases h1
  | succ n =>
    simp only [Nat.add_sub_cancel] at ht
    unfold getTxn
    simp only [ht]
    congr 1
    cases lastRoot ledgerId audit with
    | none => rfl
    | some r => exact storeOf_sig puts r

omit hH in
theorem get_txn_missing (puts : List Sig) (txns : List Bytes) (audit : List (Dict Nat Bytes)) (ledgerId seqNo : Nat)
    (h : seqNo = 0 ∨ txns.length < seqNo) : getTxn (storeOf puts) txns audit ledgerId seqNo = ⟨none, none⟩ := by
  cases seqNo with
  | zero => rfl
  | succ n =>
    have : txns[n]? = none := by rw [List.getElem?_eq_none_iff]; omega
    unfold getTxn
    simp only [this]

/-! ## Where the code falls short, and cases that meet the hypotheses -/

omit hH

/-- A config state with an agreement: its digest, under "2:latest", is 33 bytes. -/
def taaOps : List Op :=
  [.set (ascii "2:latest") (List.replicate 33 9), .set (ascii "2:d:" ++ List.replicate 33 9) (List.replicate 40 7),
   .set (ascii "3:latest") (List.replicate 34 5), .commit]

def taaSigs (root : Bytes) : List Sig := [⟨2, [1], [1], [1]⟩, ⟨2, root, [2], [2]⟩]

def taaSession : Option (Session × Bytes) :=
  match Session.run trieHash taaOps with
  | .ok s => match committedHeadHash s.world with
    | (.ok r, _) => some (s, r)
    | _ => none
  | .error _ => none

/-- What a client makes of the reply for the agreement in force: whether the proof verifies the digest, the data sent,
and other data. -/
def taaVerdicts : Option (Option Bytes × Option Bool × Option Bool × Option Bool) :=
  match taaSession with
  | none => none
  | some (s, r) =>
    match getTaa trieHash (storeOf (taaSigs r)) (fun _ => none) true {} s.world with
    | (.ok ⟨data, some p⟩, _) =>
      some (data,
        (verifySerialized trieHash r (ascii "2:latest") (some (List.replicate 33 9)) p.nodes {}).1.toOption,
        (verifySerialized trieHash r (ascii "2:d:" ++ List.replicate 33 9) data p.nodes {}).1.toOption,
        (verifySerialized trieHash r (ascii "2:d:" ++ List.replicate 33 9) (some [0]) p.nodes {}).1.toOption)
    | _ => none

/-- **C85**, where the code falls short. The proof in a reply for the agreement in force verifies the digest only: for
the data sent (the text with its times of ratification and retirement, the sequence number and the time) it is of no use,
a verifier cannot tell it from other data. -/
theorem taa_data_unproved :
    taaVerdicts = some (some (List.replicate 40 7), some true, some false, some false) := by decide +kernel

/-- The hypotheses of the theorems hold for this state, and replies with proofs are made. -/
example : (match taaSession with
    | some (s, r) => decide (¬ Spec.Collision trieHash s.hashed s.hashed) && s.hashes.all (fun h => !isHex h) &&
      decide (r ∈ s.hashes) &&
      (match getAml trieHash (storeOf (taaSigs r)) (fun _ => some r) true { timestamp := some 5 } s.world with
      | (.ok ⟨d, some p⟩, _) => decide (d = some (List.replicate 34 5)) && decide (p.sig.signature = [2])
      | _ => false) &&
      (match getFrozen trieHash (storeOf (taaSigs r)) true s.world with
      | (.ok ⟨none, some _⟩, _) => true
      | _ => false) &&
      (match getTaa trieHash (storeOf []) (fun _ => none) true { digest := some (List.replicate 33 9) } s.world with
      | (.ok ⟨some d, none⟩, _) => decide (d = List.replicate 40 7)
      | _ => false)
    | none => false) = true := by decide +kernel

/-- **C85**, where the code falls short. The multi-signatures of all ledgers are stored under their state roots only:
if the states of two ledgers have the same content, replies about one carry the multi-signature of the other. Here both
are empty. -/
theorem other_ledger_signature :
    (match Session.run trieHash [] with
    | .ok s =>
      match getAml trieHash (storeOf [⟨2, blankRoot trieHash, [1], [1]⟩, ⟨1001, blankRoot trieHash, [2], [2]⟩])
        (fun _ => none) true {} s.world with
      | (.ok ⟨none, some p⟩, _) => some p.sig.ledgerId
      | _ => none
    | .error _ => none) = some 1001 := by decide +kernel

/-- **C85**, where the code falls short. The multi-signature beside a transaction does not depend on it: it is the same
for all transactions of the ledger. -/
theorem get_txn_signature_fixed (puts : List Sig) (txns : List Bytes) (audit : List (Dict Nat Bytes)) (ledgerId i j : Nat)
    (hi : (getTxn (storeOf puts) txns audit ledgerId i).txn.isSome)
    (hj : (getTxn (storeOf puts) txns audit ledgerId j).txn.isSome) :
    (getTxn (storeOf puts) txns audit ledgerId i).sig = (getTxn (storeOf puts) txns audit ledgerId j).sig := by
  have key : ∀ n, (getTxn (storeOf puts) txns audit ledgerId n).txn.isSome →
      (getTxn (storeOf puts) txns audit ledgerId n).sig = (lastRoot ledgerId audit).bind (storeOf puts).sig := by
    intro n hn
    unfold getTxn at hn ⊢
    cases n with
    | zero => cases hn
    | succ n =>
      simp only at hn ⊢
      cases e : txns[n]? with
      | none => rw [e] at hn; cases hn
      | some t => rfl
  rw [key i hi, key j hj]

/-- The multi-signature of the last batch of the ledger; there is none if this batch got none, even if an earlier one
did. -/
example :
    getTxn (storeOf [⟨1, [1], [11], [5]⟩, ⟨1, [2], [12], [6]⟩]) [[7], [8]] [[(1, [1])], [(1, [2])], [(0, [3])]] 1 1 =
      ⟨some [7], some ⟨1, [2], [12], [6]⟩⟩ ∧
    getTxn (storeOf [⟨1, [1], [11], [5]⟩]) [[7], [8]] [[(1, [1])], [(1, [2])]] 1 2 = ⟨some [8], none⟩ := by
  decide +kernel

include hH in
/-- **C85**, where the code falls short. A request with more than one parameter is refused and answered: the client gets
a NACK and then a reply. -/
theorem nack_then_reply {ops : List Op} {s : Session} (h : Session.run H ops = .ok s) (hx : NoHex s ops)
    (puts : List Sig) (ts : Int → Option Bytes) (support : Bool) (v d : Bytes) (t : Option Int) :
    (∃ rep, processQuery H (storeOf puts) ts support ⟨some v, some d, t⟩ s.world = (.ok [.nack, .reply rep], s.world)) ∨
    processQuery H (storeOf puts) ts support ⟨some v, some d, t⟩ s.world = (.error .big, s.world) ∨
      Spec.Collision H s.hashed s.hashed := by
  have hnt : taaValid ⟨some v, some d, t⟩ = false := by cases t <;> rfl
  by_cases hc : Spec.Collision H s.hashed s.hashed
  · exact .inr (.inr hc)
  have hd := distinct_of_no_collision hc
  have hs := sess_run hH h hd hx
  have hget : getTaa H (storeOf puts) ts support ⟨some v, some d, t⟩ =
      getTaa H (storeOf puts) ts support ⟨some v, none, none⟩ := rfl
  unfold processQuery
  rw [hnt, hget]
  rcases taa_reply_partial hH h hx puts (fun _ => none) nofun support ⟨some v, none, none⟩ (.inl rfl) with
    ⟨_, _, rep, -, h1, -⟩ | ⟨_, h0, -⟩ | h1 | h1
  · left
    refine ⟨rep, ?_⟩
    have h1' : getTaa H (storeOf puts) ts support ⟨some v, none, none⟩ s.world = (.ok rep, s.world) := h1
    rw [bind_ok h1']; rfl
  · cases h0
  · right; left
    have h1' : getTaa H (storeOf puts) ts support ⟨some v, none, none⟩ s.world = (.error .big, s.world) := h1
    rw [bind_error h1']
  · exact .inr (.inr h1)

end Verif.Props
