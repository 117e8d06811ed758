import Verif.Proofs.DidKey
import Verif.Props.ClientAuth
/-!
# C98: signatures count for the key of the DID, and for what was signed
-/
namespace Verif.Props
open Verif Verif.Did Verif.Spec.Did
open Verif.Schema (identifierF verkeyF alphabet b58int)
open Verif.Signing (ser serItems join bar item)
open Verif.Auth (coreAuthenticate Obj)

/-! ## Base58 -/

theorem did_bigEndian {bs : Bytes} {n : Nat} (h : BigEndian bs n) : number 256 (bs.map UInt8.toNat) = n := by
  induction h with
  | nil => rfl
  | snoc b _ ih => rw [List.map_append, List.map_singleton, number_snoc, ih, Nat.mul_comm]

theorem did_number_zeros (b k : Nat) (l : List Nat) : number b (List.replicate k 0 ++ l) = number b l := by
  induction k with
  | zero => simp
  | succ k ih =>
    rw [List.replicate_succ, List.cons_append]
    show List.foldl _ (0 * b + 0) _ = _
    rw [Nat.zero_mul]
    exact ih

/-- C98: base58 is one to one: every byte string is given back by the decoder, every text that
the decoder takes is what the encoder makes of the result, and both stand for the same number. -/
theorem C98_base58 : (∀ bs, b58decode (b58encode bs) = some bs) ∧
    (∀ s bs, b58decode s = some bs → b58encode bs = s) ∧
    (∀ bs n, BigEndian bs n → b58int (b58encode bs) = n) := by
  refine ⟨decode_encode, fun _ _ => encode_decode, ?_⟩
  intro bs n h
  obtain ⟨h1, h2, _⟩ := encode_digits bs
  rw [← did_bigEndian h]
  have e1 := (split_lead (49 : UInt8) (b58encode bs)).1
  have e2 := (split_lead (0 : UInt8) bs).1
  rw [e1, b58int_number, List.map_append, List.map_replicate]
  rw [show List.idxOf (49 : UInt8) alphabet = 0 from by decide +kernel, did_number_zeros, ← b58int_number, h1]
  conv => rhs; rw [e2, List.map_append, List.map_replicate]
  rw [show UInt8.toNat 0 = 0 from rfl, did_number_zeros]

/-- Leading zeros, and a text that is not base58. -/
example : b58encode [0, 0, 1, 2] = ascii "115T" ∧ b58decode (ascii "115T") = some [0, 0, 1, 2] ∧
    b58decode (ascii "1l") = none ∧ BigEndian [1, 2] 258 :=
  ⟨by decide +kernel, by decide +kernel, by decide +kernel, .snoc 2 (.snoc 1 .nil)⟩

/-! ## The key -/

/-- C98: for a DID and a key record that the schemas accept, signatures are checked with
exactly the key that the record stands for, and only with keys of 32 bytes. -/
theorem C98_key (did record : Bytes) (hd : identifierF (.str did) = .ok true)
    (hr : record = [] ∨ verkeyF (.str record) = .ok true) (key : Bytes) :
    didKey record did = some key ↔ KeyOf did record key ∧ key.length = 32 := didKey_iff hd hr key

/-- C98: a DID of 16 bytes always has a key, and so does a DID with a whole key. -/
theorem C98_has_key (did record : Bytes) (hd : identifierF (.str did) = .ok true) (hr : verkeyF (.str record) = .ok true)
    (h : (∃ raw, b58decode did = some raw ∧ raw.length = 16) ∨ record.head? ≠ some 126) :
    ∃ key, didKey record did = some key := by
  rcases (verkeyF_iff _).mp hr with ⟨t, bs, rfl, hb, h16⟩ | ⟨bs, hb, h32⟩
  · rcases h with ⟨raw, hraw, hl⟩ | h
    · exact ⟨raw ++ bs, (C98_key _ _ hd (.inr hr) _).mpr ⟨.half hraw hb, by rw [List.length_append]; omega⟩⟩
    · exact absurd rfl h
  · exact ⟨bs, (C98_key _ _ hd (.inr hr) _).mpr ⟨.whole hb, h32⟩⟩

/-- C98: the schemas also accept half a key for a DID of 32 bytes. No signature for such a DID
is ever accepted: the verifier cannot be made. -/
theorem C98_no_key (valid : Bytes → Bytes → Bytes → Bool) (did record raw : Bytes) (h : b58decode did = some raw)
    (h32 : raw.length = 32) (hr : verkeyF (.str record) = .ok true) (ht : record.head? = some 126) (sig msg : Bytes) :
    didVerify valid (.str record) did sig msg = none := by
  have hd : identifierF (.str did) = .ok true := (base58F_iff _ _).mpr ⟨raw, h, by rw [h32]; decide⟩
  unfold didVerify
  dsimp only
  cases hk : didKey record did with
  | none => rfl
  | some key =>
    obtain ⟨h1, h2⟩ := (C98_key _ _ hd (.inr hr) _).mp hk
    exfalso
    cases h1 with
    | whole h1 =>
      cases record with
      | nil => cases ht
      | cons c t =>
        cases ht
        rw [show (126 : UInt8) = tilde from rfl, decode_tilde] at h1
        cases h1
    | half h3 h4 =>
      rw [h] at h3
      cases h3
      rw [List.length_append] at h2
      rcases (verkeyF_iff _).mp hr with ⟨t, bs, he, hb, h16⟩ | ⟨bs, hb, _⟩
      · cases he
        have := hb.symm.trans h4
        cases this
        omega
      · have := decode_tilde _ ▸ hb
        cases this
    | cryptonym _ => cases ht

private def half1 : Bytes := List.replicate 16 7
private def half2 : Bytes := List.replicate 16 9

example : didKey (ascii "~" ++ b58encode half2) (b58encode half1) = some (half1 ++ half2) ∧
    identifierF (.str (b58encode half1)) = .ok true ∧ verkeyF (.str (ascii "~" ++ b58encode half2)) = .ok true ∧
    verkeyF (.str (b58encode (half1 ++ half2))) = .ok true ∧
    didKey (b58encode (half1 ++ half2)) (b58encode half1) = some (half1 ++ half2) ∧
    didKey [] (b58encode (half1 ++ half2)) = some (half1 ++ half2) ∧
    didKey (ascii "~" ++ b58encode half2) (b58encode (half1 ++ half2)) = none := by
  decide +kernel

/-! ## The signer and the verifier fit -/

theorem did_encode_ne {bs : Bytes} (h : bs ≠ []) : b58encode bs ≠ [] := by
  intro e
  have := decode_encode bs
  rw [e, decode_nil] at this
  cases this
  exact h rfl

/-- C98: a signer made for a key of 32 bytes, with a DID of 16 or 32 bytes or without one, has a
DID and a key record that the schemas accept; they stand for that key, and every signature made
with it is accepted. Without a given DID, the DID is the first half of the key. -/
theorem C98_signer (valid : Bytes → Bytes → Bytes → Bool) (did : Option Bytes) (pk : Bytes) (hpk : pk.length = 32)
    (hid : ∀ d, did = some d → identifierF (.str d) = .ok true) :
    ∃ i record, signer did pk = some i ∧ i.verkey = some record ∧
      i.fullVerkey = some (some (b58encode pk)) ∧
      (∀ d, did = some d → i.identifier = d) ∧ (did = none → b58decode i.identifier = some (pk.take 16)) ∧
      identifierF (.str i.identifier) = .ok true ∧ verkeyF (.str record) = .ok true ∧
      didKey record i.identifier = some pk ∧
      ∀ sig msg, Signs valid pk sig msg → didVerify valid (.str record) i.identifier sig msg = some true := by
  have hpne : pk ≠ [] := by intro e; rw [e] at hpk; cases hpk
  have hfull : full (some pk) = true := by
    cases pk with
    | nil => exact absurd rfl hpne
    | cons => rfl
  have main : ∀ (d record : Bytes), identifierF (.str d) = .ok true → verkeyF (.str record) = .ok true →
      KeyOf d record pk → didKey record d = some pk ∧
      ∀ sig msg, Signs valid pk sig msg → didVerify valid (.str record) d sig msg = some true := by
    intro d record hd hr hk
    refine ⟨(C98_key d record hd (.inr hr) pk).mpr ⟨hk, hpk⟩, ?_⟩
    intro sig msg hs
    refine (didVerify_iff valid hd (.inr hr) sig msg).mpr ⟨pk, hk, hpk, ?_⟩
    rw [List.take_left' hs.1, List.drop_left' hs.1]
    exact hs
  cases did with
  | some d =>
    have hd := hid d rfl
    have hdne : full (some d) = true := by
      cases d with
      | nil =>
        obtain ⟨bs, h1, h2⟩ := (base58F_iff _ _).mp hd
        rw [decode_nil] at h1
        cases h1
        simp at h2
      | cons => rfl
    have hs : signer (some d) pk = some ⟨d, some (b58encode pk), false⟩ := by
      unfold signer identity
      rw [hfull, hdne]
      rfl
    have hv : verkeyF (.str (b58encode pk)) = .ok true := (verkeyF_iff _).mpr (.inr ⟨pk, decode_encode pk, hpk⟩)
    have hm := main d _ hd hv (.whole (decode_encode pk))
    exact ⟨_, _, hs, rfl, rfl, fun _ h => (by cases h; rfl), fun h => (by cases h), hd, hv, hm.1, hm.2⟩
  | none =>
    have hs : signer none pk = some ⟨b58encode (pk.take 16), some (b58encode (pk.drop 16)), true⟩ := by
      unfold signer identity
      rw [hfull]
      rfl
    have hd : identifierF (.str (b58encode (pk.take 16))) = .ok true :=
      (base58F_iff _ _).mpr ⟨_, decode_encode _, by rw [List.length_take, hpk]; decide⟩
    have hv : verkeyF (.str (tilde :: b58encode (pk.drop 16))) = .ok true :=
      (verkeyF_iff _).mpr (.inl ⟨_, _, rfl, decode_encode _, by rw [List.length_drop, hpk]⟩)
    have hk : KeyOf (b58encode (pk.take 16)) (tilde :: b58encode (pk.drop 16)) pk := by
      have := KeyOf.half (decode_encode (pk.take 16)) (decode_encode (pk.drop 16))
      rw [List.take_append_drop] at this
      exact this
    have hm := main _ _ hd hv hk
    refine ⟨_, _, hs, rfl, ?_, fun _ h => (by cases h), fun _ => decode_encode _, hd, hv, hm.1, hm.2⟩
    unfold Identity.fullVerkey
    rw [if_pos rfl]
    dsimp only [Option.getD]
    rw [decode_encode, decode_encode]
    dsimp only
    rw [List.take_append_drop]

example : (signer none (half1 ++ half2)).map (·.identifier) = some (b58encode half1) ∧
    (signer (some (b58encode half2)) (half1 ++ half2)).bind (·.verkey) = some (b58encode (half1 ++ half2)) := by
  decide +kernel

/-! ## What was signed -/

/-- C98, partial: if a request is accepted, then each of its signatures that has 64 bytes is a
signature of the request itself, for the key of its identifier. The full property, for
signatures of any length, is false: see `C98_suffix`. -/
theorem C98_signed_partial (valid : Bytes → Bytes → Bytes → Bool) (fl : UInt64 → Bytes) (clients : Dict Bytes Val)
    (nym : Bytes → Option Val) (req : Obj) (ids : List Bytes)
    (h : coreAuthenticate (Did.env valid fl clients nym) req = .ok ids) (sigs : List (Bytes × Val))
    (hs : Spec.Auth.Carries req sigs) (did : Bytes) (v : Val) (he : (did, v) ∈ sigs)
    (hd : identifierF (.str did) = .ok true) :
    ∃ text sig record bytes, v = .str text ∧ b58decode text = some sig ∧
      Spec.Auth.KeyOf (Did.env valid fl clients nym) (Spec.Auth.signedPart req) did (.str record) ∧
      ser fl (.dict (Spec.Auth.signedPart req)) = some bytes ∧
      (sig.length = 64 → record = [] ∨ verkeyF (.str record) = .ok true →
        ∃ key, KeyOf did record key ∧ Signs valid key sig bytes) := by
  obtain ⟨sigs', hs', _, hg, _⟩ := (core_auth _ _ _).mp h
  have hsame : sigs' = sigs := by
    have h1 := (signaturesOf_iff req sigs').mpr hs'
    have h2 := (signaturesOf_iff req sigs).mpr hs
    rw [h1] at h2
    injection h2
  subst hsame
  obtain ⟨raw, bytes, key, hb, hser, hkey, hkn, hv⟩ := hg _ he
  have hb' : (Did.env valid fl clients nym).b58decode v = some raw := hb
  have hv' : didVerify valid key did raw bytes = some true := hv
  cases v with
  | str text =>
    cases key with
    | str record =>
      refine ⟨text, raw, record, bytes, rfl, hb', hkey, hser, ?_⟩
      intro hlen hr
      obtain ⟨k, hk, _, hsig⟩ := (didVerify_iff valid hd hr raw bytes).mp hv'
      rw [List.take_left' hlen, List.drop_left' hlen] at hsig
      exact ⟨k, hk, hsig⟩
    | _ => cases hv'
  | _ => cases hb'

/-- C98, the code violates it: a signature of any bytes that end with those of a message is
accepted for the message, when what stands before them is put behind the signature. -/
theorem C98_suffix (valid : Bytes → Bytes → Bytes → Bool) (did record key : Bytes)
    (hd : identifierF (.str did) = .ok true) (hr : verkeyF (.str record) = .ok true)
    (hk : KeyOf did record key) (h32 : key.length = 32) (S before msg : Bytes)
    (hS : Signs valid key S (before ++ msg)) :
    didVerify valid (.str record) did (S ++ before) msg = some true := by
  refine (didVerify_iff valid hd (.inr hr) _ _).mpr ⟨key, hk, h32, ?_⟩
  rw [List.append_assoc, List.take_left' hS.1, List.drop_left' hS.1]
  exact hS

/-! ### An endorser that is taken off -/

/-- The fields of a request that are signed besides the endorser. -/
def signedFields : List Bytes :=
  [ascii "identifier", ascii "reqId", ascii "operation", ascii "protocolVersion", ascii "taaAcceptance"]

theorem did_put_last {α : Type} (k : Bytes) (v : α) (x : Bytes × α) (l : List (Bytes × α))
    (h : Kv.bytewise k x.1 = 1) : Kv.put Kv.bytewise k v (x :: l) = x :: Kv.put Kv.bytewise k v l := by
  show (if Kv.bytewise k x.1 = 0 then _ else if Kv.bytewise k x.1 < 0 then _ else _) = _
  rw [h]
  rfl

theorem did_sort_last {α : Type} (x : Bytes × α) (l : List (Bytes × α)) (h : ∀ e ∈ l, Kv.bytewise e.1 x.1 = 1) :
    sortItems (l ++ [x]) = x :: sortItems l := by
  induction l with
  | nil => rfl
  | cons e l ih =>
    show Kv.put Kv.bytewise e.1 e.2 (sortItems (l ++ [x])) = x :: Kv.put Kv.bytewise e.1 e.2 (sortItems l)
    rw [ih (fun e he => h e (by simp [he])), did_put_last _ _ _ _ (h e (by simp))]

theorem did_put_ne {α : Type} (k : Bytes) (v : α) (l : List (Bytes × α)) : Kv.put Kv.bytewise k v l ≠ [] := by
  cases l with
  | nil => simp [Kv.put]
  | cons e r =>
    unfold Kv.put
    split
    · simp
    · split <;> simp

theorem did_serItems_snoc (fl : UInt64 → Bytes) (k e : Bytes) (l : List (Bytes × Val)) :
    serItems fl (l ++ [(k, .str e)]) = (serItems fl l).map (· ++ [(k, e)]) := by
  induction l with
  | nil => rfl
  | cons a l ih =>
    obtain ⟨a, v⟩ := a
    rw [List.cons_append, serItems, ih, serItems]
    cases ser fl v <;> cases serItems fl l <;> rfl

theorem did_serItems_keys (fl : UInt64 → Bytes) : ∀ (l : List (Bytes × Val)) (m : List (Bytes × Bytes)),
    serItems fl l = some m → m.map Prod.fst = l.map Prod.fst := by
  intro l
  induction l with
  | nil => intro m h; rw [serItems] at h; cases h; rfl
  | cons a l ih =>
    intro m h
    obtain ⟨a, v⟩ := a
    rw [serItems] at h
    split at h
    next x y _ hy =>
      cases h
      rw [List.map_cons, List.map_cons, ih y hy]
    next => cases h

theorem did_after_endorser : ∀ k ∈ signedFields, Kv.bytewise k (ascii "endorser") = 1 := by decide +kernel

/-- The signing form of a request with an endorser is that of the request without it, after
the endorser. -/
theorem did_ser_endorser (fl : UInt64 → Bytes) (rest : Obj) (e b : Bytes) (hne : rest ≠ [])
    (hk : ∀ x ∈ rest, x.1 ∈ signedFields) (h : ser fl (.dict rest) = some b) :
    ser fl (.dict (rest ++ [(ascii "endorser", .str e)])) = some (ascii "endorser:" ++ e ++ ascii "|" ++ b) := by
  rw [ser] at h ⊢
  rw [did_serItems_snoc]
  cases hm : serItems fl rest with
  | none => rw [hm] at h; cases h
  | some m =>
    rw [hm] at h
    simp only [Option.map_some, Option.some.injEq] at h ⊢
    have hkeys := did_serItems_keys fl rest m hm
    rw [did_sort_last]
    · cases hs : sortItems m with
      | nil =>
        exfalso
        cases m with
        | nil =>
          cases rest with
          | nil => exact hne rfl
          | cons => simp at hkeys
        | cons a m => exact did_put_ne _ _ _ hs
      | cons a r =>
        rw [hs] at h
        simp only [List.map_cons] at h ⊢
        rw [show ∀ x : Bytes, join bar (x :: item a :: r.map item) = x ++ bar :: join bar (item a :: r.map item) from
          fun _ => rfl, h]
        simp [item, ascii, Signing.colon, bar]
    · intro x hx
      have : x.1 ∈ rest.map Prod.fst := by rw [← hkeys]; exact List.mem_map_of_mem hx
      obtain ⟨y, hy, he⟩ := List.mem_map.mp this
      rw [← he]
      exact did_after_endorser _ (hk y hy)

theorem did_get_append {l : Obj} {k k' : Bytes} {v : Val} (h : k ∉ l.map Prod.fst) :
    Dict.get? (l ++ [(k, v)]) k = some v ∧ (k' ≠ k → Dict.get? (l ++ [(k, v)]) k' = Dict.get? l k') := by
  induction l with
  | nil =>
    refine ⟨by simp [Dict.get?], fun hne => ?_⟩
    simp [Dict.get?, Ne.symm hne]
  | cons a l ih =>
    obtain ⟨a, w⟩ := a
    simp only [List.map_cons, List.mem_cons, not_or] at h
    obtain ⟨h1, h2⟩ := ih h.2
    refine ⟨?_, fun hne => ?_⟩
    · rw [List.cons_append, Dict.get?, if_neg (by simpa using Ne.symm h.1)]; exact h1
    · rw [List.cons_append, Dict.get?, Dict.get?]
      split
      · rfl
      · exact h2 hne

/-- C98, the code violates it: from the signature of the author of a request that names an
endorser, anyone makes a request without the endorser that is accepted as signed by the author,
with all other fields the same, whatever they are. -/
theorem C98_endorser_stripped (valid : Bytes → Bytes → Bytes → Bool) (fl : UInt64 → Bytes)
    (nym : Bytes → Option Val) (rest : Obj) (hk : ∀ x ∈ rest, x.1 ∈ signedFields)
    (did record key endorser : Bytes) (hid : Dict.get? rest (ascii "identifier") = some (.str did))
    (hd : identifierF (.str did) = .ok true) (hr : verkeyF (.str record) = .ok true)
    (hkey : KeyOf did record key) (h32 : key.length = 32) (hn : nym did = some (.str record))
    (S bytes : Bytes) (hser : ser fl (.dict (rest ++ [(ascii "endorser", .str endorser)])) = some bytes)
    (hS : Signs valid key S bytes) (hrest : (ser fl (.dict rest)).isSome) :
    coreAuthenticate (Did.env valid fl [] nym)
      (rest ++ [(ascii "signature", .str (b58encode (S ++ (ascii "endorser:" ++ endorser ++ ascii "|"))))]) = .ok [did] := by
  have hne : rest ≠ [] := by intro e; rw [e] at hid; cases hid
  obtain ⟨b, hb⟩ := Option.isSome_iff_exists.mp hrest
  rw [did_ser_endorser fl rest endorser b hne hk hb] at hser
  cases hser
  generalize hP : ascii "endorser:" ++ endorser ++ ascii "|" = P at *
  have hnosig : ascii "signature" ∉ rest.map Prod.fst := by
    intro hc
    obtain ⟨y, hy, he⟩ := List.mem_map.mp hc
    have := hk y hy
    rw [he] at this
    exact absurd this (by decide +kernel)
  have hget := fun k' => did_get_append (k' := k') (v := .str (b58encode (S ++ P))) hnosig
  have hidr : Dict.get? (rest ++ [(ascii "signature", .str (b58encode (S ++ P)))]) (ascii "identifier") = some (.str did) := by
    rw [(hget _).2 (by decide +kernel), hid]
  have hpart : Spec.Auth.signedPart (rest ++ [(ascii "signature", .str (b58encode (S ++ P)))]) = rest := by
    unfold Spec.Auth.signedPart
    rw [List.filter_append, List.filter_eq_self.mpr]
    · simp
    · intro a ha
      have := hk a ha
      revert this
      have hall : ∀ k ∈ signedFields, decide (k ≠ ascii "signature" ∧ k ≠ ascii "signatures" ∧ k ≠ ascii "fees") = true := by
        decide +kernel
      exact hall a.1
  refine (core_auth _ _ _).mpr ⟨[(did, .str (b58encode (S ++ P)))], ?_, by simp, ?_, rfl⟩
  · refine .one did _ ⟨?_, ?_⟩ hidr (hget []).1
    · rw [hidr]
      cases did with
      | nil =>
        obtain ⟨bs, h1, h2⟩ := (base58F_iff _ _).mp hd
        rw [decode_nil] at h1
        cases h1
        simp at h2
      | cons => rfl
    · rw [(hget []).1]
      have : b58encode (S ++ P) ≠ [] := by
        apply did_encode_ne
        intro e
        have := hS.1
        rw [List.append_eq_nil_iff] at e
        rw [e.1] at this
        cases this
      show (!List.isEmpty _) = true
      simpa using this
  · intro x hx
    rw [List.mem_singleton.mp hx, hpart]
    refine ⟨S ++ P, b, .str record, decode_encode _, hb, .ledger rfl hn, by simp, ?_⟩
    exact C98_suffix valid did record key hd hr hkey h32 S P b hS

/-- C98: the request without the endorser is another request: what the pool looks up to see if
a request was already ordered, the digest of its payload, is taken of other bytes. -/
theorem C98_other_payload (fl : UInt64 → Bytes) (r : Signing.Request) (e b : Bytes) (he : r.endorser = none)
    (h : r.payloadBytes fl = some b) : ({r with endorser := some e} : Signing.Request).payloadBytes fl ≠ some b := by
  have hf : ∀ d : Obj, d.filter (fun e => !([] : List Bytes).contains e.1) = d := filter_nothing
  have hst : ({r with endorser := some e} : Signing.Request).signingPayloadState =
      r.signingPayloadState ++ [(ascii "endorser", .str e)] := by
    unfold Signing.Request.signingPayloadState
    rw [he]
    simp [Signing.field, Signing.Request.idr]
  unfold Signing.Request.payloadBytes Signing.serializeMsgForSigning Signing.serialize at *
  simp only [hf] at *
  rw [hst, did_ser_endorser fl _ e b]
  · intro hc
    simp only [Option.some.injEq] at hc
    have := congrArg List.length hc
    simp [ascii] at this
    omega
  · unfold Signing.Request.signingPayloadState; simp
  · intro x hx
    unfold Signing.Request.signingPayloadState at hx
    rw [he] at hx
    simp only [List.mem_append, List.mem_cons, List.not_mem_nil, or_false, Option.map_none, Signing.field] at hx
    have hfield : ∀ (n : String) (v : Option Val), x ∈ Signing.field n v → x.1 = ascii n := by
      intro n v hv
      cases v with
      | none => cases hv
      | some v => rw [List.mem_singleton.mp hv]
    rcases hx with ((hx | hx | hx) | hx) | hx
    · rw [hx]; dsimp only; decide +kernel
    · rw [hx]; dsimp only; decide +kernel
    · rw [hx]; dsimp only; decide +kernel
    · rw [hfield _ _ hx]; decide +kernel
    · rw [hfield _ _ hx]; decide +kernel
  · exact h

/-! ### A case: the author names an endorser, the endorser's name is taken off -/

private def authorDid : Bytes := b58encode half1
private def authorKey : Bytes := half1 ++ half2
private def endorserDid : Bytes := b58encode (List.replicate 16 5)
private def strippedRest : Obj :=
  [(ascii "identifier", .str authorDid), (ascii "reqId", .int 7),
   (ascii "operation", .dict [(ascii "type", .str (ascii "1")), (ascii "dest", .str endorserDid)]),
   (ascii "protocolVersion", .int 2)]
private def authorSig : Bytes := List.replicate 64 3
/-- The author made one signature: that of the request with the endorser. -/
private def oneSignature (key sig msg : Bytes) : Bool :=
  key == authorKey && sig == authorSig &&
    some msg == ser (fun _ => []) (.dict (strippedRest ++ [(ascii "endorser", .str endorserDid)]))
private def stripped : Obj :=
  strippedRest ++ [(ascii "signature", .str (b58encode (authorSig ++ (ascii "endorser:" ++ endorserDid ++ ascii "|"))))]

/-- The request without the endorser is valid for the schemas and accepted as signed. Signed
with the same signature as it stands, it is not. -/
example : coreAuthenticate (Did.env oneSignature (fun _ => []) []
      (fun d => if d = authorDid then some (.str (ascii "~" ++ b58encode half2)) else none)) stripped = .ok [authorDid] ∧
    Schema.requestF ⟨fun _ => none, fun _ => false, []⟩ (.dict stripped) = .ok true ∧
    coreAuthenticate (Did.env oneSignature (fun _ => []) []
      (fun d => if d = authorDid then some (.str (ascii "~" ++ b58encode half2)) else none))
      (strippedRest ++ [(ascii "signature", .str (b58encode authorSig))]) = .error .insufficientCorrectSignatures ∧
    coreAuthenticate (Did.env oneSignature (fun _ => []) []
      (fun d => if d = authorDid then some (.str (ascii "~" ++ b58encode half2)) else none))
      (strippedRest ++ [(ascii "endorser", .str endorserDid), (ascii "signature", .str (b58encode authorSig))]) =
      .ok [authorDid] ∧
    (∀ x ∈ strippedRest, x.1 ∈ signedFields) ∧ (ser (fun _ => []) (.dict strippedRest)).isSome := by
  refine ⟨?_, ?_, ?_, ?_, ?_, ?_⟩ <;> decide +kernel

end Verif.Props
