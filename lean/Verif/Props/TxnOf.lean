import Verif.Spec.TxnOf
import Verif.Props.Did
import Verif.Proofs.MsgPack
/-!
# The transaction made from a request
-/
namespace Verif.Props
open Verif Verif.Signing Verif.TxnOf
open Verif.Spec.TxnOf
open Verif.Auth (Obj item?)

/-- The payload of a transaction. -/
def txPayload (r : Request) (op : Obj) (d p : Bytes) : Obj :=
  [(ascii "type", (popped op (ascii "type")).getD .none), (ascii "data", .dict (payloadData op))] ++
      field "protocolVersion" (payloadProtocol r.protocolVersion) ++
      [(ascii "metadata", .dict (payloadMetadata r d p))] ++
      field "ver" (payloadVersion (popped op (ascii "type")) (popped op (ascii "ver")))

theorem tx_shape {H : Bytes → Bytes} {fl : UInt64 → Bytes} {r : Request} {n : Nat} {time : Option Int} {t : Obj}
    (h : ledgerTxn H fl r n time = some t) : ∃ op d p, r.operation = .dict op ∧ r.digest H fl = some d ∧
      r.payloadDigest H fl = some p ∧
      t = [(ascii "txn", .dict (txPayload r op d p)),
        (ascii "txnMetadata", .dict (field "txnTime" (time.map .int) ++ [(ascii "seqNo", .int n)])),
        (ascii "reqSignature", signaturePart r), (ascii "ver", .str (ascii "1"))] := by
  unfold ledgerTxn reqToTxn at h
  split at h
  · next op d p h1 h2 h3 =>
    refine ⟨op, d, p, h1, h2, h3, ?_⟩
    cases h
    cases time <;> rfl
  · cases h

/-- What is found in the fields of the payload. -/
theorem tx_payload (r : Request) (op : Obj) (d p : Bytes) :
    Dict.get? (txPayload r op d p) (ascii "type") = some ((popped op (ascii "type")).getD .none) ∧
    Dict.get? (txPayload r op d p) (ascii "data") = some (.dict (payloadData op)) ∧
    Dict.get? (txPayload r op d p) (ascii "metadata") = some (.dict (payloadMetadata r d p)) ∧
    Dict.get? (txPayload r op d p) (ascii "protocolVersion") = payloadProtocol r.protocolVersion ∧
    Dict.get? (txPayload r op d p) (ascii "ver") = payloadVersion (popped op (ascii "type")) (popped op (ascii "ver")) := by
  unfold txPayload
  cases payloadProtocol r.protocolVersion <;>
    cases payloadVersion (popped op (ascii "type")) (popped op (ascii "ver")) <;> exact ⟨rfl, rfl, rfl, rfl, rfl⟩

theorem tx_metadata (r : Request) (d p : Bytes) :
    Dict.get? (payloadMetadata r d p) (ascii "from") = r.identifier.map .str ∧
    Dict.get? (payloadMetadata r d p) (ascii "reqId") = some (.int r.reqId) ∧
    Dict.get? (payloadMetadata r d p) (ascii "taaAcceptance") = r.taaAcceptance ∧
    Dict.get? (payloadMetadata r d p) (ascii "digest") = some (.str d) ∧
    Dict.get? (payloadMetadata r d p) (ascii "payloadDigest") = some (.str p) ∧
    Dict.get? (payloadMetadata r d p) (ascii "endorser") = r.endorser.map .str := by
  unfold payloadMetadata
  cases r.identifier <;> cases r.taaAcceptance <;> cases r.endorser <;> exact ⟨rfl, rfl, rfl, rfl, rfl, rfl⟩

/-- **C99**, reading: of the transaction of any request the functions that read
transactions give the type, the data, the author, the number, the endorser, the acceptance,
the digests, the protocol version, the position and the time. A field the request does not
have is read as `None`. -/
theorem C99_reads (H : Bytes → Bytes) (fl : UInt64 → Bytes) (r : Request) (op : Obj) (n : Nat) (time : Option Int) (t : Obj)
    (hop : r.operation = .dict op) (h : ledgerTxn H fl r n time = some t) :
    getType t = some ((Dict.get? op (ascii "type")).getD .none) ∧
    getPayloadData t = some (.dict (op.filter (fun e => e.1 ≠ ascii "type" ∧ e.1 ≠ ascii "ver"))) ∧
    getFrom t = some (optText r.identifier) ∧
    getReqId t = some (.int r.reqId) ∧
    getEndorser t = some (optText r.endorser) ∧
    look (.dict t) ["txn", "metadata", "taaAcceptance"] = r.taaAcceptance ∧
    getDigest t = (r.digest H fl).map .str ∧
    getPayloadDigest t = (r.payloadDigest H fl).map .str ∧
    getProtocolVersion t = some (match r.protocolVersion with
      | some 0 => .none
      | some v => .int v
      | none => .none) ∧
    getSeqNo t = some (.int n) ∧
    getTxnTime t = some (match time with
      | some s => .int s
      | none => .none) := by
  obtain ⟨op', d, p, h1, h2, h3, rfl⟩ := tx_shape h
  rw [hop] at h1; cases h1
  obtain ⟨p1, p2, p3, p4, p5⟩ := tx_payload r op d p
  obtain ⟨m1, m2, m3, m4, m5, m6⟩ := tx_metadata r d p
  have hm : ∀ k, getAt [(ascii "txn", .dict (txPayload r op d p)),
        (ascii "txnMetadata", .dict (field "txnTime" (time.map .int) ++ [(ascii "seqNo", .int n)])),
        (ascii "reqSignature", signaturePart r), (ascii "ver", .str (ascii "1"))] ["txn", "metadata"] k =
      some ((Dict.get? (payloadMetadata r d p) (ascii k)).getD .none) := fun k => by
    show ((match Dict.get? (txPayload r op d p) (ascii "metadata") with
      | some w => path w []
      | none => none).map fun v => (item? v (ascii k)).getD .none) = _
    rw [p3]; rfl
  refine ⟨?_, ?_, ?_, ?_, ?_, ?_, ?_, ?_, ?_, ?_, ?_⟩
  · show (match Dict.get? (txPayload r op d p) (ascii "type") with
      | some w => path w []
      | none => none) = _
    rw [p1]
    unfold popped path
    cases hh : Dict.get? op (ascii "type") with
    | none => rfl
    | some v => cases v <;> rfl
  · show (match Dict.get? (txPayload r op d p) (ascii "data") with
      | some w => path w []
      | none => none) = _
    rw [p2]; rfl
  · unfold getFrom; rw [hm, m1]; cases r.identifier <;> rfl
  · unfold getReqId; rw [hm, m2]; rfl
  · unfold getEndorser; rw [hm, m6]; cases r.endorser <;> rfl
  · show (match Dict.get? (txPayload r op d p) (ascii "metadata") with
      | some w => look w ["taaAcceptance"]
      | none => none) = _
    rw [p3]
    show (match Dict.get? (payloadMetadata r d p) (ascii "taaAcceptance") with
      | some w => look w []
      | none => none) = _
    rw [m3]
    cases r.taaAcceptance with
    | none => rfl
    | some v => cases v <;> rfl
  · show ((match Dict.get? (txPayload r op d p) (ascii "metadata") with
      | some w => path w []
      | none => none).map fun m =>
        if (item? m (ascii "payloadDigest")).isSome then (item? m (ascii "digest")).getD .none else .none) = _
    rw [p3, h2]
    show some (if (Dict.get? (payloadMetadata r d p) (ascii "payloadDigest")).isSome then
      (Dict.get? (payloadMetadata r d p) (ascii "digest")).getD .none else .none) = _
    rw [m4, m5]; rfl
  · show ((match Dict.get? (txPayload r op d p) (ascii "metadata") with
      | some w => path w []
      | none => none).map fun m =>
        match (item? m (ascii "payloadDigest")).getD .none with
        | .none => (item? m (ascii "digest")).getD .none
        | v => v) = _
    rw [p3, h3]
    show some (match (Dict.get? (payloadMetadata r d p) (ascii "payloadDigest")).getD .none with
        | .none => (Dict.get? (payloadMetadata r d p) (ascii "digest")).getD .none
        | v => v) = _
    rw [m5]; rfl
  · show some ((Dict.get? (txPayload r op d p) (ascii "protocolVersion")).getD .none) = _
    rw [p4]
    unfold payloadProtocol
    cases r.protocolVersion with
    | none => rfl
    | some v =>
      by_cases e : v = 0
      · subst e; rfl
      · simp only [if_neg e, Option.getD_some]
  · cases time <;> rfl
  · cases time <;> rfl

/-! ## Putting the request together again -/

theorem tx_serItems (fl : UInt64 → Bytes) (d : Obj) (l : List (Bytes × Bytes)) :
    serItems fl d = some l ↔ d.map (fun e => (e.1, ser fl e.2)) = l.map (fun e => (e.1, some e.2)) := by
  induction d generalizing l with
  | nil => simp only [serItems, Option.some.injEq, List.map_nil]; constructor
           · rintro rfl; rfl
           · intro h; exact (List.map_eq_nil_iff.1 h.symm).symm
  | cons e d ih =>
    obtain ⟨k, v⟩ := e
    unfold serItems
    cases hv : ser fl v with
    | none =>
      simp only [reduceCtorEq, false_iff, List.map_cons, hv]
      intro h
      cases l with
      | nil => cases h
      | cons x l => simp at h
    | some x =>
      cases hd : serItems fl d with
      | none =>
        simp only [reduceCtorEq, false_iff, List.map_cons]
        intro h
        cases l with
        | nil => cases h
        | cons y l =>
          simp only [List.map_cons, List.cons.injEq] at h
          have := (ih l).2 h.2
          rw [hd] at this; cases this
      | some y =>
        simp only [Option.some.injEq, List.map_cons, hv]
        have h1 := (ih y).1 hd
        constructor
        · rintro rfl; simp [h1]
        · intro h
          cases l with
          | nil => cases h
          | cons z l =>
            simp only [List.map_cons, List.cons.injEq, Prod.mk.injEq, Option.some.injEq] at h
            have := (ih l).2 h.2
            rw [hd] at this
            cases this
            obtain ⟨z1, z2⟩ := z
            obtain ⟨⟨rfl, rfl⟩, _⟩ := h
            rfl

theorem tx_serItems_none (fl : UInt64 → Bytes) (d : Obj) :
    serItems fl d = none ↔ ∃ e ∈ d, ser fl e.2 = none := by
  induction d with
  | nil => simp [serItems]
  | cons e d ih =>
    obtain ⟨k, v⟩ := e
    unfold serItems
    cases hv : ser fl v with
    | none => simp [hv]
    | some x =>
      cases hd : serItems fl d with
      | none => rw [hd] at ih; simpa [hv] using ih
      | some y => rw [hd] at ih; simpa [hv] using ih

/-- The signing form of a dict does not depend on the order of its entries. -/
theorem tx_ser_congr (fl : UInt64 → Bytes) {d e : Obj} (hd : (d.map Prod.fst).Nodup) (he : (e.map Prod.fst).Nodup)
    (h : ∀ x, x ∈ d ↔ x ∈ e) : ser fl (.dict d) = ser fl (.dict e) := by
  unfold ser
  cases h1 : serItems fl d with
  | none =>
    obtain ⟨x, hx, hn⟩ := (tx_serItems_none fl d).1 h1
    rw [(tx_serItems_none fl e).2 ⟨x, (h x).1 hx, hn⟩]
  | some l =>
    cases h2 : serItems fl e with
    | none =>
      obtain ⟨x, hx, hn⟩ := (tx_serItems_none fl e).1 h2
      rw [(tx_serItems_none fl d).2 ⟨x, (h x).2 hx, hn⟩] at h1; cases h1
    | some m =>
      have k1 := (tx_serItems fl d l).1 h1
      have k2 := (tx_serItems fl e m).1 h2
      have f1 : l.map Prod.fst = d.map Prod.fst := by
        have := congrArg (List.map Prod.fst) k1
        simp only [List.map_map] at this; exact this.symm
      have f2 : m.map Prod.fst = e.map Prod.fst := by
        have := congrArg (List.map Prod.fst) k2
        simp only [List.map_map] at this; exact this.symm
      have mem : ∀ (a : List (Bytes × Bytes)) (c : Obj), c.map (fun e => (e.1, ser fl e.2)) = a.map (fun e => (e.1, some e.2)) →
          ∀ x, x ∈ a ↔ ∃ y ∈ c, y.1 = x.1 ∧ ser fl y.2 = some x.2 := by
        intro a c hac x
        constructor
        · intro hx
          have : (x.1, some x.2) ∈ c.map (fun e => (e.1, ser fl e.2)) := by
            rw [hac]; exact List.mem_map.2 ⟨x, hx, rfl⟩
          obtain ⟨y, hy, hyx⟩ := List.mem_map.1 this
          simp only [Prod.mk.injEq] at hyx
          exact ⟨y, hy, hyx.1, hyx.2⟩
        · rintro ⟨y, hy, e1, e2⟩
          have : (x.1, some x.2) ∈ a.map (fun e => (e.1, some e.2)) := by
            rw [← hac]; exact List.mem_map.2 ⟨y, hy, by rw [e1, e2]⟩
          obtain ⟨z, hz, hzx⟩ := List.mem_map.1 this
          simp only [Prod.mk.injEq, Option.some.injEq] at hzx
          have : z = x := Prod.ext hzx.1 hzx.2
          exact this ▸ hz
      simp only [Option.map_some, Option.some.injEq]
      rw [Verif.MsgPack.sortItems_congr (d := l) (e := m) (by rw [f1]; exact hd) (by rw [f2]; exact he)]
      intro x
      rw [mem l d k1, mem m e k2]
      constructor
      · rintro ⟨y, hy, r⟩; exact ⟨y, (h y).1 hy, r⟩
      · rintro ⟨y, hy, r⟩; exact ⟨y, (h y).2 hy, r⟩

/-- Only the signing form of an entry counts. -/
theorem tx_ser_at (fl : UInt64 → Bytes) (pre d : Obj) (k : Bytes) {o o' : Val} (h : ser fl o = ser fl o') :
    ser fl (.dict (pre ++ (k, o) :: d)) = ser fl (.dict (pre ++ (k, o') :: d)) := by
  have : serItems fl (pre ++ (k, o) :: d) = serItems fl (pre ++ (k, o') :: d) := by
    induction pre with
    | nil => simp only [List.nil_append, serItems, h]
    | cons e pre ih => obtain ⟨x, y⟩ := e; simp only [List.cons_append, serItems, ih]
  simp only [ser, this]

theorem tx_get_congr {d e : Obj} (hd : d.keys.Nodup) (he : e.keys.Nodup) (h : ∀ x, x ∈ d ↔ x ∈ e) (k : Bytes) :
    Dict.get? d k = Dict.get? e k := by
  cases h1 : Dict.get? d k with
  | some v => exact (Dict.get?_of_mem he ((h _).1 (Dict.mem_of_get? h1))).symm
  | none =>
    cases h2 : Dict.get? e k with
    | none => rfl
    | some v => rw [Dict.get?_of_mem hd ((h _).2 (Dict.mem_of_get? h2))] at h1; cases h1

/-- The signatures read are those written. -/
theorem tx_signatures (r : Request) (x y : Val) :
    signatures [(ascii "txn", x), (ascii "txnMetadata", y), (ascii "reqSignature", signaturePart r),
      (ascii "ver", .str (ascii "1"))] = txnSigs r := by
  unfold signatures entry
  show (match (match look (signaturePart r) ["values"] with
      | some .none => none
      | x => x) with
    | some (.list l) => l.filterMap signatureOf
    | _ => []) = _
  unfold signaturePart
  by_cases h : r.signature = none ∧ r.signatures = none
  · rw [if_pos h]
    unfold txnSigs
    rw [h.1, h.2]; rfl
  · rw [if_neg h]
    show ((txnSigs r).map (fun e => Val.dict [(ascii "from", optText e.1), (ascii "value", .str e.2)])).filterMap signatureOf = _
    rw [List.filterMap_map]
    have : (signatureOf ∘ fun e : Option Bytes × Bytes => Val.dict [(ascii "from", optText e.1), (ascii "value", .str e.2)]) =
        some := by
      funext e
      obtain ⟨f, v⟩ := e
      cases f <;> rfl
    rw [this, List.filterMap_some]

/-- The operation put together from the transaction has the same entries. -/
theorem tx_operation {op : Obj} {typ : Val} (hk : op.keys.Nodup) (ht : Dict.get? op (ascii "type") = some typ) :
    let op' : Obj := (ascii "type", typ) :: (field "ver" (Dict.get? op (ascii "ver")) ++ payloadData op)
    op'.keys.Nodup ∧ ∀ x, x ∈ op' ↔ x ∈ op := by
  intro op'
  have hne : ascii "type" ≠ ascii "ver" := by decide
  have hpd : ∀ x, x ∈ payloadData op ↔ x ∈ op ∧ x.1 ≠ ascii "type" ∧ x.1 ≠ ascii "ver" := fun x => by
    unfold payloadData; simp [List.mem_filter]
  have hnp : ((payloadData op).map Prod.fst).Nodup := (List.filter_sublist.map _).nodup hk
  have hf : ∀ x, x ∈ field "ver" (Dict.get? op (ascii "ver")) ↔ x ∈ op ∧ x.1 = ascii "ver" := fun x => by
    obtain ⟨k, v⟩ := x
    cases hv : Dict.get? op (ascii "ver") with
    | none =>
      simp only [field, List.not_mem_nil, false_iff]
      rintro ⟨h1, rfl⟩
      rw [Dict.get?_of_mem hk h1] at hv; cases hv
    | some w =>
      simp only [field, List.mem_singleton, Prod.mk.injEq]
      constructor
      · rintro ⟨rfl, rfl⟩; exact ⟨Dict.mem_of_get? hv, rfl⟩
      · rintro ⟨h1, rfl⟩
        rw [Dict.get?_of_mem hk h1] at hv; cases hv; exact ⟨rfl, rfl⟩
  refine ⟨?_, fun x => ?_⟩
  · show (op'.map Prod.fst).Nodup
    simp only [op', List.map_cons, List.map_append, List.nodup_cons, List.mem_append, List.mem_map]
    refine ⟨?_, List.nodup_append.2 ⟨?_, hnp, ?_⟩⟩
    · rintro (⟨x, h1, h2⟩ | ⟨x, h1, h2⟩)
      · exact hne (h2.symm.trans ((hf x).1 h1).2)
      · exact ((hpd x).1 h1).2.1 h2
    · cases Dict.get? op (ascii "ver") <;> simp [field]
    · intro a ha b hb hab
      obtain ⟨x, hx, rfl⟩ := List.mem_map.1 ha
      obtain ⟨y, hy, rfl⟩ := List.mem_map.1 hb
      exact ((hpd y).1 hy).2.2 (hab ▸ ((hf x).1 hx).2)
  · simp only [op', List.mem_cons, List.mem_append, hf, hpd]
    constructor
    · rintro (rfl | h | h)
      · exact Dict.mem_of_get? ht
      · exact h.1
      · exact h.1
    · intro h
      by_cases e1 : x.1 = ascii "type"
      · left
        obtain ⟨k, v⟩ := x
        subst e1
        rw [Dict.get?_of_mem hk h] at ht; cases ht; rfl
      · by_cases e2 : x.1 = ascii "ver"
        · exact .inr (.inl ⟨h, e2⟩)
        · exact .inr (.inr ⟨h, e1, e2⟩)

theorem tx_version {op : Obj} {typ : Val} (h0 : typ ≠ .none) (h : VersionSaid op typ) :
    payloadVersion (some typ) (popped op (ascii "ver")) = Dict.get? op (ascii "ver") := by
  unfold popped payloadVersion
  rcases h with ⟨v, h1, h2⟩ | ⟨h1, h2⟩
  · rw [h1]; cases v <;> first | rfl | exact absurd rfl h2
  · rw [h1]
    have : currentPayloadVersion (some typ) = ascii "1" := by
      unfold currentPayloadVersion
      rw [if_neg]
      intro h; cases h; exact h2 rfl
    simp [this]

/-- What is signed of a request. -/
theorem tx_signedPart (r : Request) : Spec.Auth.signedPart (asDict r) =
    (ascii "reqId", .int r.reqId) :: (ascii "operation", r.operation) ::
      (field "identifier" (r.identifier.map .str) ++ field "protocolVersion" (r.protocolVersion.map .int) ++
        field "taaAcceptance" r.taaAcceptance ++ field "endorser" (r.endorser.map .str)) := by
  unfold Spec.Auth.signedPart asDict
  cases r.identifier <;> cases r.signatures <;> cases r.signature <;> cases r.protocolVersion <;>
    cases r.taaAcceptance <;> cases r.endorser <;> rfl

theorem tx_sort_idem (d : List (Bytes × Bytes)) (h : (d.map Prod.fst).Nodup) : sortItems (sortItems d) = sortItems d :=
  Verif.MsgPack.sortItems_congr (Verif.MsgPack.sortItems_nodup d h) h (Verif.MsgPack.sortItems_spec d h).2

theorem tx_named (r : Request) (h : r.identifier = none → r.signature = none) :
    named (txnSigs r) = match r.signature, r.identifier with
      | some s, some i => [(i, s)]
      | _, _ => sortItems (r.signatures.getD []) := by
  unfold txnSigs
  cases hs : r.signature with
  | some s =>
    cases hi : r.identifier with
    | some i => rfl
    | none => rw [h hi] at hs; cases hs
  | none =>
    simp only
    unfold named
    rw [List.filterMap_map]
    have : ((fun e : Option Bytes × Bytes => e.1.map (fun i => (i, e.2))) ∘ fun e : Bytes × Bytes => (some e.1, e.2)) = some := by
      funext e; rfl
    rw [this, List.filterMap_some]

/-- What the reader gets. -/
theorem tx_recover {H : Bytes → Bytes} {fl : UInt64 → Bytes} {r : Request} {n : Nat} {time : Option Int} {t op : Obj}
    {typ : Val} (h : ledgerTxn H fl r n time = some t) (hp : Proper r op typ) :
    recover t = some {
      identifier := r.identifier, reqId := r.reqId
      operation := .dict ((ascii "type", typ) ::
        (field "ver" (payloadVersion (some typ) (popped op (ascii "ver"))) ++ payloadData op))
      signatures := some (named (txnSigs r)), protocolVersion := r.protocolVersion, taaAcceptance := r.taaAcceptance
      endorser := r.endorser } := by
  obtain ⟨op', d, p, h1, h2, h3, rfl⟩ := tx_shape h
  rw [hp.operation] at h1; cases h1
  obtain ⟨p1, p2, p3, p4, p5⟩ := tx_payload r op d p
  obtain ⟨m1, m2, m3, m4, m5, m6⟩ := tx_metadata r d p
  have hty : popped op (ascii "type") = some typ := by
    unfold popped
    rw [hp.type]
    have := hp.typed
    cases typ <;> first | rfl | exact absurd rfl this
  have hpay : ∀ k, entry [(ascii "txn", .dict (txPayload r op d p)),
        (ascii "txnMetadata", .dict (field "txnTime" (time.map .int) ++ [(ascii "seqNo", .int n)])),
        (ascii "reqSignature", signaturePart r), (ascii "ver", .str (ascii "1"))] ["txn", k] =
      popped (txPayload r op d p) (ascii k) := fun k => by
    unfold popped entry
    show (match (match Dict.get? (txPayload r op d p) (ascii k) with
      | some w => look w []
      | none => none) with
      | some .none => none
      | x => x) = _
    cases Dict.get? (txPayload r op d p) (ascii k) with
    | none => rfl
    | some v => cases v <;> rfl
  have hmet : ∀ k, entry [(ascii "txn", .dict (txPayload r op d p)),
        (ascii "txnMetadata", .dict (field "txnTime" (time.map .int) ++ [(ascii "seqNo", .int n)])),
        (ascii "reqSignature", signaturePart r), (ascii "ver", .str (ascii "1"))] ["txn", "metadata", k] =
      popped (payloadMetadata r d p) (ascii k) := fun k => by
    unfold popped entry
    show (match (match Dict.get? (txPayload r op d p) (ascii "metadata") with
      | some w => look w [k]
      | none => none) with
      | some .none => none
      | x => x) = _
    rw [p3]
    show (match (match Dict.get? (payloadMetadata r d p) (ascii k) with
      | some w => look w []
      | none => none) with
      | some .none => none
      | x => x) = _
    cases Dict.get? (payloadMetadata r d p) (ascii k) with
    | none => rfl
    | some v => cases v <;> rfl
  have pop_none : ∀ (d : Obj) k, Dict.get? d k ≠ some .none → popped d k = Dict.get? d k := by
    intro d k hne
    unfold popped
    split
    · next h => exact absurd h hne
    · rfl
  have e1 : popped (txPayload r op d p) (ascii "type") = some typ := by
    rw [pop_none _ _ (by rw [p1, hty]; intro h; cases h; exact hp.typed rfl), p1, hty]; rfl
  have e2 : popped (txPayload r op d p) (ascii "data") = some (.dict (payloadData op)) := by
    rw [pop_none _ _ (by rw [p2]; intro h; cases h), p2]
  have e3 : popped (txPayload r op d p) (ascii "ver") = payloadVersion (some typ) (popped op (ascii "ver")) := by
    rw [pop_none _ _ (by
      rw [p5, hty]
      unfold payloadVersion popped
      split
      · next v hv =>
        split at hv
        · cases hv
        · next hn => intro h; cases h; exact hn hv
      · split
        · intro h; cases h
        · intro h; cases h), p5, hty]
  have e4 : number (popped (txPayload r op d p) (ascii "protocolVersion")) = r.protocolVersion := by
    unfold popped
    rw [p4]
    unfold payloadProtocol
    cases hv : r.protocolVersion with
    | none => rfl
    | some v =>
      have : v ≠ 0 := fun h => hp.protocol (by rw [hv, h])
      simp only [if_neg this]; rfl
  have f1 : text (popped (payloadMetadata r d p) (ascii "from")) = r.identifier := by
    unfold popped; rw [m1]; cases r.identifier <;> rfl
  have f2 : popped (payloadMetadata r d p) (ascii "reqId") = some (.int r.reqId) := by
    unfold popped; rw [m2]
  have f3 : popped (payloadMetadata r d p) (ascii "taaAcceptance") = r.taaAcceptance := by
    rw [pop_none _ _ (by rw [m3]; exact hp.acceptance), m3]
  have f4 : text (popped (payloadMetadata r d p) (ascii "endorser")) = r.endorser := by
    unfold popped; rw [m6]; cases r.endorser <;> rfl
  unfold recover
  rw [hpay, hpay, hmet, hpay, hpay, hmet, hmet, hmet, e1, e2, f2]
  simp only
  rw [e3, e4, f1, f3, f4, tx_signatures]

theorem tx_idr {r : Request} {op : Obj} {typ : Val} (hp : Proper r op typ) (o : Val) :
    ({ identifier := r.identifier, reqId := r.reqId, operation := o, signatures := some (named (txnSigs r)),
       protocolVersion := r.protocolVersion, taaAcceptance := r.taaAcceptance, endorser := r.endorser } : Request).idr =
      r.idr := by
  unfold Request.idr
  cases hi : r.identifier with
  | some i =>
    cases i with
    | nil => exact absurd hi hp.nonempty
    | cons c i => rfl
  | none =>
    simp only
    rw [tx_named r hp.signer, hp.signer hi]
    simp only
    cases hs : r.signatures with
    | none => rfl
    | some l =>
      have hn := hp.signers l hs
      cases l with
      | nil => rfl
      | cons e l =>
        simp only [Option.getD_some]
        have hid := tx_sort_idem _ hn
        cases hsort : sortItems (e :: l) with
        | nil =>
          have := ((Verif.MsgPack.sortItems_spec _ hn).2 e).2 List.mem_cons_self
          rw [hsort] at this; cases this
        | cons x y =>
          unfold genIdrFromSigs
          simp only
          rw [← hsort, hid]

/-- **C99**, in part: the transaction of a request is enough to put the request together
again, so that whoever has the ledger can check it. What is got has the same fields, the same
operation up to the order of its entries, the same payload digest, the same signed bytes, and a
signature is correct for it just if it is correct for the request. Missing: requests whose
version of the payload is not said by themselves (`C99_ver_ambiguous`). -/
theorem C99_recover_partial (H : Bytes → Bytes) (fl : UInt64 → Bytes) (r : Request) (op : Obj) (typ : Val) (n : Nat)
    (time : Option Int) (t : Obj) (hp : Proper r op typ) (hv : VersionSaid op typ) (h : ledgerTxn H fl r n time = some t) :
    ∃ r' op', recover t = some r' ∧ r'.operation = .dict op' ∧ (∀ k, Dict.get? op' k = Dict.get? op k) ∧
      r'.identifier = r.identifier ∧ r'.reqId = r.reqId ∧ r'.protocolVersion = r.protocolVersion ∧
      r'.taaAcceptance = r.taaAcceptance ∧ r'.endorser = r.endorser ∧ r'.idr = r.idr ∧
      getPayloadDigest t = (r'.payloadDigest H fl).map .str ∧
      (∀ fl', ser fl' (.dict (Spec.Auth.signedPart (asDict r'))) = ser fl' (.dict (Spec.Auth.signedPart (asDict r)))) ∧
      ∀ env i s, Spec.Auth.Good env (Spec.Auth.signedPart (asDict r')) i s ↔
        Spec.Auth.Good env (Spec.Auth.signedPart (asDict r)) i s := by
  have hr := tx_recover h hp
  rw [tx_version hp.typed hv] at hr
  obtain ⟨k1, k2⟩ := tx_operation hp.keys hp.type
  have hget := tx_get_congr k1 hp.keys k2
  have hser : ∀ fl', ser fl' (.dict ((ascii "type", typ) :: (field "ver" (Dict.get? op (ascii "ver")) ++ payloadData op))) =
      ser fl' (.dict op) := fun fl' => tx_ser_congr fl' k1 hp.keys k2
  have hidr := tx_idr hp (.dict ((ascii "type", typ) :: (field "ver" (Dict.get? op (ascii "ver")) ++ payloadData op)))
  have hsig : ∀ fl' (a b : Bytes × Val) (o o' : Val) (d : Obj), ser fl' o = ser fl' o' →
      ser fl' (.dict (a :: (ascii "operation", o) :: d)) = ser fl' (.dict (a :: (ascii "operation", o') :: d)) := by
    intro fl' a b o o' d ho
    obtain ⟨ka, va⟩ := a
    simp only [ser, serItems, ho]
  refine ⟨_, _, hr, rfl, hget, rfl, rfl, rfl, rfl, rfl, hidr, ?_, ?_, ?_⟩
  · rw [(C99_reads H fl r op n time t hp.operation h).2.2.2.2.2.2.2.1]
    unfold Request.payloadDigest Request.payloadBytes serializeMsgForSigning serialize Request.signingPayloadState
    rw [hidr]
    simp only [List.filter_eq_self.2 (fun (e : Bytes × Val) _ => show (!([] : List Bytes).contains e.1) = true from rfl)]
    congr 2
    rw [hp.operation]
    exact (tx_ser_at fl [_, _] _ _ (hser fl)).symm
  · intro fl'
    rw [tx_signedPart, tx_signedPart]
    exact hsig fl' _ (ascii "", .none) _ _ _ (by rw [hp.operation]; exact hser fl')
  · intro env i s
    have hb := hsig env.floatStr (ascii "reqId", .int r.reqId) (ascii "", .none) _ _
      (field "identifier" (r.identifier.map .str) ++ field "protocolVersion" (r.protocolVersion.map .int) ++
        field "taaAcceptance" r.taaAcceptance ++ field "endorser" (r.endorser.map .str)) (hser env.floatStr)
    rw [tx_signedPart, tx_signedPart, hp.operation]
    have hid : ∀ o : Val, Dict.get? ((ascii "reqId", Val.int r.reqId) :: (ascii "operation", o) ::
      (field "identifier" (r.identifier.map .str) ++ field "protocolVersion" (r.protocolVersion.map .int) ++
        field "taaAcceptance" r.taaAcceptance ++ field "endorser" (r.endorser.map .str))) (ascii "identifier") =
        r.identifier.map .str := by
      intro o
      cases r.identifier <;> cases r.protocolVersion <;> cases r.taaAcceptance <;> cases r.endorser <;> rfl
    have hkey : ∀ (o o' : Obj) (key : Val), (∀ k, Dict.get? o k = Dict.get? o' k) →
        Spec.Auth.KeyOf env ((ascii "reqId", Val.int r.reqId) :: (ascii "operation", .dict o) ::
      (field "identifier" (r.identifier.map .str) ++ field "protocolVersion" (r.protocolVersion.map .int) ++
        field "taaAcceptance" r.taaAcceptance ++ field "endorser" (r.endorser.map .str))) i key →
        Spec.Auth.KeyOf env ((ascii "reqId", Val.int r.reqId) :: (ascii "operation", .dict o') ::
      (field "identifier" (r.identifier.map .str) ++ field "protocolVersion" (r.protocolVersion.map .int) ++
        field "taaAcceptance" r.taaAcceptance ++ field "endorser" (r.endorser.map .str))) i key := by
      intro o o' key ho hk
      cases hk with
      | client h1 => exact .client h1
      | ledger h1 h2 => exact .ledger h1 h2
      | self q sender h1 h2 h3 h4 h5 h6 h7 =>
        have : q = o := by
          have h8 : some (Val.dict o) = some (.dict q) := h3
          cases h8; rfl
        subst this
        rw [hid] at h5
        exact .self o' sender h1 h2 rfl (by rw [← ho]; exact h4) (by rw [hid]; exact h5) (by rw [← ho]; exact h6)
          (by rw [← ho]; exact h7)
    unfold Spec.Auth.Good
    rw [hb]
    constructor
    · rintro ⟨raw, bytes, key, g1, g2, g3, g4, g5⟩
      exact ⟨raw, bytes, key, g1, g2, hkey _ _ key hget g3, g4, g5⟩
    · rintro ⟨raw, bytes, key, g1, g2, g3, g4, g5⟩
      exact ⟨raw, bytes, key, g1, g2, hkey _ _ key (fun k => (hget k).symm) g3, g4, g5⟩

/-- **C99**, signatures: the transaction has all signatures the request carries, with the
names of those that signed, and no others. -/
theorem C99_signatures (H : Bytes → Bytes) (fl : UInt64 → Bytes) (r : Request) (op : Obj) (typ : Val) (n : Nat)
    (time : Option Int) (t : Obj) (hp : Proper r op typ) (h : ledgerTxn H fl r n time = some t)
    (l : List (Bytes × Val)) (hl : Spec.Auth.Carries (asDict r) l) :
    (∀ e ∈ signatures t, ∃ i, e.1 = some i ∧ (i, .str e.2) ∈ l) ∧ ∀ e ∈ l, ∃ s, e.2 = .str s ∧ (some e.1, s) ∈ signatures t := by
  obtain ⟨op', d, p, h1, h2, h3, rfl⟩ := tx_shape h
  rw [tx_signatures]
  have g1 : Dict.get? (asDict r) (ascii "identifier") = r.identifier.map .str := by
    unfold asDict
    cases r.identifier <;> cases r.signatures <;> cases r.signature <;> cases r.protocolVersion <;>
      cases r.taaAcceptance <;> cases r.endorser <;> rfl
  have g2 : Dict.get? (asDict r) (ascii "signature") = r.signature.map .str := by
    unfold asDict
    cases r.identifier <;> cases r.signatures <;> cases r.signature <;> cases r.protocolVersion <;>
      cases r.taaAcceptance <;> cases r.endorser <;> rfl
  have g3 : Dict.get? (asDict r) (ascii "signatures") = r.signatures.map sigDict := by
    unfold asDict
    cases r.identifier <;> cases r.signatures <;> cases r.signature <;> cases r.protocolVersion <;>
      cases r.taaAcceptance <;> cases r.endorser <;> rfl
  cases hl with
  | one i s hs hi hsig =>
    rw [g1] at hi
    rw [g2] at hsig
    cases hri : r.identifier with
    | none => rw [hri] at hi; cases hi
    | some i' =>
      cases hrs : r.signature with
      | none => rw [hrs] at hsig; cases hsig
      | some s' =>
        rw [hri] at hi; rw [hrs] at hsig
        cases hi; cases hsig
        unfold txnSigs
        rw [hrs, hri]
        exact ⟨by simp, by simp⟩
  | many d hs hsig =>
    rw [g3] at hsig
    cases hrs : r.signatures with
    | none => rw [hrs] at hsig; cases hsig
    | some ds =>
      rw [hrs] at hsig
      cases hsig
      have hn : r.signature = none := by
        rcases hp.oneKind with h | h
        · exact h
        · rw [hrs] at h; cases h
      have hmem := (Verif.MsgPack.sortItems_spec ds (hp.signers ds hrs)).2
      unfold txnSigs
      rw [hn, hrs]
      simp only [Option.getD_some, List.mem_map]
      refine ⟨?_, ?_⟩
      · rintro e ⟨x, hx, rfl⟩
        exact ⟨x.1, rfl, x, (hmem x).1 hx, rfl⟩
      · rintro e ⟨x, hx, rfl⟩
        exact ⟨x.2, rfl, x, (hmem x).2 hx, rfl⟩

/-- **C99**, negation: a transaction author agreement that says version "2" and one that
says none, which are different requests with different signatures, give transactions that read the same. -/
theorem C99_ver_ambiguous (H : Bytes → Bytes) (fl : UInt64 → Bytes) (r : Request) (op : Obj) (n : Nat) (time : Option Int)
    (t t2 : Obj) (hp : Proper r op (.str (ascii "4"))) (hv : Dict.get? op (ascii "ver") = none)
    (h : ledgerTxn H fl r n time = some t)
    (h2 : ledgerTxn H fl { r with operation := .dict (op ++ [(ascii "ver", .str (ascii "2"))]) } n time = some t2) :
    recover t = recover t2 ∧ signatures t = signatures t2 := by
  have hnot : ascii "ver" ∉ op.keys := fun h => by
    obtain ⟨e, he, hk⟩ := List.mem_map.1 h
    have := Dict.get?_of_mem hp.keys (k := e.1) (v := e.2) he
    rw [hk, hv] at this; cases this
  have hp2 : Proper { r with operation := .dict (op ++ [(ascii "ver", .str (ascii "2"))]) }
      (op ++ [(ascii "ver", .str (ascii "2"))]) (.str (ascii "4")) := by
    refine ⟨rfl, ?_, ?_, hp.typed, hp.acceptance, hp.protocol, hp.nonempty, hp.signer, hp.oneKind, hp.signers⟩
    · show (List.map Prod.fst _).Nodup
      rw [List.map_append]
      refine List.nodup_append.2 ⟨hp.keys, by simp, ?_⟩
      intro a ha b hb hab
      simp at hb
      exact hnot (hb ▸ hab ▸ ha)
    · rw [(did_get_append (k' := ascii "type") hnot).2 (by decide)]
      exact hp.type
  refine ⟨?_, ?_⟩
  · rw [tx_recover h hp, tx_recover h2 hp2]
    have e1 : popped op (ascii "ver") = none := by unfold popped; rw [hv]
    have e2 : popped (op ++ [(ascii "ver", .str (ascii "2"))]) (ascii "ver") = some (.str (ascii "2")) := by
      unfold popped; rw [(did_get_append (k' := ascii "ver") hnot).1]
    have e3 : payloadData (op ++ [(ascii "ver", .str (ascii "2"))]) = payloadData op := by
      unfold payloadData; rw [List.filter_append]; simp
    rw [e1, e2, e3]
    rfl
  · obtain ⟨_, _, _, _, _, _, rfl⟩ := tx_shape h
    obtain ⟨_, _, _, _, _, _, rfl⟩ := tx_shape h2
    rw [tx_signatures, tx_signatures]
    rfl

/-- **C99**, the author: a request without identifier is checked as one by all that signed
it, but its transaction has no author. -/
theorem C99_no_author (H : Bytes → Bytes) (fl : UInt64 → Bytes) (r : Request) (op : Obj) (n : Nat) (time : Option Int) (t : Obj)
    (i s : Bytes) (hop : r.operation = .dict op) (h : ledgerTxn H fl r n time = some t) (hi : r.identifier = none)
    (hs : r.signatures = some [(i, s)]) :
    r.idr = some i ∧ getFrom t = some .none ∧ (r.signature = none → signatures t = [(some i, s)]) := by
  refine ⟨?_, ?_, fun hn => ?_⟩
  · unfold Request.idr; rw [hi, hs]; rfl
  · rw [(C99_reads H fl r op n time t hop h).2.2.1, hi]; rfl
  · obtain ⟨_, _, _, _, _, _, rfl⟩ := tx_shape h
    rw [tx_signatures]; unfold txnSigs; rw [hn, hs]; rfl

/-- **C99**, replay, in part: a node that takes a transaction from the ledger applies it by the
handlers that applied the request, if there are no handlers for a version of this type. -/
theorem C99_replay_partial {η : Type} (hs : Handlers η) (H : Bytes → Bytes) (fl : UInt64 → Bytes) (r : Request) (op : Obj)
    (typ : Val) (n : Nat) (time : Option Int) (t : Obj) (hop : r.operation = .dict op)
    (ht : Dict.get? op (ascii "type") = some typ) (h : ledgerTxn H fl r n time = some t)
    (hnone : ∀ v, hs.versioned typ v = none) : restoreHandlers hs t = liveHandlers hs r := by
  have h1 := (C99_reads H fl r op n time t hop h).1
  rw [ht] at h1
  have h2 : ∃ v, txnVersion t = some v := by
    obtain ⟨op', d, p, _, _, _, rfl⟩ := tx_shape h
    exact ⟨_, rfl⟩
  obtain ⟨v, h2⟩ := h2
  unfold restoreHandlers liveHandlers
  rw [h1, h2, hop]
  simp only [Option.getD_some, hnone]
  show hs.plain typ = match Dict.get? op (ascii "type") with
    | some t => hs.plain t
    | none => none
  rw [ht]

/-- **C99**, replay, negation: what is missing is decided by whoever sends the request. With
handlers for some version of a type, a request that says this version is applied by the plain
handlers when it is ordered, and by those of the version after a catchup or restart. -/
theorem C99_replay_differs {η : Type} (hs : Handlers η) (H : Bytes → Bytes) (fl : UInt64 → Bytes) (r : Request) (op : Obj)
    (typ v : Val) (n : Nat) (time : Option Int) (t : Obj) (l : List η) (hop : r.operation = .dict op)
    (ht : Dict.get? op (ascii "type") = some typ) (hv : Dict.get? op (ascii "ver") = some v) (hv0 : v ≠ .none)
    (h : ledgerTxn H fl r n time = some t) (hl : hs.versioned typ v = some l) :
    liveHandlers hs r = hs.plain typ ∧ restoreHandlers hs t = some l := by
  have h1 := (C99_reads H fl r op n time t hop h).1
  rw [ht] at h1
  refine ⟨?_, ?_⟩
  · unfold liveHandlers
    rw [hop]
    show (match Dict.get? op (ascii "type") with
    | some t => hs.plain t
    | none => none) = _
    rw [ht]
  · have h2 : txnVersion t = some v := by
      obtain ⟨op', d, p, h3, _, _, rfl⟩ := tx_shape h
      rw [hop] at h3; cases h3
      unfold txnVersion getPayloadTxnVersion
      show (some ((Dict.get? (txPayload r op d p) (ascii "ver")).getD .none)).map _ = _
      rw [(tx_payload r op d p).2.2.2.2]
      have : popped op (ascii "ver") = some v := by
        unfold popped; rw [hv]; cases v <;> first | rfl | exact absurd rfl hv0
      rw [this]
      unfold payloadVersion
      simp only [Option.getD_some, Option.map_some, if_neg hv0]
    unfold restoreHandlers
    rw [h1, h2]
    simp only [Option.getD_some, hl]

/-! ## Concrete requests -/

/-- A request to write a NYM, signed by its author and an endorser. -/
def txReq : Request :=
  { identifier := some (ascii "A"), reqId := 7
    operation := .dict [(ascii "dest", .str (ascii "X")), (ascii "type", .str (ascii "1")), (ascii "verkey", .str (ascii "k"))]
    signatures := some [(ascii "E", ascii "s2"), (ascii "A", ascii "s1")], protocolVersion := some 2
    endorser := some (ascii "E") }
def txOp : Obj := [(ascii "dest", .str (ascii "X")), (ascii "type", .str (ascii "1")), (ascii "verkey", .str (ascii "k"))]

/-- A transaction author agreement without version, and one with. -/
def txTaa : Request :=
  { identifier := some (ascii "A"), reqId := 7
    operation := .dict [(ascii "type", .str (ascii "4")), (ascii "text", .str (ascii "t"))]
    signature := some (ascii "s") }
def txTaaOp : Obj := [(ascii "type", .str (ascii "4")), (ascii "text", .str (ascii "t"))]
def txTaa2 : Request := { txTaa with operation := .dict (txTaaOp ++ [(ascii "ver", .str (ascii "2"))]) }

theorem txReq_proper : Proper txReq txOp (.str (ascii "1")) :=
  ⟨rfl, by decide, rfl, by simp, by simp [txReq], by simp [txReq], by simp [txReq, ascii], by simp [txReq], .inl rfl, by
    intro d h; cases h; decide⟩
theorem txReq_said : VersionSaid txOp (.str (ascii "1")) := .inr ⟨rfl, by simp [ascii]⟩
theorem txTaa_proper : Proper txTaa txTaaOp (.str (ascii "4")) :=
  ⟨rfl, by decide, rfl, by simp, by simp [txTaa], by simp [txTaa], by simp [txTaa, ascii], by simp [txTaa], .inr rfl, by
    intro d h; cases h⟩

example : ∃ t, ledgerTxn id (fun _ => []) txReq 3 (some 99) = some t ∧ getFrom t = some (.str (ascii "A")) ∧
    getType t = some (.str (ascii "1")) ∧ getSeqNo t = some (.int 3) ∧ getTxnTime t = some (.int 99) ∧
    signatures t = [(some (ascii "A"), ascii "s1"), (some (ascii "E"), ascii "s2")] := by
  refine ⟨_, rfl, rfl, rfl, rfl, rfl, rfl⟩
example : ∃ t r', ledgerTxn id (fun _ => []) txReq 3 (some 99) = some t ∧ recover t = some r' ∧ r'.endorser = some (ascii "E") ∧
    ser (fun _ => []) (.dict (Spec.Auth.signedPart (asDict r'))) =
      some (ascii "endorser:E|identifier:A|operation:dest:X|type:1|verkey:k|protocolVersion:2|reqId:7") := by
  obtain ⟨r', op', h1, h2, h3, h4, h5, h6, h7, h8, h9, h10, h11, h12⟩ :=
    C99_recover_partial id (fun _ => []) txReq txOp _ 3 (some 99) _ txReq_proper txReq_said rfl
  exact ⟨_, r', rfl, h1, h8, by rw [h11]; rfl⟩
example : ∃ t l, ledgerTxn id (fun _ => []) txReq 3 (some 99) = some t ∧ Spec.Auth.Carries (asDict txReq) l ∧ l.length = 2 :=
  ⟨_, _, rfl, .many [(ascii "E", .str (ascii "s2")), (ascii "A", .str (ascii "s1"))]
    (fun h => absurd h.2 (by decide)) rfl, rfl⟩
/-- The bytes signed of the two agreements differ. -/
example : ∃ t t2, ledgerTxn id (fun _ => []) txTaa 3 (some 99) = some t ∧ ledgerTxn id (fun _ => []) txTaa2 3 (some 99) = some t2 ∧
    recover t = recover t2 ∧ signatures t = signatures t2 ∧
    ser (fun _ => []) (.dict (Spec.Auth.signedPart (asDict txTaa))) = some (ascii "identifier:A|operation:text:t|type:4|reqId:7") ∧
    ser (fun _ => []) (.dict (Spec.Auth.signedPart (asDict txTaa2))) =
      some (ascii "identifier:A|operation:text:t|type:4|ver:2|reqId:7") := by
  have h := C99_ver_ambiguous id (fun _ => []) txTaa txTaaOp 3 (some 99) _ _ txTaa_proper rfl rfl rfl
  exact ⟨_, _, rfl, rfl, h.1, h.2, rfl, rfl⟩
/-- A node added by a request that has no identifier. -/
example : ∃ t, ledgerTxn id (fun _ => []) { txReq with identifier := none, endorser := none, signatures := some [(ascii "A", ascii "s1")] } 3 none =
    some t ∧ getFrom t = some .none := ⟨_, rfl, rfl⟩
example : ∃ t, ledgerTxn id (fun _ => []) txTaa2 3 none = some t ∧
    liveHandlers (η := Nat) ⟨fun _ => some [0], fun _ v => if v = .str (ascii "2") then some [2] else none⟩ txTaa2 = some [0] ∧
    restoreHandlers (η := Nat) ⟨fun _ => some [0], fun _ v => if v = .str (ascii "2") then some [2] else none⟩ t = some [2] :=
  ⟨_, rfl, C99_replay_differs _ id (fun _ => []) txTaa2 (txTaaOp ++ [(ascii "ver", .str (ascii "2"))]) (.str (ascii "4")) (.str (ascii "2")) 3
    none _ [2] rfl rfl rfl (by simp) rfl rfl⟩
example : ∃ t, ledgerTxn id (fun _ => []) txReq 3 none = some t ∧
    restoreHandlers (η := Nat) ⟨fun _ => some [0], fun y _ => if y = .str (ascii "4") then some [2] else none⟩ t = some [0] :=
  ⟨_, rfl, C99_replay_partial _ id (fun _ => []) txReq txOp _ 3 none _ rfl rfl rfl (fun v => rfl)⟩

end Verif.Props
