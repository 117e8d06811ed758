import Verif.Proofs.SchemaObjects
/-! Lemmas about the schemas: the tables of requests and messages. -/
namespace Verif.Schema

open Verif (Val ascii)
open Verif.Entry (Bytes Items lookup get truthy OP withoutOp lookup_some_iff lookup_none_iff truthy_false_iff)
open Verif.Entry.Spec (Field NoField)
open Verif.Spec (WF)
open Verif.Schema.Spec (Need HasForm must may)

/-! ### Requests -/

theorem nodeData_lines (env : Env) : Lines (nodeData env) (Spec.nodeDataTable env) :=
  .opt (exact_ip env) <| .opt exact_port <| .opt (exact_ip env) <| .opt exact_port <| .req (exact_limited _) <|
  .opt (exact_iter (exact_chooseTuple ["VALIDATOR"])) <| .opt (exact_base58 _) <| .opt (exact_base58 _) .nil

theorem nodeData_nodup (env : Env) : ((nodeData env).map Line.name).Nodup := by
  show ([ascii "node_ip", ascii "node_port", ascii "client_ip", ascii "client_port", ascii "alias", ascii "services",
    ascii "blskey", ascii "blskey_pop"]).Nodup
  decide +kernel

attribute [local irreducible] ascii

theorem isSome_field (d : Items) (k : Bytes) : (lookup d k).isSome = true ↔ ∃ v, Field d k v := by
  simp only [Option.isSome_iff_exists, lookup_some_iff]

theorem isSome_noField (d : Items) (k : Bytes) : (lookup d k).isSome = false ↔ NoField d k := by
  rw [← lookup_none_iff, Option.isSome_eq_false_iff, Option.isNone_iff_eq_none]

theorem nodeDataExtra_ok (d : Items) : nodeDataExtra d = .ok () ↔
    ((∀ k ∈ ["node_ip", "node_port", "client_ip", "client_port"], ∃ x, Field d (ascii k) x) ∨
     ∀ k ∈ ["node_ip", "node_port", "client_ip", "client_port"], NoField d (ascii k)) := by
  simp only [List.forall_mem_cons, List.not_mem_nil, false_implies, implies_true, and_true,
    ← isSome_field, ← isSome_noField]
  unfold nodeDataExtra
  cases h1 : (lookup d (ascii "node_ip")).isSome <;> cases h2 : (lookup d (ascii "node_port")).isSome <;>
    cases h3 : (lookup d (ascii "client_ip")).isSome <;> cases h4 : (lookup d (ascii "client_port")).isSome <;>
    simp [h1, h2, h3, h4]

theorem exact_nodeData (env : Env) : Exact (recordF (nodeData env) nodeDataExtra) (Spec.NodeData env) :=
  exact_record (nodeData_nodup env) (nodeData_lines env) (fun d _ _ => nodeDataExtra_ok d)

theorem exact_simple {s : Schema} {t : List Need} (hs : (s.map Line.name).Nodup) (h : Lines s t) :
    Exact (recordF s) (fun v => ∃ d, v = .dict d ∧ HasForm t d) := by
  have := exact_record hs h (extra := fun _ => .ok ()) (E := fun _ => True) (fun _ _ _ => by simp)
  simpa using this

/-- The list of schemas has the tables. -/
inductive Tables : List (Bytes × Schema) → List (String × List Need) → Prop
  | nil : Tables [] []
  | cons (k : String) (s : Schema) (t : List Need) (l : List (Bytes × Schema)) (m : List (String × List Need)) :
      (s.map Line.name).Nodup → Lines s t → Tables l m → Tables ((ascii k, s) :: l) ((k, t) :: m)

theorem tables_find {l : List (Bytes × Schema)} {m : List (String × List Need)} (h : Tables l m)
    (hn : (m.map (fun x => ascii x.1)).Nodup) (op : Bytes) :
    (l.find? (fun c => c.1 == op) = none ∧ ∀ x ∈ m, ascii x.1 ≠ op) ∨
    ∃ s k t, l.find? (fun c => c.1 == op) = some (op, s) ∧ op = ascii k ∧ (k, t) ∈ m ∧ (s.map Line.name).Nodup ∧
      Lines s t ∧ ∀ x ∈ m, ascii x.1 = op → x = (k, t) := by
  induction h with
  | nil => exact .inl ⟨rfl, by simp⟩
  | cons k s t l m h1 h2 _ ih =>
    rw [List.map_cons, List.nodup_cons] at hn
    by_cases hk : ascii k = op
    · refine .inr ⟨s, k, t, ?_, hk.symm, by simp, h1, h2, ?_⟩
      · rw [List.find?_cons_of_pos (by simpa using hk), hk]
      · intro x hx hxk
        rcases List.mem_cons.1 hx with rfl | hx
        · rfl
        · exact absurd (List.mem_map_of_mem (f := fun x : String × List Need => ascii x.1) hx) (by
            rw [hxk, ← hk]; exact hn.1)
    · have hb : (ascii k == op) = false := by simpa using hk
      rw [List.find?_cons_of_neg (by simp [hb])]
      rcases ih hn.2 with ⟨h3, h4⟩ | ⟨s', k', t', h3, h4, h5, h6, h7, h8⟩
      · exact .inl ⟨h3, by simpa [hk] using h4⟩
      · refine .inr ⟨s', k', t', h3, h4, by simp [h5], h6, h7, fun x hx hxk => ?_⟩
        rcases List.mem_cons.1 hx with rfl | hx
        · exact absurd hxk hk
        · exact h8 x hx hxk

theorem names_nodup {s : Schema} (names : List String) (h : s.map Line.name = names.map ascii)
    (hn : (names.map ascii).Nodup) : (s.map Line.name).Nodup := h ▸ hn

theorem operations_tables (env : Env) : Tables (operations env) (Spec.operations env) :=
  .cons "0" _ _ _ _ (names_nodup ["type", "data", "dest", "verkey"] rfl (by decide +kernel))
    (.req (exact_const _) <| .req (exact_nodeData env) <| .req exact_identifier <| .opt exact_verkey .nil) <|
  .cons "1" _ _ _ _ (names_nodup ["type", "alias", "verkey", "dest", "role"] rfl (by decide +kernel))
    (.req (exact_const _) <| .opt (exact_limited _) <| .opt (exact_null exact_verkey) <| .req exact_identifier <|
      .opt exact_role .nil) <|
  .cons "3" _ _ _ _ (names_nodup ["type", "ledgerId", "data"] rfl (by decide +kernel))
    (.req (exact_const _) <| .opt (exact_ledgerId env) <| .req exact_txnSeqNo .nil) <|
  .cons "4" _ _ _ _ (names_nodup ["type", "text", "version", "ratification_ts", "retirement_ts"] rfl (by decide +kernel))
    (.req (exact_const _) <| .opt (exact_limitedEmpty _) <| .req (exact_limited _) <| .opt exact_nonNeg <|
      .opt exact_nonNeg .nil) <|
  .cons "8" _ _ _ _ (names_nodup ["type"] rfl (by decide +kernel)) (.req (exact_const _) .nil) <|
  .cons "5" _ _ _ _ (names_nodup ["type", "version", "aml", "amlContext"] rfl (by decide +kernel))
    (.req (exact_const _) <| .req (exact_limited _) <| .req exact_anyMap <| .opt (exact_limited _) .nil) <|
  .cons "6" _ _ _ _ (names_nodup ["type", "version", "digest", "timestamp"] rfl (by decide +kernel))
    (.req (exact_const _) <| .opt exact_nonEmpty <| .opt exact_nonEmpty <| .opt exact_nonNeg .nil) <|
  .cons "7" _ _ _ _ (names_nodup ["type", "version", "timestamp"] rfl (by decide +kernel))
    (.req (exact_const _) <| .opt exact_nonEmpty <| .opt exact_nonNeg .nil) <|
  .cons "9" _ _ _ _ (names_nodup ["type", "ledgers_ids"] rfl (by decide +kernel))
    (.req (exact_const _) <| .req (exact_iter exact_integer) .nil) <|
  .cons "10" _ _ _ _ (names_nodup ["type"] rfl (by decide +kernel)) (.req (exact_const _) .nil) .nil

theorem operations_nodup (env : Env) : ((Spec.operations env).map (fun x => ascii x.1)).Nodup := by
  show (["0", "1", "3", "4", "8", "5", "6", "7", "9", "10"].map ascii).Nodup
  decide +kernel

theorem exact_operation (env : Env) : Exact (operationF env) (Spec.Operation env) := by
  intro v hv
  cases v with
  | dict d =>
    rw [operationF]
    rcases field_or d (ascii "type") with ⟨t, ht⟩ | hno
    · rw [get_field ht]
      have hsp : Spec.Operation env (.dict d) ↔ t ≠ .none ∧ (∀ l, t ≠ .list l) ∧ (∀ e, t ≠ .dict e) ∧
          ∀ o ∈ Spec.operations env, t = .str (ascii o.1) → HasForm o.2 d := by
        constructor
        · rintro ⟨d', t', h, ht', h2⟩
          cases h
          rw [field_unique ht ht']
          exact h2
        · exact fun h => ⟨d, t, rfl, ht, h⟩
      rw [hsp]
      cases t with
      | str s =>
        simp only [operationOf]
        rcases tables_find (operations_tables env) (operations_nodup env) s with ⟨h1, h2⟩ |
          ⟨sc, k, tb, h1, h2, h3, h4, h5, h6⟩
        · rw [h1]
          refine ⟨fun _ => ⟨by simp, by simp, by simp, fun o ho h => absurd (Val.str.inj h).symm (h2 o ho)⟩, fun _ => rfl⟩
        · rw [h1]
          have := exact_simple h4 h5 _ hv
          simp only [Val.dict.injEq, exists_eq_left'] at this
          refine Iff.trans this ⟨fun h => ⟨by simp, by simp, by simp, fun o ho h7 => ?_⟩, fun h => ?_⟩
          · rw [h6 o ho (Val.str.inj h7).symm]; exact h
          · exact h.2.2.2 (k, tb) h3 (by rw [h2])
      | _ => simp [operationOf]
    · rw [noField_get hno]
      refine ⟨nofun, ?_⟩
      rintro ⟨d', t, h, ht, _⟩
      cases h
      exact absurd hno (field_not_noField ht)
  | _ => simp [operationF, Spec.Operation]

theorem taa_lines : Lines taaAcceptance Spec.taaTable :=
  .req exact_sha256 <| .req (exact_limited _) <| .req exact_timestamp .nil

theorem identifier_map (s : Bytes) : identifierF (.str s) = .ok true ↔ Spec.Identifier (.str s) :=
  exact_identifier _ (.str s)

theorem request_lines (env : Env) : Lines (request env) (Spec.requestTable env) :=
  .opt (exact_null exact_identifier) <| .req exact_nonNeg <| .req (exact_operation env) <|
  .opt (exact_signature _) <| .opt (exact_limited _) <| .req exact_protocol <|
  .opt (exact_simple (names_nodup ["taaDigest", "mechanism", "time"] rfl (by decide +kernel)) taa_lines) <|
  .opt (exact_null (exact_map identifier_map (exact_signature _))) <| .opt exact_identifier .nil

theorem identifier_str {v : Val} (h : Spec.Identifier v) : ∃ s, v = .str s ∧ s ≠ [] := by
  have hw : ∀ n, 0 < n → Spec.Base58 n v → ∃ s, v = .str s ∧ s ≠ [] := by
    rintro n hn ⟨s, rfl, hs⟩
    refine ⟨s, rfl, ?_⟩
    rintro rfl
    have := ((stands_iff _ _).1 hs).2
    simp [b58len, b58int, byteLen] at this
    omega
  rcases h with h | h
  · exact hw _ (by omega) h
  · exact hw _ (by omega) h

/-- A field that is a text or null. -/
theorem textField {d : Items} {k : Bytes} (h : ∀ v, Field d k v → v = .none ∨ ∃ s, v = .str s ∧ s ≠ []) :
    (get d k = .none ∧ ∀ s, ¬ Field d k (.str s)) ∨
    ∃ s, get d k = .str s ∧ s ≠ [] ∧ ∀ t, Field d k (.str t) ↔ t = s := by
  rcases field_or d k with ⟨v, hv⟩ | hno
  · rcases h v hv with rfl | ⟨s, rfl, hs⟩
    · exact .inl ⟨get_field hv, fun s hs => nomatch field_unique hv hs⟩
    · refine .inr ⟨s, get_field hv, hs, fun t => ⟨fun ht => Val.str.inj (field_unique ht hv), ?_⟩⟩
      rintro rfl; exact hv
  · exact .inl ⟨noField_get hno, fun s hs => field_not_noField hs hno⟩

theorem requestExtra_ok (env : Env) (d : Items) (ht : HasForm (Spec.requestTable env) d) :
    requestExtra d = .ok () ↔ Spec.Rules d := by
  have hidr := textField (d := d) (k := ascii "identifier") (fun v hv => by
    rcases (ht (may "identifier" (Spec.NullOr Spec.Identifier)) (by simp [Spec.requestTable])).2 v hv with h | h
    · exact .inl h
    · exact .inr (identifier_str h))
  have hsig := textField (d := d) (k := ascii "signature") (fun v hv => by
    rcases (ht (may "signature" (Spec.NullOr (Spec.UpTo 512))) (by simp [Spec.requestTable])).2 v hv with h | ⟨s, h1, h2, _⟩
    · exact .inl h
    · exact .inr ⟨s, h1, h2⟩)
  have hend := textField (d := d) (k := ascii "endorser") (fun v hv =>
    .inr (identifier_str ((ht (may "endorser" Spec.Identifier) (by simp [Spec.requestTable])).2 v hv)))
  have hsigs : (truthy (get d (ascii "signatures")) = true ↔ ∃ s, Spec.Signer d s) ∧
      ∀ x, signedBy (get d (ascii "signatures")) (.str x) = true ↔ Spec.Signer d x := by
    rcases field_or d (ascii "signatures") with ⟨v, hv⟩ | hno
    · rw [get_field hv]
      rcases (ht (may "signatures"
        (Spec.NullOr (Spec.DictOf (fun k => Spec.Identifier (.str k)) (Spec.NullOr (Spec.UpTo 512)))))
        (by simp [Spec.requestTable])).2 v hv with rfl | ⟨e, rfl, _⟩
      · have hn : ∀ s, ¬ Spec.Signer d s := by
          rintro s ⟨e, v, h1, _⟩
          exact nomatch field_unique hv h1
        simp [truthy, signedBy, hn]
      · have hs : ∀ x, Spec.Signer d x ↔ ∃ v, Field e x v := by
          intro x
          constructor
          · rintro ⟨e', v, h1, h2⟩
            cases field_unique hv h1
            exact ⟨v, h2⟩
          · rintro ⟨v, h2⟩
            exact ⟨e, v, hv, h2⟩
        refine ⟨?_, fun x => ?_⟩
        · cases e with
          | nil => simp [truthy, hs, Field]
          | cons a e =>
            refine ⟨fun _ => ⟨a.1, (hs _).2 ⟨a.2, [], e, by simp, by simp⟩⟩, fun _ => rfl⟩
        · rw [hs]; exact isSome_field e x
    · have hn : ∀ s, ¬ Spec.Signer d s := by
        rintro s ⟨e, v, h1, _⟩
        exact field_not_noField h1 hno
      rw [noField_get hno]
      simp [truthy, signedBy, hn]
  obtain ⟨ht1, ht2⟩ := hsigs
  have hnone : signedBy (get d (ascii "signatures")) .none = false := by
    unfold signedBy; split <;> simp_all
  have hts : ∀ s : Bytes, s ≠ [] → truthy (.str s) = true := by
    intro s hs; cases s with
    | nil => exact absurd rfl hs
    | cons a s => rfl
  unfold requestExtra Spec.Rules
  have hF : truthy (get d (ascii "signatures")) = false → ∀ x,
      signedBy (get d (ascii "signatures")) (.str x) = false := by
    intro h x
    rw [Bool.eq_false_iff]
    intro h2
    rw [ht1.2 ⟨x, (ht2 x).1 h2⟩] at h
    cases h
  have hn0 : truthy .none = false := rfl
  rw [← ht1]
  simp only [← ht2]
  clear ht1 ht2 ht
  rcases hidr with ⟨i1, i2⟩ | ⟨i, i1, i2, i3⟩ <;> rcases hsig with ⟨s1, s2⟩ | ⟨s, s1, s2, s3⟩ <;>
    rcases hend with ⟨e1, e2⟩ | ⟨e, e1, e2, e3⟩ <;>
    cases hT : truthy (get d (ascii "signatures")) <;>
    simp_all
  cases signedBy (get d (ascii "signatures")) (.str i) <;> cases signedBy (get d (ascii "signatures")) (.str e) <;> simp

theorem exact_request (env : Env) : Exact (requestF env) (Spec.Request env) :=
  exact_record (names_nodup ["identifier", "reqId", "operation", "signature", "digest", "protocolVersion",
    "taaAcceptance", "signatures", "endorser"] rfl (by decide +kernel)) (request_lines env)
    (fun d _ ht => requestExtra_ok env d ht)

/-! ### Messages -/

theorem checkpoint_lines : Lines checkpoint Spec.checkpointTable :=
  .req exact_nonNeg <| .req exact_nonNeg <| .req exact_nonNeg <| .req exact_nonNeg <| .req (exact_null exact_merkle) .nil

theorem checkpoint_nodup : (checkpoint.map Line.name).Nodup :=
  names_nodup ["instId", "viewNo", "seqNoStart", "seqNoEnd", "digest"] rfl (by decide +kernel)

theorem batchCommitted_lines (env : Env) : Lines (batchCommitted env) (Spec.batchCommittedTable env) :=
  .req (exact_iter (exact_request env)) <| .req (exact_ledgerId env) <| .req exact_nonNeg <| .req exact_nonNeg <|
  .req exact_nonNeg <| .req exact_timestamp <| .req exact_merkle <| .req exact_merkle <| .req exact_nonNeg <|
  .req exact_nonNeg <| .req (exact_null exact_merkle) <| .req (exact_iter (exact_limited _)) <|
  .req (exact_iter (exact_limited _)) <| .req exact_nonNeg <| .req (exact_limited _) .nil

theorem batchCommitted_nodup (env : Env) : ((batchCommitted env).map Line.name).Nodup :=
  names_nodup ["requests", "ledgerId", "instId", "viewNo", "ppSeqNo", "ppTime", "stateRootHash", "txnRootHash",
    "seqNoStart", "seqNoEnd", "auditTxnRootHash", "primaries", "nodeReg", "originalViewNo", "digest"] rfl
    (by decide +kernel)

theorem classes_tables (env : Env) : Tables (classes env) (Spec.messages env) :=
  .cons "BATCH" _ _ _ _ (names_nodup ["messages", "signature"] rfl (by decide +kernel))
    (.req (exact_iter exact_serialized) <| .req (exact_signature _) .nil) <|
  .cons "BLACKLIST" _ _ _ _ (names_nodup ["suspicionCode", "nodeName"] rfl (by decide +kernel))
    (.req exact_any <| .req exact_any .nil) <|
  .cons "REQACK" _ _ _ _ (names_nodup ["identifier", "reqId"] rfl (by decide +kernel))
    (.req exact_any <| .req exact_any .nil) <|
  .cons "REQNACK" _ _ _ _ (names_nodup ["identifier", "reqId", "reason", "code"] rfl (by decide +kernel))
    (.req exact_any <| .req exact_any <| .req exact_any <| .opt exact_integer .nil) <|
  .cons "REJECT" _ _ _ _ (names_nodup ["identifier", "reqId", "reason", "code"] rfl (by decide +kernel))
    (.req exact_any <| .req exact_any <| .req exact_any <| .opt (exact_null exact_integer) .nil) <|
  .cons "POOL_LEDGER_TXNS" _ _ _ _ (names_nodup ["txn"] rfl (by decide +kernel)) (.req exact_any .nil) <|
  .cons "ORDERED" _ _ _ _ (names_nodup ["instId", "viewNo", "valid_reqIdr", "invalid_reqIdr", "ppSeqNo", "ppTime",
      "ledgerId", "stateRootHash", "txnRootHash", "auditTxnRootHash", "primaries", "nodeReg", "originalViewNo",
      "digest", "plugin_fields"] rfl (by decide +kernel))
    (.req exact_nonNeg <| .req exact_nonNeg <| .req (exact_iter (exact_limited _)) <|
      .req (exact_iter (exact_limited _)) <| .req exact_nonNeg <| .req exact_timestamp <| .req (exact_ledgerId env) <|
      .req (exact_null exact_merkle) <| .req (exact_null exact_merkle) <| .req (exact_null exact_merkle) <|
      .req (exact_iter (exact_limited _)) <| .req (exact_iter (exact_limited _)) <| .req exact_nonNeg <|
      .req (exact_limited _) <| .opt (exact_null exact_anyMap) .nil) <|
  .cons "PROPAGATE" _ _ _ _ (names_nodup ["request", "senderClient"] rfl (by decide +kernel))
    (.req (exact_request env) <| .req (exact_null (exact_limited _)) .nil) <|
  .cons "PREPREPARE" _ _ _ _ (names_nodup ["instId", "viewNo", "ppSeqNo", "ppTime", "reqIdr", "discarded", "digest",
      "ledgerId", "stateRootHash", "txnRootHash", "sub_seq_no", "final", "poolStateRootHash", "auditTxnRootHash",
      "blsMultiSig", "blsMultiSigs", "originalViewNo", "plugin_fields"] rfl (by decide +kernel))
    (.req exact_nonNeg <| .req exact_nonNeg <| .req exact_nonNeg <| .req exact_timestamp <|
      .req (exact_iter (exact_limited _)) <| .req exact_serializedNull <| .req (exact_limited _) <|
      .req (exact_ledgerId env) <| .req (exact_null exact_merkle) <| .req (exact_null exact_merkle) <|
      .req exact_nonNeg <| .req exact_boolean <| .opt (exact_null exact_merkle) <| .opt (exact_null exact_merkle) <|
      .opt (exact_null (exact_multiSig env)) <| .opt (exact_iter (exact_null (exact_multiSig env))) <|
      .opt (exact_null exact_nonNeg) <| .opt (exact_null exact_anyMap) .nil) <|
  .cons "OLD_VIEW_PREPREPARE_REQ" _ _ _ _ (names_nodup ["instId", "batch_ids"] rfl (by decide +kernel))
    (.req exact_nonNeg <| .req (exact_iter exact_batchId) .nil) <|
  .cons "OLD_VIEW_PREPREPARE_REP" _ _ _ _ (names_nodup ["instId", "preprepares"] rfl (by decide +kernel))
    (.req exact_nonNeg <| .req (exact_iter exact_any) .nil) <|
  .cons "PREPARE" _ _ _ _ (names_nodup ["instId", "viewNo", "ppSeqNo", "ppTime", "digest", "stateRootHash",
      "txnRootHash", "auditTxnRootHash", "plugin_fields"] rfl (by decide +kernel))
    (.req exact_nonNeg <| .req exact_nonNeg <| .req exact_nonNeg <| .req exact_timestamp <| .req (exact_limited _) <|
      .req (exact_null exact_merkle) <| .req (exact_null exact_merkle) <| .opt (exact_null exact_merkle) <|
      .opt (exact_null exact_anyMap) .nil) <|
  .cons "COMMIT" _ _ _ _ (names_nodup ["instId", "viewNo", "ppSeqNo", "blsSig", "blsSigs", "plugin_fields"] rfl
      (by decide +kernel))
    (.req exact_nonNeg <| .req exact_nonNeg <| .req exact_nonNeg <| .opt (exact_limited _) <|
      .opt (exact_map (strNonNeg_ok env) (exact_limited _)) <| .opt (exact_null exact_anyMap) .nil) <|
  .cons "CHECKPOINT" _ _ _ _ checkpoint_nodup checkpoint_lines <|
  .cons "REPLY" _ _ _ _ (names_nodup ["result"] rfl (by decide +kernel)) (.req exact_any .nil) <|
  .cons "INSTANCE_CHANGE" _ _ _ _ (names_nodup ["viewNo", "reason"] rfl (by decide +kernel))
    (.req exact_nonNeg <| .req exact_nonNeg .nil) <|
  .cons "BACKUP_INSTANCE_FAULTY" _ _ _ _ (names_nodup ["viewNo", "instancesIdr", "reason"] rfl (by decide +kernel))
    (.req exact_nonNeg <| .req (exact_iter exact_nonNeg) <| .req exact_nonNeg .nil) <|
  .cons "VIEW_CHANGE" _ _ _ _ (names_nodup ["viewNo", "stableCheckpoint", "prepared", "preprepared", "checkpoints"] rfl
      (by decide +kernel))
    (.req exact_nonNeg <| .req exact_nonNeg <| .req (exact_iter exact_batchId) <| .req (exact_iter exact_batchId) <|
      .req (exact_iter exact_any) .nil) <|
  .cons "VIEW_CHANGE_ACK" _ _ _ _ (names_nodup ["viewNo", "name", "digest"] rfl (by decide +kernel))
    (.req exact_nonNeg <| .req (exact_limited _) <| .req (exact_limited _) .nil) <|
  .cons "NEW_VIEW" _ _ _ _ (names_nodup ["viewNo", "viewChanges", "checkpoint", "batches", "primary"] rfl
      (by decide +kernel))
    (.req exact_nonNeg <| .req (exact_iter exact_viewChange) <| .req exact_any <| .req (exact_iter exact_batchId) <|
      .opt (exact_limited _) .nil) <|
  .cons "LEDGER_STATUS" _ _ _ _ (names_nodup ["ledgerId", "txnSeqNo", "viewNo", "ppSeqNo", "merkleRoot",
      "protocolVersion"] rfl (by decide +kernel))
    (.req (exact_ledgerId env) <| .req exact_nonNeg <| .req (exact_null exact_nonNeg) <|
      .req (exact_null exact_nonNeg) <| .req exact_merkle <| .req exact_protocol .nil) <|
  .cons "CONSISTENCY_PROOF" _ _ _ _ (names_nodup ["ledgerId", "seqNoStart", "seqNoEnd", "viewNo", "ppSeqNo",
      "oldMerkleRoot", "newMerkleRoot", "hashes"] rfl (by decide +kernel))
    (.req (exact_ledgerId env) <| .req exact_nonNeg <| .req exact_nonNeg <| .req exact_nonNeg <| .req exact_nonNeg <|
      .req exact_merkle <| .req exact_merkle <| .req (exact_iter (exact_limited _)) .nil) <|
  .cons "CATCHUP_REQ" _ _ _ _ (names_nodup ["ledgerId", "seqNoStart", "seqNoEnd", "catchupTill"] rfl (by decide +kernel))
    (.req (exact_ledgerId env) <| .req exact_nonNeg <| .req exact_nonNeg <| .req exact_nonNeg .nil) <|
  .cons "CATCHUP_REP" _ _ _ _ (names_nodup ["ledgerId", "txns", "consProof"] rfl (by decide +kernel))
    (.req (exact_ledgerId env) <| .req exact_any <| .req (exact_iter (exact_base58 _)) .nil) <|
  .cons "VIEW_CHANGE_DONE" _ _ _ _ (names_nodup ["viewNo", "name", "ledgerInfo"] rfl (by decide +kernel))
    (.req exact_nonNeg <| .req (exact_null (exact_limited _)) <| .req (exact_iter (exact_ledgerInfo env)) .nil) <|
  .cons "CURRENT_STATE" _ _ _ _ (names_nodup ["viewNo", "primary"] rfl (by decide +kernel))
    (.req exact_nonNeg <| .req (exact_iter exact_any) .nil) <|
  .cons "MESSAGE_REQUEST" _ _ _ _ (names_nodup ["msg_type", "params"] rfl (by decide +kernel))
    (.req (exact_chooseSet Spec.askable) <| .req exact_anyMap .nil) <|
  .cons "MESSAGE_RESPONSE" _ _ _ _ (names_nodup ["msg_type", "params", "msg"] rfl (by decide +kernel))
    (.req (exact_chooseSet Spec.askable) <| .req exact_anyMap <| .req exact_any .nil) <|
  .cons "BATCH_COMMITTED" _ _ _ _ (batchCommitted_nodup env) (batchCommitted_lines env) <|
  .cons "OBSERVED_DATA" _ _ _ _ (names_nodup ["msg_type", "msg"] rfl (by decide +kernel))
    (.req (exact_chooseSet ["BATCH"]) <| .req exact_any .nil) <|
  .cons "ViewChangeStart" _ _ _ _ (names_nodup ["proposed_view_no"] rfl (by decide +kernel)) (.req exact_integer .nil) <|
  .cons "ViewChangeContinue" _ _ _ _ (names_nodup ["proposed_view_no"] rfl (by decide +kernel)) (.req exact_integer .nil)
  .nil

/-- The types of messages. -/
def types : List String := ["BATCH", "BLACKLIST", "REQACK", "REQNACK", "REJECT", "POOL_LEDGER_TXNS", "ORDERED",
  "PROPAGATE", "PREPREPARE", "OLD_VIEW_PREPREPARE_REQ", "OLD_VIEW_PREPREPARE_REP", "PREPARE", "COMMIT", "CHECKPOINT",
  "REPLY", "INSTANCE_CHANGE", "BACKUP_INSTANCE_FAULTY", "VIEW_CHANGE", "VIEW_CHANGE_ACK", "NEW_VIEW", "LEDGER_STATUS",
  "CONSISTENCY_PROOF", "CATCHUP_REQ", "CATCHUP_REP", "VIEW_CHANGE_DONE", "CURRENT_STATE", "MESSAGE_REQUEST",
  "MESSAGE_RESPONSE", "BATCH_COMMITTED", "OBSERVED_DATA", "ViewChangeStart", "ViewChangeContinue"]

theorem messages_nodup (env : Env) : ((Spec.messages env).map (fun x => ascii x.1)).Nodup := by
  show (types.map ascii).Nodup
  decide +kernel

end Verif.Schema
