import Verif.Proofs.SchemaBuild
/-! Lemmas about the schemas: which exceptions building a message raises. -/
namespace Verif.Schema

open Verif (Val ascii)
open Verif.Entry (Bytes Items lookup get truthy OP withoutOp lookup_some_iff lookup_none_iff truthy_false_iff)
open Verif.Entry.Spec (Field NoField)
open Verif.Spec (WF)
open Verif.Schema.Spec (Need HasForm must may)

theorem multi_names : ascii "blsMultiSig" ≠ ascii "blsMultiSigs" := by decide +kernel

attribute [local irreducible] ascii

/-- Raises nothing but `TypeError`. -/
def OnlyType {α : Type} (r : Except Exc α) : Prop := ∀ e, r = .error e → e = .typeError

theorem onlyType_ok {α : Type} (x : α) : OnlyType (.ok x : Except Exc α) := nofun
theorem onlyType_type {α : Type} : OnlyType (.error .typeError : Except Exc α) := fun _ h => by cases h; rfl

theorem onlyType_both {a b : Except Exc Bool} (ha : OnlyType a) (hb : OnlyType b) : OnlyType (both a b) := by
  intro e h
  unfold both at h
  split at h
  · exact hb e h
  · exact ha e h

theorem onlyType_all {α : Type} {f : α → Except Exc Bool} (hf : ∀ x, OnlyType (f x)) (l : List α) :
    OnlyType (allOk f l) := by
  induction l with
  | nil => exact onlyType_ok _
  | cons x l ih => exact onlyType_both (hf x) ih

theorem onlyType_each {α : Type} {f : α → Except Exc Unit} (hf : ∀ x, OnlyType (f x)) (l : List α) :
    OnlyType (forEach f l) := by
  induction l with
  | nil => exact onlyType_ok _
  | cons x l ih =>
    intro e h
    unfold forEach at h
    split at h
    · exact ih e h
    · rename_i e' he
      cases h
      exact hf x e he

/-- A validator that raises nothing but `TypeError`. -/
def Mild (f : V) : Prop := ∀ v, OnlyType (f v)

theorem mild_null {f : V} (h : Mild f) : Mild (orNull f) := by
  intro v; cases v <;> first | exact onlyType_ok _ | exact h _
theorem mild_any : Mild anyF := fun _ => onlyType_ok _
theorem mild_boolean : Mild booleanF := by intro v; cases v <;> exact onlyType_ok _
theorem mild_int (p : Int → Bool) : Mild (intF p) := by
  intro v; unfold intF; split <;> exact onlyType_ok _
theorem mild_integer : Mild integerF := mild_int _
theorem mild_nonNeg : Mild nonNegF := mild_int _
theorem mild_port : Mild portF := mild_int _
theorem mild_txnSeqNo : Mild txnSeqNoF := mild_int _
theorem mild_timestamp : Mild timestampF := mild_int _
theorem mild_ledgerId (env : Env) : Mild (ledgerIdF env) := mild_int _
theorem mild_nonEmpty : Mild nonEmptyF := by intro v; cases v <;> exact onlyType_ok _
theorem mild_limited (n : Nat) (b : Bool) : Mild (limitedF n b) := by
  intro v; unfold limitedF; split
  · split
    · exact onlyType_ok _
    · split <;> exact onlyType_ok _
  · exact onlyType_ok _
theorem mild_signature (n : Nat) : Mild (signatureF n) := by
  intro v; unfold signatureF; split
  · exact onlyType_ok _
  · split
    · exact onlyType_ok _
    · exact mild_limited _ _ _
  · exact onlyType_ok _
theorem mild_role : Mild roleF := by intro v; cases v <;> exact onlyType_ok _
theorem mild_const (s : Bytes) : Mild (constF s) := fun _ => onlyType_ok _
theorem mild_chooseSet (l : List Bytes) : Mild (chooseSetF l) := by
  intro v; cases v <;> first | exact onlyType_ok _ | exact onlyType_type
theorem mild_chooseTuple (l : List Bytes) : Mild (chooseTupleF l) := fun _ => onlyType_ok _
theorem mild_iter {f : V} (h : Mild f) : Mild (iterF f) := by
  intro v; cases v <;> first | exact onlyType_ok _ | exact onlyType_all h _
theorem mild_map {k v : V} (hk : Mild k) (hv : Mild v) : Mild (mapF k v) := by
  intro v; cases v <;> first | exact onlyType_ok _ | exact onlyType_all (fun _ => onlyType_both (hk _) (hv _)) _
theorem mild_anyMap : Mild anyMapF := by intro v; cases v <;> exact onlyType_ok _
theorem mild_ip (env : Env) : Mild (ipF env) := by intro v; cases v <;> exact onlyType_ok _
theorem mild_base58 (l : List Nat) : Mild (base58F l) := by
  intro v; unfold base58F; split
  · split <;> exact onlyType_ok _
  · exact onlyType_ok _
theorem mild_identifier : Mild identifierF := mild_base58 _
theorem mild_merkle : Mild merkleF := mild_base58 _
theorem mild_abbreviated : Mild abbreviatedF := by
  intro v; unfold abbreviatedF; split
  · split
    · exact mild_base58 _ _
    · exact onlyType_ok _
  · exact onlyType_ok _
theorem mild_verkey : Mild verkeyF := by
  intro v; unfold verkeyF; split
  · split
    · exact onlyType_ok _
    · rename_i h; rw [mild_abbreviated _ _ h]; exact onlyType_type
    · rename_i h _; rw [mild_base58 _ _ _ h]; exact onlyType_type
  · exact onlyType_ok _
theorem mild_sha256 : Mild sha256F := by intro v; cases v <;> exact onlyType_ok _
theorem mild_serialized (b : Bool) : Mild (serializedF b) := by intro v; cases v <;> exact onlyType_ok _
theorem mild_protocol : Mild protocolF := by intro v; cases v <;> exact onlyType_ok _
theorem mild_strNonNeg (env : Env) : Mild (strNonNegF env) := by
  intro v; unfold strNonNegF; split
  · split
    · exact mild_nonNeg _
    · exact onlyType_ok _
  · exact mild_nonNeg _
theorem mild_bidCheck (l : List Val) : OnlyType (bidCheck l) := by
  unfold bidCheck; split
  · exact onlyType_both (mild_nonNeg _) (onlyType_both (mild_nonNeg _) (onlyType_both (mild_nonNeg _) (mild_nonEmpty _)))
  · exact onlyType_ok _
theorem mild_batchId : Mild batchIdF := by
  intro v; unfold batchIdF; split
  · exact mild_bidCheck _
  · split
    · exact onlyType_ok _
    · split
      · exact onlyType_ok _
      · split
        · exact mild_bidCheck _
        · exact onlyType_type
  · exact onlyType_ok _
theorem mild_viewChange : Mild viewChangeF := by
  intro v; unfold viewChangeF; split
  · exact onlyType_both (mild_nonEmpty _) (mild_limited _ _ _)
  · exact onlyType_ok _
theorem mild_ledgerInfo (env : Env) : Mild (ledgerInfoF env) := by
  intro v; unfold ledgerInfoF; split
  · exact onlyType_both (mild_ledgerId _ _) (onlyType_both (mild_nonNeg _) (mild_merkle _))
  · exact onlyType_ok _
theorem mild_multiSigValue (env : Env) : Mild (multiSigValueF env) := by
  intro v; unfold multiSigValueF; split
  · split
    · exact onlyType_both (mild_ledgerId _ _) (onlyType_both (mild_merkle _) (onlyType_both (mild_merkle _)
        (onlyType_both (mild_merkle _) (mild_timestamp _))))
    · exact onlyType_type
  · exact onlyType_type
  · exact onlyType_ok _
theorem mild_someItem : Mild someItem := by
  intro v; unfold someItem; split <;> exact onlyType_ok _

/-- A schema whose validators raise nothing but `TypeError`. -/
def Calm (s : Schema) : Prop := ∀ l ∈ s, Mild l.field

theorem onlyType_raiseIf {r : Except Exc Bool} (h : OnlyType r) : OnlyType (raiseIf r) := by
  unfold raiseIf; split
  · exact onlyType_ok _
  · exact onlyType_type
  · rename_i x; rw [h x rfl]; exact onlyType_type

theorem onlyType_validate {s : Schema} (h : Calm s) (d : Items) : OnlyType (validate s d) := by
  unfold validate; split
  · exact onlyType_type
  · refine onlyType_each (fun e => ?_) _
    unfold checkItem
    split
    · exact onlyType_ok _
    · rename_i l hl
      exact onlyType_raiseIf (h l (List.mem_of_find?_eq_some hl) _)

theorem mild_record {s : Schema} {x : Items → Except Exc Unit} (h : Calm s) (hx : ∀ d, OnlyType (x d)) :
    Mild (recordF s x) := by
  intro v; unfold recordF; split
  · split
    · rename_i e he; rw [onlyType_validate h _ e he]; exact onlyType_type
    · split
      · rename_i e he; rw [hx _ e he]; exact onlyType_type
      · exact onlyType_ok _
  · exact onlyType_type

theorem calm_nil : Calm [] := nofun
theorem calm_req {n : String} {f : V} {s : Schema} (hf : Mild f) (h : Calm s) : Calm (req n f :: s) :=
  List.forall_mem_cons.2 ⟨hf, h⟩
theorem calm_opt {n : String} {f : V} {s : Schema} (hf : Mild f) (h : Calm s) : Calm (opt n f :: s) :=
  List.forall_mem_cons.2 ⟨hf, h⟩

theorem mild_nodeData (env : Env) : Mild (recordF (nodeData env) nodeDataExtra) := by
  refine mild_record ?_ fun d => ?_
  · repeat first | exact calm_nil | refine calm_opt ?_ ?_ | refine calm_req ?_ ?_ | exact mild_ip _ | exact mild_port |
      exact mild_limited _ _ | exact mild_iter (mild_chooseTuple _) | exact mild_base58 _
  · unfold nodeDataExtra
    dsimp only
    split
    · exact onlyType_type
    · exact onlyType_ok _

theorem operations_calm (env : Env) : ∀ o ∈ operations env, Calm o.2 := by
  unfold operations
  repeat first | exact List.forall_mem_nil _ | exact calm_nil | exact mild_nodeData _ | exact mild_const _ |
    exact mild_identifier | exact mild_verkey | exact mild_null mild_verkey | exact mild_limited _ _ | exact mild_role |
    exact mild_ledgerId _ | exact mild_txnSeqNo | exact mild_nonNeg | exact mild_anyMap | exact mild_nonEmpty |
    exact mild_iter mild_integer | refine List.forall_mem_cons.2 ⟨?_, ?_⟩

theorem mild_operation (env : Env) : Mild (operationF env) := by
  intro v; unfold operationF; split
  · rename_i d
    unfold operationOf
    split
    · exact onlyType_type
    · exact onlyType_type
    · exact onlyType_type
    · split
      · rename_i e he
        exact mild_record (operations_calm env e (List.mem_of_find?_eq_some he)) (fun _ => onlyType_ok _) _
      · exact onlyType_ok _
    · exact onlyType_ok _
  · exact onlyType_type

theorem onlyType_requestExtra (d : Items) : OnlyType (requestExtra d) := by
  unfold requestExtra
  dsimp only
  repeat' split
  all_goals first | exact onlyType_type | exact onlyType_ok _

theorem mild_taa : Mild (recordF taaAcceptance) :=
  mild_record (calm_req mild_sha256 (calm_req (mild_limited _ _) (calm_req mild_timestamp calm_nil))) (fun _ => onlyType_ok _)

theorem mild_request (env : Env) : Mild (requestF env) := by
  refine mild_record ?_ onlyType_requestExtra
  exact calm_opt (mild_null mild_identifier) <| calm_req mild_nonNeg <| calm_req (mild_operation env) <|
    calm_opt (mild_signature _) <| calm_opt (mild_limited _ _) <| calm_req mild_protocol <| calm_opt mild_taa <|
    calm_opt (mild_null (mild_map mild_identifier (mild_signature _))) <| calm_opt mild_identifier calm_nil

theorem calm_checkpoint : Calm checkpoint :=
  calm_req mild_nonNeg <| calm_req mild_nonNeg <| calm_req mild_nonNeg <| calm_req mild_nonNeg <|
  calm_req (mild_null mild_merkle) calm_nil

theorem calm_batchCommitted (env : Env) : Calm (batchCommitted env) := by
  unfold batchCommitted
  repeat first | exact calm_nil | exact mild_iter (mild_request _) | exact mild_ledgerId _ | exact mild_nonNeg |
    exact mild_timestamp | exact mild_merkle | exact mild_null mild_merkle | exact mild_iter (mild_limited _ _) |
    exact mild_limited _ _ | refine calm_req ?_ ?_

theorem classes_calm (env : Env) : ∀ c ∈ classes env, c.1 ≠ ascii "PREPREPARE" → Calm c.2 := by
  unfold classes
  repeat first
    | exact List.forall_mem_nil _
    | exact fun _ => calm_checkpoint
    | exact fun _ => calm_batchCommitted _
    | exact fun h => absurd rfl h
    | exact calm_nil
    | refine calm_req ?_ ?_ | refine calm_opt ?_ ?_
    | exact mild_iter (mild_request _) | exact mild_request _ | exact mild_ledgerId _ | exact mild_nonNeg
    | exact mild_timestamp | exact mild_merkle | exact mild_null mild_merkle | exact mild_iter (mild_limited _ _)
    | exact mild_limited _ _ | exact mild_iter (mild_serialized _) | exact mild_signature _ | exact mild_any
    | exact mild_integer | exact mild_null mild_integer | exact mild_null mild_anyMap | exact mild_null (mild_limited _ _)
    | exact mild_iter mild_batchId | exact mild_iter mild_any
    | exact mild_map (mild_strNonNeg _) (mild_limited _ _) | exact mild_iter mild_nonNeg
    | exact mild_iter mild_viewChange | exact mild_null mild_nonNeg | exact mild_protocol
    | exact mild_iter (mild_base58 _) | exact mild_iter (mild_ledgerInfo _) | exact mild_chooseSet _ | exact mild_anyMap
    | refine List.forall_mem_cons.2 ⟨?_, ?_⟩
    | refine fun _ => ?_

theorem onlyType_construct {op : Bytes} {s : Schema} (h : Calm s) (d : Items) : OnlyType (construct op s d) := by
  unfold construct; split
  · exact onlyType_type
  · split
    · rename_i e he; rw [onlyType_validate h _ e he]; exact onlyType_type
    · exact onlyType_ok _

theorem onlyType_checkpointOf (v : Val) : OnlyType (checkpointOf v) := by
  unfold checkpointOf; split
  · split
    · exact onlyType_ok _
    · rename_i e he; rw [onlyType_construct calm_checkpoint _ e he]; exact onlyType_type
  · exact onlyType_ok _

theorem onlyType_extra (env : Env) (op : Bytes) (d : Items) : OnlyType (extra env op d) := by
  unfold extra
  split
  · unfold observedExtra
    split
    · split
      · exact onlyType_ok _
      · rename_i e he; rw [onlyType_construct (calm_batchCommitted env) _ e he]; exact onlyType_type
    · exact onlyType_type
  · split
    · unfold prePrepareExtra
      split
      · split
        · exact onlyType_type
        · exact onlyType_ok _
      · exact onlyType_ok _
    · split
      · exact onlyType_each onlyType_checkpointOf _
      · split
        · exact onlyType_checkpointOf _
        · exact onlyType_ok _

theorem find_class {env : Env} {op : Bytes} {c : Bytes × Schema}
    (h : (classes env).find? (fun c => c.1 == op) = some c) : c ∈ classes env ∧ c.1 = op :=
  ⟨List.mem_of_find?_eq_some h, by simpa using List.find?_some h⟩

theorem build_mild (env : Env) {op : Bytes} (hop : op ≠ ascii "PREPREPARE") (d : Items) : OnlyType (build env op d) := by
  unfold build; split
  · exact onlyType_type
  · rename_i c hc
    obtain ⟨h1, h2⟩ := find_class hc
    have hcalm := classes_calm env c h1 (by rw [h2]; exact hop)
    split
    · rename_i e he; rw [onlyType_construct hcalm _ e he]; exact onlyType_type
    · split
      · rename_i e he; rw [onlyType_extra env op _ e he]; exact onlyType_type
      · exact onlyType_ok _

/-! ### The multi-signatures of a PREPREPARE -/

theorem multiSig_value (env : Env) (v : Val) : multiSigF env v = .error .valueError ↔ Spec.Short v := by
  unfold multiSigF
  split
  · rename_i a b c
    have : OnlyType (both (multiSigValueF env c) (both (limitedF 512 false a) (both (iterF nonEmptyF b) (someItem b)))) :=
      onlyType_both (mild_multiSigValue _ _) (onlyType_both (mild_limited _ _ _)
        (onlyType_both (mild_iter mild_nonEmpty _) (mild_someItem _)))
    constructor
    · exact fun h => nomatch this _ h
    · rintro ⟨l, h, hl⟩
      cases h
      exact absurd rfl hl
  · rename_i l hne
    refine ⟨fun _ => ⟨l, rfl, fun h => ?_⟩, fun _ => rfl⟩
    match l, h with
    | [a, b, c], _ => exact hne a b c rfl
  · rename_i h1 h2
    refine ⟨nofun, ?_⟩
    rintro ⟨l, rfl, _⟩
    exact absurd rfl (h2 l)

theorem orNull_value (env : Env) (v : Val) : orNull (multiSigF env) v = .error .valueError ↔ Spec.Short v := by
  cases v with
  | none => simp [orNull, Spec.Short]
  | _ => rw [← multiSig_value env]; rfl

theorem both_error {a b : Except Exc Bool} {e : Exc} :
    both a b = .error e ↔ a = .error e ∨ (a = .ok true ∧ b = .error e) := by
  cases a with
  | error x => simp [both]
  | ok x => cases x <;> simp [both]

theorem allOk_error {α : Type} {f : α → Except Exc Bool} {l : List α} {e : Exc} :
    allOk f l = .error e ↔ ∃ p x q, l = p ++ x :: q ∧ (∀ y ∈ p, f y = .ok true) ∧ f x = .error e := by
  induction l with
  | nil => simp [allOk]
  | cons x l ih =>
    rw [allOk, both_error, ih]
    constructor
    · rintro (h | ⟨h, p, y, q, rfl, h2, h3⟩)
      · exact ⟨[], x, l, rfl, by simp, h⟩
      · exact ⟨x :: p, y, q, rfl, by simpa [h] using h2, h3⟩
    · rintro ⟨p, y, q, h1, h2, h3⟩
      cases p with
      | nil => cases h1; exact .inl h3
      | cons z p =>
        cases h1
        exact .inr ⟨h2 _ (by simp), p, y, q, rfl, fun w hw => h2 w (by simp [hw]), h3⟩

theorem forEach_error {α : Type} {f : α → Except Exc Unit} {l : List α} {e : Exc} :
    forEach f l = .error e ↔ ∃ p x q, l = p ++ x :: q ∧ (∀ y ∈ p, f y = .ok ()) ∧ f x = .error e := by
  induction l with
  | nil => simp [forEach]
  | cons x l ih =>
    rw [forEach]
    cases hx : f x with
    | error e' =>
      simp only [Except.error.injEq]
      constructor
      · rintro rfl
        exact ⟨[], x, l, rfl, by simp, hx⟩
      · rintro ⟨p, y, q, h1, h2, h3⟩
        cases p with
        | nil => cases h1; rw [hx] at h3; cases h3; rfl
        | cons z p => cases h1; have := h2 x (by simp); rw [hx] at this; cases this
    | ok u =>
      simp only [ih]
      constructor
      · rintro ⟨p, y, q, rfl, h2, h3⟩
        refine ⟨x :: p, y, q, rfl, ?_, h3⟩
        intro w hw
        rcases List.mem_cons.1 hw with rfl | hw
        · rw [hx]
        · exact h2 w hw
      · rintro ⟨p, y, q, h1, h2, h3⟩
        cases p with
        | nil => cases h1; rw [hx] at h3; cases h3
        | cons z p =>
          cases h1
          exact ⟨p, y, q, rfl, fun w hw => h2 w (by simp [hw]), h3⟩

theorem forEach_filter {α : Type} {f : α → Except Exc Unit} {p : α → Bool} (h : ∀ x, p x = false → f x = .ok ())
    (l : List α) : forEach f (l.filter p) = forEach f l := by
  induction l with
  | nil => rfl
  | cons x l ih =>
    rw [List.filter_cons]
    by_cases hx : p x = true
    · rw [if_pos hx, forEach, forEach, ih]
    · rw [if_neg hx, ih]
      conv => rhs; rw [forEach]
      rw [h x (by simpa using hx)]

theorem find_line {s : Schema} (hs : (s.map Line.name).Nodup) {l : Line} (h : l ∈ s) :
    s.find? (fun m => m.name == l.name) = some l := by
  induction s with
  | nil => cases h
  | cons m s ih =>
    rw [List.map_cons, List.nodup_cons] at hs
    rcases List.mem_cons.1 h with rfl | h
    · rw [List.find?_cons_of_pos (by simp)]
    · have hne : m.name ≠ l.name := fun h2 => hs.1 (h2 ▸ List.mem_map_of_mem h)
      rw [List.find?_cons_of_neg (by simpa using hne)]
      exact ih hs.2 h

theorem lines_item {s : Schema} {t : List Need} (h : Lines s t) (k : Bytes) {v : Val} (hv : WF v) :
    (∀ l ∈ s, l.name = k → l.field v = .ok true) ↔ ∀ n ∈ t, k = ascii n.name → n.form v := by
  induction h with
  | nil => simp
  | cons l n s t h1 _ h3 _ ih =>
    rw [List.forall_mem_cons, List.forall_mem_cons, ih, h1, h3 v hv]
    refine and_congr_left' ⟨fun h4 h5 => h4 h5.symm, fun h4 h5 => h4 h5.symm⟩

theorem prePrepare_calm (env : Env) : ∀ l ∈ prePrepare env, Mild l.field ∨
    l = opt "blsMultiSig" (orNull (multiSigF env)) ∨ l = opt "blsMultiSigs" (iterF (orNull (multiSigF env))) := by
  unfold prePrepare
  repeat first
    | exact List.forall_mem_nil _
    | exact .inr (.inl rfl) | exact .inr (.inr rfl)
    | exact .inl mild_nonNeg | exact .inl mild_timestamp | exact .inl (mild_iter (mild_limited _ _))
    | exact .inl (mild_serialized _) | exact .inl (mild_limited _ _) | exact .inl (mild_ledgerId _)
    | exact .inl (mild_null mild_merkle) | exact .inl mild_boolean | exact .inl (mild_null mild_nonNeg)
    | exact .inl (mild_null mild_anyMap)
    | refine List.forall_mem_cons.2 ⟨?_, ?_⟩

theorem prePrepare_nodup (env : Env) : ((prePrepare env).map Line.name).Nodup :=
  names_nodup ["instId", "viewNo", "ppSeqNo", "ppTime", "reqIdr", "discarded", "digest",
      "ledgerId", "stateRootHash", "txnRootHash", "sub_seq_no", "final", "poolStateRootHash", "auditTxnRootHash",
      "blsMultiSig", "blsMultiSigs", "originalViewNo", "plugin_fields"] rfl (by decide +kernel)

/-- The item is a multi-signature of the wrong length. -/
def BadItem (env : Env) (k : Bytes) (v : Val) : Prop :=
  (k = ascii "blsMultiSig" ∧ Spec.Short v) ∨
  (k = ascii "blsMultiSigs" ∧ ∃ p x q, v = .list (p ++ x :: q) ∧ (∀ y ∈ p, Spec.NullOr (Spec.MultiSig env) y) ∧ Spec.Short x)

theorem raiseIf_value {r : Except Exc Bool} : raiseIf r = .error .valueError ↔ r = .error .valueError := by
  unfold raiseIf; split <;> simp

theorem checkItem_value (env : Env) {e : Bytes × Val} (he : WF e.2) :
    checkItem (prePrepare env) e = .error .valueError ↔ BadItem env e.1 e.2 := by
  have h1 : ∀ v, WF v → ((opt "blsMultiSigs" (iterF (orNull (multiSigF env)))).field v = .error .valueError ↔
      ∃ p x q, v = .list (p ++ x :: q) ∧ (∀ y ∈ p, Spec.NullOr (Spec.MultiSig env) y) ∧ Spec.Short x) := by
    intro v hv
    show iterF (orNull (multiSigF env)) v = _ ↔ _
    cases v with
    | list l =>
      have hl : ∀ x ∈ l, WF x := by cases hv; assumption
      simp only [iterF, Val.list.injEq]
      rw [allOk_error]
      constructor
      · rintro ⟨p, x, q, rfl, h2, h3⟩
        exact ⟨p, x, q, rfl, fun y hy => (exact_null (exact_multiSig env) y (hl y (by simp [hy]))).1 (h2 y hy),
          (orNull_value env x).1 h3⟩
      · rintro ⟨p, x, q, rfl, h2, h3⟩
        exact ⟨p, x, q, rfl, fun y hy => (exact_null (exact_multiSig env) y (hl y (by simp [hy]))).2 (h2 y hy),
          (orNull_value env x).2 h3⟩
    | _ => simp [iterF]
  have hm1 : opt "blsMultiSig" (orNull (multiSigF env)) ∈ prePrepare env := by simp [prePrepare]
  have hm2 : opt "blsMultiSigs" (iterF (orNull (multiSigF env))) ∈ prePrepare env := by simp [prePrepare]
  unfold BadItem
  rw [← orNull_value env, ← h1 _ he]
  constructor
  · intro h
    unfold checkItem at h
    split at h
    · cases h
    · rename_i l hl
      rw [raiseIf_value] at h
      have hn : l.name = e.1 := by simpa using List.find?_some hl
      rcases prePrepare_calm env l (List.mem_of_find?_eq_some hl) with h2 | rfl | rfl
      · exact nomatch h2 _ _ h
      · exact .inl ⟨hn.symm, h⟩
      · exact .inr ⟨hn.symm, h⟩
  · rintro (⟨h2, h3⟩ | ⟨h2, h3⟩)
    · have := find_line (prePrepare_nodup env) hm1
      unfold checkItem
      rw [h2]
      erw [this]
      exact raiseIf_value.2 h3
    · have := find_line (prePrepare_nodup env) hm2
      unfold checkItem
      rw [h2]
      erw [this]
      exact raiseIf_value.2 h3

theorem types_nodup : (types.map ascii).Nodup := by decide +kernel

theorem find_pair {l : List (Bytes × Schema)} (hl : (l.map Prod.fst).Nodup) {c : Bytes × Schema} (h : c ∈ l) :
    l.find? (fun x => x.1 == c.1) = some c := by
  induction l with
  | nil => cases h
  | cons m l ih =>
    rw [List.map_cons, List.nodup_cons] at hl
    rcases List.mem_cons.1 h with rfl | h
    · rw [List.find?_cons_of_pos (by simp)]
    · have hne : m.1 ≠ c.1 := fun h2 => hl.1 (h2 ▸ List.mem_map_of_mem h)
      rw [List.find?_cons_of_neg (by simpa using hne)]
      exact ih hl.2 h

theorem class_find {env : Env} {c : Bytes × Schema} (h : c ∈ classes env) :
    (classes env).find? (fun x => x.1 == c.1) = some c :=
  find_pair (show ((classes env).map Prod.fst).Nodup from types_nodup) h

/-- The table of a type is the one whose lines the schema has. -/
theorem class_table {env : Env} {k : String} {s : Schema} {t : List Need} (hs : (ascii k, s) ∈ classes env)
    (ht : (k, t) ∈ Spec.messages env) : (s.map Line.name).Nodup ∧ Lines s t := by
  have h0 := class_find hs
  rcases build_cases env (ascii k) with ⟨_, h2⟩ | ⟨s', k', t', h1, h2, h3, h4, h5, h6⟩
  · exact absurd rfl (h2 k t ht)
  · rw [h0] at h1
    cases h1
    obtain ⟨rfl, rfl⟩ := h6 k t ht rfl
    exact ⟨h4, h5⟩

theorem validate_value {env : Env} {d : Items} :
    validate (prePrepare env) d = .error .valueError ↔
      (∀ l ∈ prePrepare env, l.optional = false → ∃ v, Field d l.name v) ∧
      forEach (checkItem (prePrepare env)) d = .error .valueError := by
  unfold validate
  by_cases hm : (prePrepare env).any (fun l => !l.optional && (lookup d l.name).isNone) = true
  · rw [if_pos hm]
    refine ⟨nofun, fun h2 => ?_⟩
    obtain ⟨l, hl, h3⟩ := List.any_eq_true.1 hm
    simp only [Bool.and_eq_true, Bool.not_eq_true', Option.isNone_iff_eq_none] at h3
    obtain ⟨v, hv⟩ := h2.1 l hl h3.1
    rw [(lookup_some_iff _ _ _).2 hv] at h3
    exact nomatch h3.2
  · rw [if_neg hm]
    refine ⟨fun h => ⟨fun l hl ho => ?_, h⟩, fun h => h.2⟩
    rcases field_or d l.name with h3 | h3
    · exact h3
    · refine absurd (List.any_eq_true.2 ⟨l, hl, ?_⟩) hm
      simp [ho, (lookup_none_iff _ _).2 h3]

theorem lines_must {s : Schema} {t : List Need} (h : Lines s t) (d : Items) :
    (∀ l ∈ s, l.optional = false → ∃ v, Field d l.name v) ↔
    ∀ n ∈ t, n.must = true → ∃ v, Field d (ascii n.name) v := by
  induction h with
  | nil => simp
  | cons l n s t h1 h2 _ _ ih =>
    rw [List.forall_mem_cons, List.forall_mem_cons, ih, h1, h2]
    simp

theorem construct_value {env : Env} {t : List Need} (ht : ("PREPREPARE", t) ∈ Spec.messages env) {d : Items}
    (hd : WF (.dict d)) :
    construct (ascii "PREPREPARE") (prePrepare env) d = .error .valueError ↔ NoField d (ascii "self") ∧
    (∀ n ∈ t, n.must = true → ∃ v, Field d (ascii n.name) v) ∧
    ∃ a k v b, d = a ++ (k, v) :: b ∧ (∀ e ∈ a, ∀ n ∈ t, e.1 = ascii n.name → n.form e.2) ∧ BadItem env k v := by
  obtain ⟨hn, hl⟩ := class_table (env := env) (s := prePrepare env) (by simp [classes]) ht
  obtain ⟨hk, _⟩ := name_ok ht
  have hw := (wf_dict hd).2
  have hop : ∀ e : Bytes × Val, (!(e.1 == OP)) = false → checkItem (prePrepare env) e = .ok () := by
    intro e he
    refine (checkItem_ok hn e).2 fun l hl' h2 => ?_
    have : l.name ∈ t.map (fun n => ascii n.name) := by rw [← lines_names hl]; exact List.mem_map_of_mem hl'
    obtain ⟨n, hnt, h3⟩ := List.mem_map.1 this
    have h4 : e.1 = OP := by simpa using he
    exact absurd (h3.trans (h2.trans h4)) (hk n hnt).1
  have hfe : forEach (checkItem (prePrepare env)) (withoutOp d) = forEach (checkItem (prePrepare env)) d :=
    forEach_filter hop d
  have hitem : ∀ e ∈ d, checkItem (prePrepare env) e = .ok () ↔ ∀ n ∈ t, e.1 = ascii n.name → n.form e.2 :=
    fun e he => (checkItem_ok hn e).trans (lines_item hl e.1 (hw e he))
  have hval : validate (prePrepare env) (withoutOp d) = .error .valueError ↔
      (∀ n ∈ t, n.must = true → ∃ v, Field d (ascii n.name) v) ∧
      ∃ a k v b, d = a ++ (k, v) :: b ∧ (∀ e ∈ a, ∀ n ∈ t, e.1 = ascii n.name → n.form e.2) ∧ BadItem env k v := by
    rw [validate_value, lines_must hl, hfe, forEach_error]
    refine and_congr ?_ ?_
    · constructor
      · exact fun h n hn2 hm => (h n hn2 hm).imp fun v hv => (field_withoutOp (hk n hn2).1 v).1 hv
      · exact fun h n hn2 hm => (h n hn2 hm).imp fun v hv => (field_withoutOp (hk n hn2).1 v).2 hv
    · constructor
      · rintro ⟨p, x, q, rfl, h2, h3⟩
        exact ⟨p, x.1, x.2, q, rfl, fun e he => (hitem e (by simp [he])).1 (h2 e he),
          (checkItem_value env (hw x (by simp))).1 h3⟩
      · rintro ⟨a, k, v, b, rfl, h2, h3⟩
        exact ⟨a, (k, v), b, rfl, fun e he => (hitem e (by simp [he])).2 (h2 e he),
          (checkItem_value env (e := (k, v)) (hw (k, v) (by simp))).2 h3⟩
  rw [← hval]
  unfold construct hasSelf
  by_cases hf : NoField d (ascii "self")
  · rw [(isSome_noField _ _).2 hf]
    simp only [Bool.false_eq_true, if_false, hf, true_and]
    cases validate (prePrepare env) (withoutOp d) <;> simp
  · have : (lookup d (ascii "self")).isSome = true := by
      rcases field_or d (ascii "self") with h | h
      · exact (isSome_field _ _).2 h
      · exact absurd h hf
    rw [if_pos this]
    simp [hf]

theorem build_value (env : Env) (op : Bytes) {d : Items} (hd : WF (.dict d)) :
    build env op d = .error .valueError ↔ op = ascii "PREPREPARE" ∧ Spec.Unpack env d := by
  by_cases hop : op = ascii "PREPREPARE"
  · subst hop
    simp only [true_and]
    have hb : build env (ascii "PREPREPARE") d = .error .valueError ↔
        construct (ascii "PREPREPARE") (prePrepare env) d = .error .valueError := by
      unfold build
      rw [show (classes env).find? (fun c => c.1 == ascii "PREPREPARE") = _ from
        class_find (env := env) (c := (ascii "PREPREPARE", prePrepare env)) (by simp [classes])]
      cases hm : construct (ascii "PREPREPARE") (prePrepare env) d with
      | error e => simp [hm]
      | ok m =>
        simp only [hm]
        cases hx : extra env (ascii "PREPREPARE") m.fields with
        | error e =>
          rw [onlyType_extra _ _ _ e hx]; simp
        | ok u => simp
    rw [hb]
    constructor
    · intro h
      rcases build_cases env (ascii "PREPREPARE") with ⟨h1, _⟩ | ⟨s, k, t, h1, h2, h3, _, _, _⟩
      · exact absurd (List.find?_eq_none.1 h1 (ascii "PREPREPARE", prePrepare env) (by simp [classes])) (by simp)
      · have : k = "PREPREPARE" := types_inj _ (name_ok h3).2 _ special_types.2.1 h2.symm
        subst this
        exact ⟨t, h3, (construct_value h3 hd).1 h⟩
    · rintro ⟨t, ht, h⟩
      exact (construct_value ht hd).2 h
  · refine ⟨fun h => (nomatch build_mild env hop d _ h), fun h => absurd h.1 hop⟩

theorem build_attribute (env : Env) (op : Bytes) (d : Items) : build env op d ≠ .error .attributeError := by
  intro h
  by_cases hop : op = ascii "PREPREPARE"
  · subst hop
    unfold build at h
    rw [show (classes env).find? (fun c => c.1 == ascii "PREPREPARE") = _ from
        class_find (env := env) (c := (ascii "PREPREPARE", prePrepare env)) (by simp [classes])] at h
    simp only at h
    split at h
    · rename_i e he
      cases h
      unfold construct at he
      split at he
      · cases he
      · split at he
        · rename_i e' he'
          cases he
          unfold validate at he'
          split at he'
          · cases he'
          · obtain ⟨p, x, q, _, _, h3⟩ := forEach_error.1 he'
            unfold checkItem at h3
            split at h3
            · cases h3
            · rename_i l hl
              unfold raiseIf at h3
              split at h3
              · cases h3
              · cases h3
              · rename_i y hy
                cases h3
                have hms : ∀ v, multiSigF env v ≠ .error .attributeError := by
                  intro v hv
                  unfold multiSigF at hv
                  split at hv
                  · exact nomatch onlyType_both (mild_multiSigValue _ _) (onlyType_both (mild_limited _ _ _)
                      (onlyType_both (mild_iter mild_nonEmpty _) (mild_someItem _))) _ hv
                  · cases hv
                  · cases hv
                have hon : ∀ v, orNull (multiSigF env) v ≠ .error .attributeError := by
                  intro v hv
                  unfold orNull at hv
                  split at hv
                  · cases hv
                  · exact hms _ hv
                rcases prePrepare_calm env l (List.mem_of_find?_eq_some hl) with h2 | rfl | rfl
                · exact nomatch h2 _ _ hy
                · exact hon _ hy
                · change iterF (orNull (multiSigF env)) x.2 = _ at hy
                  unfold iterF at hy
                  split at hy
                  · obtain ⟨p, x, q, _, _, h3⟩ := allOk_error.1 hy
                    exact hon _ h3
                  · cases hy
        · cases he
    · split at h
      · rename_i e he
        cases h
        exact nomatch onlyType_extra _ _ _ _ he
      · cases h
  · exact nomatch build_mild env hop d _ h

end Verif.Schema
