import Verif.Model.Entry
import Verif.Spec.Entry
/-! Lemmas about the path from the sockets to the inboxes. -/
namespace Verif.Entry

open Verif (Val ascii)

theorem truthy_false_iff (v : Val) : truthy v = false ↔ Spec.Falsy v := by
  cases v <;> simp [truthy, Spec.Falsy]
  case float b =>
    constructor
    · intro h
      by_cases h0 : b = 0
      · exact .inl h0
      · exact .inr (h h0)
    · rintro (h | h)
      · intro h0; exact absurd h h0
      · intro _; exact h

theorem lookup_some_iff (d : Items) (k : Bytes) (v : Val) : lookup d k = some v ↔ Spec.Field d k v := by
  induction d with
  | nil => simp [lookup, Spec.Field]
  | cons e d ih =>
    by_cases h : e.1 = k
    · have : lookup (e :: d) k = some e.2 := by simp [lookup, h]
      rw [this]
      constructor
      · intro h2
        cases h2
        exact ⟨[], d, by rw [← h]; rfl, by simp⟩
      · rintro ⟨a, b, h1, h2⟩
        cases a with
        | nil => simp at h1; rw [h1.1]
        | cons x a => simp at h1; exact absurd (h1.1 ▸ h) (h2 x (by simp))
    · have : lookup (e :: d) k = lookup d k := by simp [lookup, h]
      rw [this, ih]
      constructor
      · rintro ⟨a, b, h1, h2⟩
        refine ⟨e :: a, b, by simp [h1], ?_⟩
        intro x hx
        rcases List.mem_cons.1 hx with rfl | hx
        · exact h
        · exact h2 x hx
      · rintro ⟨a, b, h1, h2⟩
        cases a with
        | nil => simp at h1; exact absurd (by rw [h1.1]) h
        | cons x a => simp at h1; exact ⟨a, b, h1.2, fun y hy => h2 y (by simp [hy])⟩

theorem lookup_none_iff (d : Items) (k : Bytes) : lookup d k = none ↔ Spec.NoField d k := by
  simp [lookup, Spec.NoField, List.find?_eq_none]

theorem isPrefixOf_iff (a s : Bytes) : a.isPrefixOf s = true ↔ ∃ b, s = a ++ b := by
  rw [List.isPrefixOf_iff_prefix]
  constructor
  · rintro ⟨b, h⟩; exact ⟨b, h.symm⟩
  · rintro ⟨b, h⟩; exact ⟨b, h.symm⟩

theorem isInfix_iff (x : Bytes) : ∀ s, isInfix x s = true ↔ ∃ a b, s = a ++ x ++ b
  | [] => by
    simp [isInfix]
  | c :: s => by
    simp only [isInfix, Bool.or_eq_true, isPrefixOf_iff, isInfix_iff x s]
    constructor
    · rintro (⟨b, h⟩ | ⟨a, b, h⟩)
      · exact ⟨[], b, by simpa using h⟩
      · exact ⟨c :: a, b, by simp [h]⟩
    · rintro ⟨a, b, h⟩
      cases a with
      | nil => exact .inl ⟨b, by simpa using h⟩
      | cons y a => simp at h; exact .inr ⟨a, b, by simp [h.2]⟩

theorem scanRaises_iff (v : Val) : scanRaises v = true ↔ Spec.NoObject v := by
  cases v with
  | str s =>
    have := isInfix_iff OP s
    simp only [scanRaises, opIn, opOf, Spec.NoObject]
    cases h : isInfix OP s
    · simp only [Bool.false_eq_true, false_iff]
      rw [h] at this
      simpa [OP] using this
    · simp only [Option.isNone_none, true_iff]
      exact this.1 h
  | list l =>
    simp only [scanRaises, opIn, opOf, Spec.NoObject]
    cases h : l.any (fun v => v == .str OP)
    · simp only [Bool.false_eq_true, false_iff]
      intro hm
      have := List.any_eq_false.1 h _ hm
      simp [OP] at this
    · simp only [Option.isNone_none, true_iff]
      obtain ⟨x, hx, he⟩ := List.any_eq_true.1 h
      have : x = .str OP := by simpa using he
      exact this ▸ hx
  | dict d =>
    simp only [scanRaises, opIn, opOf, Spec.NoObject, iff_false]
    cases h : lookup d OP <;> simp
  | none => simp [scanRaises, opIn, Spec.NoObject]
  | bool _ => simp [scanRaises, opIn, Spec.NoObject]
  | int _ => simp [scanRaises, opIn, Spec.NoObject]
  | float _ => simp [scanRaises, opIn, Spec.NoObject]
  | bin _ => simp [scanRaises, opIn, Spec.NoObject]

theorem idr_none_iff (d : Items) : idr d = none ↔ Spec.BadSigs d := by
  have hid : truthy (get d IDENTIFIER) = false ↔
      (Spec.NoField d (ascii "identifier") ∨ ∃ v, Spec.Field d (ascii "identifier") v ∧ Spec.Falsy v) := by
    unfold get
    cases h : lookup d IDENTIFIER with
    | none => simp [truthy]; exact .inl ((lookup_none_iff _ _).1 h)
    | some v =>
      have hf := (lookup_some_iff _ _ _).1 h
      rw [Option.getD_some, truthy_false_iff]
      constructor
      · exact fun h2 => .inr ⟨v, hf, h2⟩
      · rintro (h2 | ⟨w, hw, h2⟩)
        · rw [← IDENTIFIER, ← lookup_none_iff, h] at h2; cases h2
        · have := (lookup_some_iff _ _ _).2 hw
          rw [← IDENTIFIER, h] at this; cases this; exact h2
  have hsg : (∃ v, Spec.Field d (ascii "signatures") v ∧ ¬ Spec.Falsy v ∧ ∀ e, v ≠ .dict e) ↔
      (truthy ((lookup d SIGS).getD (.dict [])) = true ∧ ∀ e, (lookup d SIGS).getD (.dict []) ≠ .dict e) := by
    constructor
    · rintro ⟨v, h1, h2, h3⟩
      have h1 := (lookup_some_iff _ _ _).2 h1
      rw [← SIGS] at h1
      rw [h1, Option.getD_some]
      rw [← truthy_false_iff] at h2
      exact ⟨by simpa using h2, h3⟩
    · rintro ⟨h1, h2⟩
      cases h : lookup d SIGS with
      | none => rw [h] at h1; simp [truthy] at h1
      | some v =>
        rw [h, Option.getD_some] at h1 h2
        refine ⟨v, (lookup_some_iff _ _ _).1 h, ?_, h2⟩
        rw [← truthy_false_iff, h1]; simp
  unfold Spec.BadSigs
  rw [← hid, hsg]
  unfold idr
  cases h1 : truthy (get d IDENTIFIER) with
  | true => simp
  | false =>
    simp only [Bool.false_eq_true, if_false]
    cases h2 : truthy ((lookup d SIGS).getD (.dict [])) with
    | false => simp
    | true =>
      simp only [if_true, true_and]
      cases h3 : (lookup d SIGS).getD (.dict []) <;> simp

/-! ### What the handlers keep -/

theorem each_keeps {Q : St → Prop} {f : St → Bytes → St × Bool} (hf : ∀ s t, Q s → Q (f s t).1) :
    ∀ (l : List Bytes) (s : St), Q s → Q (each f s l).1
  | [], _, h => h
  | t :: r, s, h => by
    unfold each
    split
    · exact hf s t h
    · exact each_keeps hf r _ (hf s t h)

theorem handleNode_keeps {Q : St → Prop} (cfg : Cfg) (env : Env) (frm : Bytes)
    (hq : ∀ s v m, Q s → validateNode cfg env v frm = some m → m.op ≠ BATCH →
      Q { s with nodeIn := s.nodeIn ++ [(m, frm)] }) :
    ∀ (n : Nat) (s : St) (v : Val), Q s → Q (handleNode cfg env frm n s v).1
  | 0, _, _, h => h
  | n + 1, s, v, h => by
    unfold handleNode
    cases hv : validateNode cfg env v frm with
    | none => exact h
    | some m =>
      simp only
      split
      · refine each_keeps (Q := Q) ?_ _ _ h
        intro s t hs
        unfold nodeText
        split
        · exact hs
        · exact handleNode_keeps cfg env frm hq n _ _ hs
      · rename_i hb
        exact hq s v m h hv (by simpa using hb)

theorem refuse_keeps {Q : St → Prop} (hn : ∀ s x, Q s → Q { s with nacks := s.nacks ++ [x] })
    (f : Fault) (s : St) (v : Val) (frm : Bytes) (h : Q s) : Q (refuse f s v frm).1 := by
  unfold refuse
  split
  · split
    · exact h
    · exact hn _ _ h
  · exact h

theorem handleClient_keeps {Q : St → Prop} (cfg : Cfg) (env : Env) (frm : Bytes)
    (hn : ∀ s x, Q s → Q { s with nacks := s.nacks ++ [x] })
    (hr : ∀ s d, Q s → Q { s with clientIn := s.clientIn ++ [(.request d, frm)] })
    (hq : ∀ s v m, Q s → validateClient cfg env v frm = .node m →
      Q { s with clientIn := s.clientIn ++ [(.node m, frm)] }) :
    ∀ (n : Nat) (s : St) (v : Val), Q s → Q (handleClient cfg env frm n s v).1
  | 0, _, _, h => h
  | n + 1, s, v, h => by
    have ih := handleClient_keeps cfg env frm hn hr hq n
    have hb : ∀ l, Q (each (clientText cfg (handleClient cfg env frm n)) s l).1 := by
      intro l
      refine each_keeps (Q := Q) ?_ _ _ h
      intro s t hs
      unfold clientText
      split
      · exact hs
      · split
        · exact hs
        · exact ih _ _ hs
    unfold handleClient
    cases hv : validateClient cfg env v frm with
    | ignored => exact h
    | raised f => exact refuse_keeps hn f s v frm h
    | request d =>
      simp only
      split
      · exact h
      · exact hr _ _ h
    | node m => exact hq s v m h hv
    | batch l =>
      simp only
      split
      · exact refuse_keeps hn _ _ v frm (hb l)
      · exact hb l

theorem handleNode_raised (cfg : Cfg) (env : Env) (frm : Bytes) (n : Nat) (s : St) (v : Val) :
    (handleNode cfg env frm (n + 1) s v).2 = false := by
  unfold handleNode
  cases validateNode cfg env v frm with
  | none => rfl
  | some m => simp only; split <;> rfl

theorem handleNode_stopped (cfg : Cfg) (env : Env) (frm : Bytes) (n : Nat) (s : St) (v : Val) :
    (handleNode cfg env frm n s v).1.stopped = s.stopped :=
  handleNode_keeps (Q := fun x => x.stopped = s.stopped) cfg env frm (fun _ _ _ h _ _ => h) n s v rfl

theorem handleClient_stopped (cfg : Cfg) (env : Env) (frm : Bytes) (n : Nat) (s : St) (v : Val) :
    (handleClient cfg env frm n s v).1.stopped = s.stopped :=
  handleClient_keeps (Q := fun x => x.stopped = s.stopped) cfg env frm (fun _ _ h => h)
    (fun _ _ h => h) (fun _ _ _ h _ => h) n s v rfl

/-- The exception that refused the request has no arguments. -/
def bareRefusal (cfg : Cfg) (d : Items) : Prop :=
  cfg.request d = some .noArgs ∨ (cfg.request d = none ∧ authFault cfg d = some .noArgs)

theorem validateRequest_noArgs (cfg : Cfg) (d : Items) :
    validateRequest cfg d = .raised .noArgs ↔ bareRefusal cfg d := by
  unfold validateRequest bareRefusal
  cases h : cfg.request d with
  | some f => simp
  | none => cases h2 : authFault cfg d <;> simp

theorem validateOp_not_noArgs (cfg : Cfg) (d : Items) : validateOp cfg d ≠ .raised .noArgs := by
  unfold validateOp
  split
  · split
    · split
      · split <;> simp
      · simp
    · simp
  · simp

theorem validateOp_batch {cfg : Cfg} {d : Items} {l : List Bytes} (h : validateOp cfg d = .batch l) :
    lookup d OP = some (.str BATCH) := by
  unfold validateOp at h
  split at h
  · rename_i op ho
    split at h
    · split at h
      · split at h
        · rename_i hb
          have : op = BATCH := by simpa using hb
          rw [ho, this]
        · cases h
      · cases h
    · cases h
  · cases h

theorem validateOp_node {cfg : Cfg} {d : Items} {m : NodeMsg} (h : validateOp cfg d = .node m) :
    m.op = LEDGER_STATUS ∨ m.op = CATCHUP_REQ := by
  unfold validateOp at h
  split at h
  · rename_i op ho
    split at h
    · rename_i hc
      split at h
      · split at h
        · cases h
        · rename_i hb
          cases h
          have hc : op = BATCH ∨ op = LEDGER_STATUS ∨ op = CATCHUP_REQ := by simpa using hc
          exact hc.resolve_left (by simpa using hb)
      · cases h
    · cases h
  · cases h

theorem validateRequest_not_batch (cfg : Cfg) (d : Items) (l : List Bytes) : validateRequest cfg d ≠ .batch l := by
  unfold validateRequest
  split
  · simp
  · split <;> simp

theorem validateRequest_not_node (cfg : Cfg) (d : Items) (m : NodeMsg) : validateRequest cfg d ≠ .node m := by
  unfold validateRequest
  split
  · simp
  · split <;> simp

/-- Whether an exception leaves the handler of one client message. -/
theorem handleClient_raised (cfg : Cfg) (env : Env) (frm : Bytes) (n : Nat) (s : St) (v : Val) :
    (handleClient cfg env frm (n + 1) s v).2 = true ↔
      env.clientBlacklisted frm = false ∧
      ((∀ d, v ≠ .dict d) ∨ ∃ d, v = .dict d ∧ (idr d = none ∨
        (get d OP = .str LEDGER_STATUS ∧ truthy (get d OPERATION) = true ∧ truthy (get d REQ_ID) = true ∧
          (∃ i, idr d = some i ∧ truthy i = true) ∧ bareRefusal cfg d))) := by
  cases hb : env.clientBlacklisted frm with
  | true => simp [handleClient, validateClient, hb]
  | false =>
    cases v with
    | dict d =>
      cases hi : idr d with
      | none => simp [handleClient, validateClient, hb, hi, refuse]
      | some i =>
        unfold handleClient
        by_cases hc : (truthy (get d OPERATION) && truthy (get d REQ_ID) && truthy i) = true
        · have hv : validateClient cfg env (.dict d) frm = validateRequest cfg d := by
            simp only [validateClient, hb, hi, hc, if_true, Bool.false_eq_true, if_false]
          rw [hv]
          simp only [Bool.and_eq_true] at hc
          have hbr := validateRequest_noArgs cfg d
          cases hr : validateRequest cfg d with
          | ignored => simp [hr] at hbr; simp [hi, hbr]
          | raised f =>
            simp only [refuse, hi]
            rw [hr] at hbr
            cases f with
            | noArgs =>
              have hbr := hbr.1 rfl
              simp [hbr, hc.1.1, hc.1.2, hc.2, hi]
            | withArgs =>
              have : ¬ bareRefusal cfg d := fun h => by have := hbr.2 h; cases this
              simp [this, hi]
          | request d' =>
            have : ¬ bareRefusal cfg d := fun h => by have := hbr.2 h; rw [hr] at this; cases this
            simp only
            split <;> simp [this, hi]
          | batch l => exact absurd hr (validateRequest_not_batch _ _ _)
          | node m => exact absurd hr (validateRequest_not_node _ _ _)
        · have hv : validateClient cfg env (.dict d) frm = validateOp cfg d := by
            simp only [validateClient, hb, hi, hc, if_false, Bool.false_eq_true]
          rw [hv]
          have hR : ¬ ((∀ d', Val.dict d ≠ .dict d') ∨ ∃ d', Val.dict d = .dict d' ∧ (idr d' = none ∨
              (get d' OP = .str LEDGER_STATUS ∧ truthy (get d' OPERATION) = true ∧ truthy (get d' REQ_ID) = true ∧
              (∃ i, idr d' = some i ∧ truthy i = true) ∧ bareRefusal cfg d'))) := by
            rintro (h | ⟨d', h, h2⟩)
            · exact h d rfl
            · cases h
              rcases h2 with h2 | ⟨_, h3, h4, ⟨j, h5, h6⟩, _⟩
              · rw [hi] at h2; cases h2
              · rw [hi] at h5; cases h5
                exact hc (by simp [h3, h4, h6])
          cases hr : validateOp cfg d with
          | ignored => simp only [Bool.false_eq_true, hR, and_false]
          | raised f =>
            cases f with
            | noArgs => exact absurd hr (validateOp_not_noArgs _ _)
            | withArgs =>
              simp only [refuse, hi, hR, and_false]
              simp
          | request d' =>
            simp only [hR, and_false, iff_false]
            split <;> simp
          | node m => simp only [Bool.false_eq_true, hR, and_false]
          | batch l =>
            simp only [hR, and_false, iff_false]
            split
            · simp [refuse, hi]
            · simp
    | none => simp [handleClient, validateClient, hb, refuse]
    | bool _ => simp [handleClient, validateClient, hb, refuse]
    | int _ => simp [handleClient, validateClient, hb, refuse]
    | float _ => simp [handleClient, validateClient, hb, refuse]
    | str _ => simp [handleClient, validateClient, hb, refuse]
    | bin _ => simp [handleClient, validateClient, hb, refuse]
    | list _ => simp [handleClient, validateClient, hb, refuse]

end Verif.Entry
