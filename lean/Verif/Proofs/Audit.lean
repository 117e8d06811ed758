import Verif.Spec.Audit
/-!
# Proofs about the audit ledger
-/
namespace Verif.Audit
open Verif.Spec.Audit

/-! ## Following a delta -/

section
variable {T α : Type}

theorem follow_append (log l : List T) (field : T → Option (Field α)) (i : Nat) (h : i < log.length) :
    follow (log ++ l) field i = follow log field i := by
  unfold follow
  rw [List.getElem?_append_left h]
  split
  · rfl
  · next n _ =>
    split
    · rw [List.getElem?_append_left (by omega)]
    · rfl
  · rfl

theorem follow_here {log : List T} {field : T → Option (Field α)} {i : Nat} {t : T} {v : α}
    (h : log[i]? = some t) (hf : field t = some (.here v)) : follow log field i = some v := by
  unfold follow
  simp [h, hf]

theorem follow_none {log : List T} {field : T → Option (Field α)} {i : Nat} {t : T}
    (h : log[i]? = some t) (hf : field t = none) : follow log field i = none := by
  unfold follow
  simp [h, hf]

/-- The field of the next transaction when the value stays. -/
def bump : Field α → Field α
  | .here _ => .back 1
  | .back n => .back (n + 1)

theorem follow_bump {log : List T} {field : T → Option (Field α)} {i : Nat} {t t' : T} {f : Field α} {v : α}
    (h : log[i]? = some t) (hf : field t = some f) (hv : follow log field i = some v)
    (h' : log[i + 1]? = some t') (hf' : field t' = some (bump f)) : follow log field (i + 1) = some v := by
  unfold follow at hv ⊢
  simp only [h, h', hf, hf', Option.bind_some] at hv ⊢
  cases f with
  | here x =>
    simp only [bump] at hv ⊢
    rw [if_pos (by omega)]
    simpa [h, hf] using hv
  | back n =>
    simp only [bump] at hv ⊢
    split at hv
    · next hn =>
      rw [if_pos (by omega), show i + 1 - (n + 1) = i - n by omega]
      exact hv
    · cases hv

theorem follow_back {log : List T} {field : T → Option (Field α)} {i n : Nat} {t : T} {v : α}
    (h : log[i]? = some t) (hf : field t = some (.back n)) (hv : follow log field i = some v) :
    1 ≤ n ∧ n ≤ i ∧ ∃ u, log[i - n]? = some u ∧ field u = some (.here v) := by
  unfold follow at hv
  simp only [h, hf, Option.bind_some] at hv
  split at hv
  · next hn =>
    refine ⟨hn.1, hn.2, ?_⟩
    split at hv
    · next w hw =>
      cases hv
      cases hu : log[i - n]? with
      | none => rw [hu] at hw; cases hw
      | some u => rw [hu] at hw; exact ⟨u, rfl, hw⟩
    · cases hv
  · cases hv

end

/-! ## The loops over the ledgers -/

theorem fold_ledgers (last : Option Txn) (b : Batch) (ws : Dict Nat LedgerNow) (t : Txn)
    (hn : ws.keys.Nodup) (lid : Nat) :
    (∀ l, lid ≠ auditId → b.frozen.has lid = false → ws.get? lid = some l →
      (ws.foldl (fillLedger last b) t).sizes.get? lid = some l.size ∧
      (ws.foldl (fillLedger last b) t).roots.get? lid = (fillRoot last b lid l).or (t.roots.get? lid) ∧
      (∀ r, fillRoot last b lid l = some (.here r) →
        (ws.foldl (fillLedger last b) t).states.get? lid = some l.state) ∧
      ((∀ r, fillRoot last b lid l ≠ some (.here r)) →
        (ws.foldl (fillLedger last b) t).states.get? lid = t.states.get? lid)) ∧
    (lid = auditId ∨ b.frozen.has lid = true ∨ ws.get? lid = none →
      (ws.foldl (fillLedger last b) t).sizes.get? lid = t.sizes.get? lid ∧
      (ws.foldl (fillLedger last b) t).roots.get? lid = t.roots.get? lid ∧
      (ws.foldl (fillLedger last b) t).states.get? lid = t.states.get? lid) := by
  induction ws generalizing t with
  | nil => constructor <;> simp
  | cons e ws ih =>
    obtain ⟨hne, hn'⟩ := List.nodup_cons.1 hn
    simp only [List.foldl_cons, Dict.get?_cons]
    have ih' := ih (fillLedger last b t e) hn'
    have hnone : Dict.get? ws e.1 = none := by
      cases h : Dict.get? ws e.1 with
      | none => rfl
      | some x => exact absurd (List.mem_map.2 ⟨_, Dict.mem_of_get? h, rfl⟩) hne
    constructor
    · intro l h3 hfr hl
      split at hl
      · next he =>
        cases hl
        subst he
        obtain ⟨a1, a2, a3⟩ := ih'.2 (Or.inr (Or.inr hnone))
        rw [a1, a2, a3]
        have hb : ¬ (e.1 = auditId ∨ b.frozen.has e.1 = true) := by simp [h3, hfr]
        unfold fillLedger
        rw [if_neg hb]
        cases hr : fillRoot last b e.1 e.2 with
        | none => simp [Dict.get?_set]
        | some f => cases f <;> simp [Dict.get?_set]
      · next he =>
        obtain ⟨a1, a2, a3, a4⟩ := ih'.1 l h3 hfr hl
        have hs : (fillLedger last b t e).roots.get? lid = t.roots.get? lid ∧
            (fillLedger last b t e).states.get? lid = t.states.get? lid := by
          unfold fillLedger
          split
          · exact ⟨rfl, rfl⟩
          · split <;> simp [Dict.get?_set, he]
        rw [← hs.1, ← hs.2]
        exact ⟨a1, a2, a3, a4⟩
    · intro h
      have hs : (fillLedger last b t e).sizes.get? lid = t.sizes.get? lid ∧
          (fillLedger last b t e).roots.get? lid = t.roots.get? lid ∧
          (fillLedger last b t e).states.get? lid = t.states.get? lid := by
        unfold fillLedger
        split
        · exact ⟨rfl, rfl, rfl⟩
        · next hb =>
          have he : e.1 ≠ lid := by
            rintro rfl
            rcases h with h | h | h
            · exact hb (Or.inl h)
            · exact hb (Or.inr h)
            · simp at h
          split <;> simp [Dict.get?_set, he]
      have h' : lid = auditId ∨ b.frozen.has lid = true ∨ Dict.get? ws lid = none := by
        rcases h with h | h | h
        · exact Or.inl h
        · exact Or.inr (Or.inl h)
        · split at h
          · cases h
          · exact Or.inr (Or.inr h)
      have := ih'.2 h'
      rw [hs.1, hs.2.1, hs.2.2] at this
      exact this

theorem fold_frozen (last : Txn) (fs : Dict Nat Nat) (t : Txn) (hn : fs.keys.Nodup) (lid : Nat) :
    (fs.get? lid = none →
      (fs.foldl (fillFrozen last) t).sizes.get? lid = t.sizes.get? lid ∧
      (fs.foldl (fillFrozen last) t).roots.get? lid = t.roots.get? lid ∧
      (fs.foldl (fillFrozen last) t).states.get? lid = t.states.get? lid) ∧
    (∀ q, fs.get? lid = some q → (∀ n, last.roots.get? lid ≠ some (.back n)) →
      (fs.foldl (fillFrozen last) t).sizes.get? lid = t.sizes.get? lid ∧
      (fs.foldl (fillFrozen last) t).roots.get? lid = t.roots.get? lid ∧
      (fs.foldl (fillFrozen last) t).states.get? lid = t.states.get? lid) ∧
    (∀ q n, fs.get? lid = some q → last.roots.get? lid = some (.back n) →
      (fs.foldl (fillFrozen last) t).sizes.get? lid = some q ∧
      (fs.foldl (fillFrozen last) t).roots.get? lid = some (.back (n + 1)) ∧
      (fs.foldl (fillFrozen last) t).states.get? lid = (last.states.get? lid).or (t.states.get? lid)) := by
  induction fs generalizing t with
  | nil => simp
  | cons e fs ih =>
    obtain ⟨hne, hn'⟩ := List.nodup_cons.1 hn
    have ih' := ih (fillFrozen last t e) hn'
    have hnone : Dict.get? fs e.1 = none := by
      cases h : Dict.get? fs e.1 with
      | none => rfl
      | some x => exact absurd (List.mem_map.2 ⟨_, Dict.mem_of_get? h, rfl⟩) hne
    have hs : (e.1 ≠ lid ∨ ∀ n, last.roots.get? lid ≠ some (.back n)) →
        (fillFrozen last t e).sizes.get? lid = t.sizes.get? lid ∧
        (fillFrozen last t e).roots.get? lid = t.roots.get? lid ∧
        (fillFrozen last t e).states.get? lid = t.states.get? lid := by
      intro h
      by_cases he : e.1 = lid
      · subst he
        have h := h.resolve_left (by simp)
        unfold fillFrozen
        split
        · next n hr => exact absurd hr (h n)
        · exact ⟨rfl, rfl, rfl⟩
      · unfold fillFrozen
        split
        · simp only [Dict.get?_set, he, if_false]
          refine ⟨trivial, trivial, ?_⟩
          split <;> simp [Dict.get?_set, he]
        · exact ⟨rfl, rfl, rfl⟩
    simp only [List.foldl_cons, Dict.get?_cons]
    refine ⟨?_, ?_, ?_⟩
    · intro h
      split at h
      · cases h
      · next he =>
        have h1 := hs (Or.inl he)
        rw [← h1.1, ← h1.2.1, ← h1.2.2]
        exact ih'.1 h
    · intro q h hb
      have h1 := hs (Or.inr hb)
      rw [← h1.1, ← h1.2.1, ← h1.2.2]
      split at h
      · next he => subst he; exact ih'.1 hnone
      · exact ih'.2.1 q h hb
    · intro q n h hb
      split at h
      · next he =>
        subst he
        cases h
        have h2 := ih'.1 hnone
        rw [h2.1, h2.2.1, h2.2.2]
        unfold fillFrozen
        simp only [hb]
        refine ⟨by simp [Dict.get?_set], by simp [Dict.get?_set], ?_⟩
        cases last.states.get? e.1 <;> simp [Dict.get?_set]
      · next he =>
        have h1 := hs (Or.inl he)
        rw [← h1.2.2]
        exact ih'.2.2 q n h hb

/-! ## What a transaction says of its batch -/

theorem sizes_nodup (log : List Txn) (b : Batch) (t : Txn) (h : createTxn log b = .ok t) :
    t.sizes.keys.Nodup := by
  have h1 : ∀ (ws : Dict Nat LedgerNow) (u : Txn), u.sizes.keys.Nodup →
      (ws.foldl (fillLedger log.getLast? b) u).sizes.keys.Nodup := by
    intro ws
    induction ws with
    | nil => intro u hu; exact hu
    | cons e ws ih =>
      intro u hu
      refine ih _ ?_
      unfold fillLedger
      split
      · exact hu
      · split <;> exact Dict.nodup_keys_set hu _ _
  have h2 : ∀ (l : Txn) (ws : Dict Nat Nat) (u : Txn), u.sizes.keys.Nodup →
      (ws.foldl (fillFrozen l) u).sizes.keys.Nodup := by
    intro l ws
    induction ws with
    | nil => intro u hu; exact hu
    | cons e ws ih =>
      intro u hu
      refine ih _ ?_
      unfold fillFrozen
      split
      · exact Dict.nodup_keys_set hu _ _
      · exact hu
  unfold createTxn at h
  simp only at h
  split at h
  · cases h
  · split at h
    · cases h
    · cases h
      show Dict.keys (match log.getLast? with | none => _ | some l => _ : Txn).sizes |>.Nodup
      split
      · exact h1 _ _ (by simp [Dict.keys])
      · exact h2 _ _ _ (h1 _ _ (by simp [Dict.keys]))


/-- The transaction at position `i` of the log says what the batch was. -/
structure Says (log : List Txn) (i : Nat) (t : Txn) (b : Batch) : Prop where
  view : t.viewNo = b.origView.getD b.viewNo
  pp : t.ppSeqNo = b.ppSeqNo
  digest : t.digest = b.digest
  prim : follow log (fun t => some t.primaries) i = some b.primaries
  reg : follow log (·.nodeReg) i = b.nodeReg
  regNone : b.nodeReg = none → t.nodeReg = none
  sizes : ∀ lid, lid ≠ auditId → b.frozen.has lid = false →
    t.sizes.get? lid = (b.ledgers.get? lid).map (·.size)
  roots : ∀ lid f, lid ≠ auditId → b.frozen.has lid = false → t.roots.get? lid = some f →
    ∃ l, b.ledgers.get? lid = some l ∧ follow log (·.roots.get? lid) i = some l.root
  states : ∀ lid l, lid ≠ auditId → b.frozen.has lid = false → b.ledgers.get? lid = some l →
    ∀ r, t.states.get? lid = some r ↔ t.roots.get? lid = some (.here l.root) ∧ r = l.state
  own : ∀ l, b.ledgerId ≠ auditId → b.frozen.has b.ledgerId = false → b.ledgers.get? b.ledgerId = some l →
    t.roots.get? b.ledgerId = some (.here l.root)
  frozen : ∀ lid f, b.frozen.has lid = true → t.roots.get? lid = some f →
    0 < i ∧ ∃ r, follow log (·.roots.get? lid) i = some r ∧ follow log (·.roots.get? lid) (i - 1) = some r
  noAudit : t.roots.get? auditId = none
  nodup : t.sizes.keys.Nodup
  grew : ∀ lid l u n, lid ≠ auditId → b.frozen.has lid = false → b.ledgers.get? lid = some l → 0 < i →
    log[i - 1]? = some u → u.sizes.get? lid = some n → n < l.size → t.roots.get? lid = some (.here l.root)
  keep : ∀ lid l u, lid ≠ auditId → b.frozen.has lid = false → b.ledgers.get? lid = some l → 0 < i →
    log[i - 1]? = some u → u.roots.get? lid ≠ none → t.roots.get? lid ≠ none
  chain : ∀ n, t.primaries = .back n → 0 < i ∧ ∃ u, log[i - 1]? = some u ∧ t.primaries = bump u.primaries

theorem Says.append {log : List Txn} {i : Nat} {t : Txn} {b : Batch} (h : Says log i t b)
    (hi : i < log.length) (l : List Txn) : Says (log ++ l) i t b := by
  have e {α} (f : Txn → Option (Field α)) : follow (log ++ l) f i = follow log f i := follow_append _ _ _ _ hi
  have e' {α} (f : Txn → Option (Field α)) : follow (log ++ l) f (i - 1) = follow log f (i - 1) :=
    follow_append _ _ _ _ (by omega)
  exact { h with
    prim := by rw [e]; exact h.prim
    reg := by rw [e]; exact h.reg
    roots := fun lid f a c d => by rw [e]; exact h.roots lid f a c d
    frozen := fun lid f a c => by rw [e, e']; exact h.frozen lid f a c
    grew := fun lid x u n h1 h2 h3 h4 h5 =>
      h.grew lid x u n h1 h2 h3 h4 (by rwa [List.getElem?_append_left (by omega)] at h5)
    keep := fun lid x u h1 h2 h3 h4 h5 =>
      h.keep lid x u h1 h2 h3 h4 (by rwa [List.getElem?_append_left (by omega)] at h5)
    chain := fun n hn => by
      obtain ⟨h1, u, h2, h3⟩ := h.chain n hn
      exact ⟨h1, u, by rw [List.getElem?_append_left (by omega)]; exact h2, h3⟩ }

theorem Says.left {log l : List Txn} {i : Nat} {t : Txn} {b : Batch} (h : Says (log ++ l) i t b)
    (hi : i < log.length) : Says log i t b := by
  have e {α} (f : Txn → Option (Field α)) : follow (log ++ l) f i = follow log f i := follow_append _ _ _ _ hi
  have e' {α} (f : Txn → Option (Field α)) : follow (log ++ l) f (i - 1) = follow log f (i - 1) :=
    follow_append _ _ _ _ (by omega)
  exact { h with
    prim := by rw [← e]; exact h.prim
    reg := by rw [← e]; exact h.reg
    roots := fun lid f a c d => by rw [← e]; exact h.roots lid f a c d
    frozen := fun lid f a c => by rw [← e, ← e']; exact h.frozen lid f a c
    grew := fun lid x u n h1 h2 h3 h4 h5 =>
      h.grew lid x u n h1 h2 h3 h4 (by rwa [List.getElem?_append_left (by omega)])
    keep := fun lid x u h1 h2 h3 h4 h5 =>
      h.keep lid x u h1 h2 h3 h4 (by rwa [List.getElem?_append_left (by omega)])
    chain := fun n hn => by
      obtain ⟨h1, u, h2, h3⟩ := h.chain n hn
      exact ⟨h1, u, by rwa [List.getElem?_append_left (by omega)] at h2, h3⟩ }

/-- A log says what the batches were. -/
structure Good (log : List Txn) (bs : List Batch) : Prop where
  len : log.length = bs.length
  says : ∀ (i : Nat) t b, log[i]? = some t → bs[i]? = some b → Says log i t b

theorem Good.nil : Good [] [] := ⟨rfl, by intro i t b h; simp at h⟩

theorem Good.take {log : List Txn} {bs : List Batch} (h : Good log bs) (k : Nat) :
    Good (log.take k) (bs.take k) := by
  refine ⟨by simp [h.len], ?_⟩
  intro i t b ht hb
  have hi : i < (log.take k).length := (List.getElem?_eq_some_iff.1 ht).1
  have hik : i < k := by simp at hi; omega
  rw [List.getElem?_take_of_lt hik] at ht hb
  have := h.says i t b ht hb
  rw [← List.take_append_drop k log] at this
  exact this.left hi

/-- The last transaction of a log and its batch. -/
theorem Good.last {log : List Txn} {bs : List Batch} (h : Good log bs) {t : Txn} (ht : log.getLast? = some t) :
    log[log.length - 1]? = some t ∧ 0 < log.length ∧
    ∃ a, bs.getLast? = some a ∧ Says log (log.length - 1) t a := by
  have hl : log ≠ [] := by rintro rfl; simp at ht
  have hp : 0 < log.length := List.length_pos_iff.2 hl
  rw [List.getLast?_eq_getElem?] at ht
  refine ⟨ht, hp, ?_⟩
  have hb : bs.length - 1 < bs.length := by have := h.len; omega
  refine ⟨bs[bs.length - 1], ?_, ?_⟩
  · rw [List.getLast?_eq_getElem?]; exact List.getElem?_eq_getElem hb
  · apply h.says _ _ _ ht
    rw [h.len]; exact List.getElem?_eq_getElem hb

/-- The rule common to primaries and node registry. -/
theorem fillDelta_spec {log : List Txn} {field : Txn → Option (Field (List String))} {t : Txn}
    {f : Field (List String)} {v cur : List String} (hl : log[log.length - 1]? = some t)
    (hf : field t = some f) (hv : follow log field (log.length - 1) = some v) :
    ∃ g, fillDelta log field f cur = .ok g ∧ ((g = bump f ∧ v = cur) ∨ g = .here cur) := by
  cases f with
  | here w =>
    have := follow_here hl hf
    rw [hv] at this; cases this
    simp only [fillDelta]
    split
    · next h => exact ⟨_, rfl, Or.inl ⟨rfl, h⟩⟩
    · exact ⟨_, rfl, Or.inr rfl⟩
  | back n =>
    obtain ⟨h1, h2, u, hu, hfu⟩ := follow_back hl hf hv
    simp only [fillDelta, behind, if_pos h2, hu, Option.bind_some, hfu]
    split
    · next h => exact ⟨_, rfl, Or.inl ⟨rfl, h⟩⟩
    · exact ⟨_, rfl, Or.inr rfl⟩

theorem follow_last {log : List Txn} {field : Txn → Option (Field (List String))} {t t' : Txn}
    {f g : Field (List String)} {v cur : List String} (hp : 0 < log.length) (hl : log[log.length - 1]? = some t)
    (hf : field t = some f) (hv : follow log field (log.length - 1) = some v)
    (hg : (g = bump f ∧ v = cur) ∨ g = .here cur) (ht : field t' = some g) :
    follow (log ++ [t']) field log.length = some cur := by
  rcases hg with ⟨rfl, rfl⟩ | rfl
  · have h1 : (log ++ [t'])[log.length - 1]? = some t := by
      rw [List.getElem?_append_left (by omega)]; exact hl
    have h2 : (log ++ [t'])[log.length - 1 + 1]? = some t' := by
      rw [show log.length - 1 + 1 = log.length by omega]; simp
    have h3 : follow (log ++ [t']) field (log.length - 1) = some v := by
      rw [follow_append _ _ _ _ (by omega)]; exact hv
    have := follow_bump h1 hf h3 h2 ht
    rwa [show log.length - 1 + 1 = log.length by omega] at this
  · exact follow_here (by simp) ht

theorem fillPrimaries_spec {log : List Txn} {bs : List Batch} (h : Good log bs) (b : Batch) :
    ∃ p, fillPrimaries log b = .ok p ∧
      (∀ n, p = .back n → ∃ u, log.getLast? = some u ∧ p = bump u.primaries) ∧
      ∀ t', t'.primaries = p → follow (log ++ [t']) (fun t => some t.primaries) log.length = some b.primaries := by
  unfold fillPrimaries
  cases hl : log.getLast? with
  | none =>
    have : log = [] := List.getLast?_eq_none_iff.1 hl
    subst this
    exact ⟨_, rfl, by simp, fun t' ht => follow_here (t := t') (by simp) (by simp [ht])⟩
  | some t =>
    obtain ⟨h1, hp, a, _, hs⟩ := h.last hl
    obtain ⟨g, hg, hgs⟩ := fillDelta_spec (cur := b.primaries) h1 rfl hs.prim
    refine ⟨g, ?_, ?_, fun t' ht => follow_last hp h1 rfl hs.prim hgs (by simp [ht])⟩
    rotate_left
    · intro n hn
      rcases hgs with h | h
      · exact ⟨t, rfl, h.1⟩
      · rw [h] at hn; cases hn
    cases hf : t.primaries with
    | here v => rw [hf] at hg; simp only [hf]; exact hg
    | back n =>
      rw [hf] at hg
      have hb := follow_back (field := fun t => some t.primaries) (n := n) h1 (by simp [hf]) hs.prim
      simp only [hf]
      rw [if_pos (by omega)]
      exact hg

theorem fillNodeReg_spec {log : List Txn} {bs : List Batch} (h : Good log bs) (b : Batch) :
    ∃ p, fillNodeReg log b = .ok p ∧ (b.nodeReg = none → p = none) ∧
      ∀ t', t'.nodeReg = p → follow (log ++ [t']) (·.nodeReg) log.length = b.nodeReg := by
  unfold fillNodeReg
  cases hc : b.nodeReg with
  | none => exact ⟨_, rfl, fun _ => rfl, fun t' ht => follow_none (t := t') (by simp) ht⟩
  | some cur =>
    simp only
    cases hl : log.getLast? with
    | none =>
      exact ⟨_, rfl, by simp, fun t' ht => follow_here (t := t') (by simp) ht⟩
    | some t =>
      obtain ⟨h1, hp, a, _, hs⟩ := h.last hl
      simp only [Option.bind_some]
      cases hf : t.nodeReg with
      | none => exact ⟨_, rfl, by simp, fun t' ht => follow_here (t := t') (by simp) ht⟩
      | some f =>
        cases ha : a.nodeReg with
        | none => rw [hs.regNone ha] at hf; cases hf
        | some v =>
          have hv := hs.reg
          rw [ha] at hv
          obtain ⟨g, hg, hgs⟩ := fillDelta_spec (cur := cur) h1 hf hv
          refine ⟨some g, ?_, by simp, fun t' ht => follow_last hp h1 hf hv hgs ht⟩
          cases f with
          | here w => simp only [hg]; rfl
          | back n =>
            have hb := follow_back h1 hf hv
            simp only
            rw [if_pos (by omega), hg]; rfl

/-- The heart: the next transaction says what its batch was. -/
theorem Good.snoc {log : List Txn} {bs : List Batch} (h : Good log bs) (b : Batch)
    (hn : b.ledgers.keys.Nodup) (hfn : b.frozen.keys.Nodup) (hf : ∀ a, bs.getLast? = some a → Follows a b) :
    ∃ t, createTxn log b = .ok t ∧ Good (log ++ [t]) (bs ++ [b]) := by
  obtain ⟨p, hp, hpc, hps⟩ := fillPrimaries_spec h b
  obtain ⟨r, hr, hrn, hrs⟩ := fillNodeReg_spec h b
  have hc : ∃ t, createTxn log b = .ok t := by
    unfold createTxn; simp only [hp, hr]; exact ⟨_, rfl⟩
  obtain ⟨t, ht⟩ := hc
  have hnd := sizes_nodup _ _ _ ht
  refine ⟨t, ht, ⟨by simp [h.len], ?_⟩⟩
  intro i u c hu hbc
  by_cases hi : i < log.length
  · rw [List.getElem?_append_left hi] at hu
    rw [List.getElem?_append_left (by rw [← h.len]; exact hi)] at hbc
    exact (h.says i u c hu hbc).append hi _
  have hil : i = log.length := by
    have := (List.getElem?_eq_some_iff.1 hu).1; simp at this; omega
  subst hil
  have hu' : u = t := by simpa using hu.symm
  have hc' : c = b := by rw [h.len] at hbc; simpa using hbc.symm
  subst hu'; subst hc'
  -- the two loops
  let t0 : Txn := ⟨c.origView.getD c.viewNo, c.ppSeqNo, [], [], [], .here [], none, c.digest⟩
  have hk : ∀ (ws : Dict Nat LedgerNow) (t : Txn), (ws.foldl (fillLedger log.getLast? c) t).viewNo = t.viewNo ∧
      (ws.foldl (fillLedger log.getLast? c) t).ppSeqNo = t.ppSeqNo ∧
      (ws.foldl (fillLedger log.getLast? c) t).digest = t.digest := by
    intro ws
    induction ws with
    | nil => intro t; exact ⟨rfl, rfl, rfl⟩
    | cons e ws ih =>
      intro t
      have := ih (fillLedger log.getLast? c t e)
      have h2 : (fillLedger log.getLast? c t e).viewNo = t.viewNo ∧
          (fillLedger log.getLast? c t e).ppSeqNo = t.ppSeqNo ∧
          (fillLedger log.getLast? c t e).digest = t.digest := by
        unfold fillLedger
        split
        · exact ⟨rfl, rfl, rfl⟩
        · split <;> exact ⟨rfl, rfl, rfl⟩
      rw [h2.1, h2.2.1, h2.2.2] at this
      exact this
  have hk2 : ∀ (l : Txn) (ws : Dict Nat Nat) (t : Txn), (ws.foldl (fillFrozen l) t).viewNo = t.viewNo ∧
      (ws.foldl (fillFrozen l) t).ppSeqNo = t.ppSeqNo ∧ (ws.foldl (fillFrozen l) t).digest = t.digest := by
    intro l ws
    induction ws with
    | nil => intro t; exact ⟨rfl, rfl, rfl⟩
    | cons e ws ih =>
      intro t
      have := ih (fillFrozen l t e)
      have h2 : (fillFrozen l t e).viewNo = t.viewNo ∧ (fillFrozen l t e).ppSeqNo = t.ppSeqNo ∧
          (fillFrozen l t e).digest = t.digest := by
        unfold fillFrozen
        split <;> exact ⟨rfl, rfl, rfl⟩
      rw [h2.1, h2.2.1, h2.2.2] at this
      exact this
  have hled := fold_ledgers log.getLast? c c.ledgers t0 hn
  have key := hk c.ledgers t0
  simp only [createTxn, hp, hr] at ht
  generalize hT1 : c.ledgers.foldl (fillLedger log.getLast? c)
    ⟨c.origView.getD c.viewNo, c.ppSeqNo, [], [], [], .here [], none, c.digest⟩ = t1 at ht
  have hT1' : c.ledgers.foldl (fillLedger log.getLast? c) t0 = t1 := hT1
  rw [hT1'] at key
  simp only [hT1'] at hled
  cases hl : log.getLast? with
  | none =>
    have hlog : log = [] := List.getLast?_eq_none_iff.1 hl
    simp only [hl] at ht hled
    cases ht
    have hfr : ∀ lid f, c.frozen.has lid = true → t1.roots.get? lid = some f → False := by
      intro lid f h1 h2
      rw [((hled lid).2 (Or.inr (Or.inl h1))).2.1] at h2
      cases h2
    have hroot : ∀ lid l, lid ≠ auditId → c.frozen.has lid = false → c.ledgers.get? lid = some l →
        t1.roots.get? lid = none ∨ t1.roots.get? lid = some (.here l.root) := by
      intro lid l h1 h2 h3
      rw [((hled lid).1 l h1 h2 h3).2.1]
      unfold fillRoot
      split
      · right; rfl
      · simp only
        split
        · right; rfl
        · left; rfl
    refine ⟨key.1, key.2.1, key.2.2, hps _ rfl, hrs _ rfl, fun h => hrn h, ?_, ?_, ?_, ?_, ?_, ?_, hnd, ?_, ?_, ?_⟩
    rotate_right
    · intro n hn
      obtain ⟨u, hu, _⟩ := hpc n hn
      rw [hl] at hu; cases hu
    · intro lid h1 h2
      cases h3 : c.ledgers.get? lid with
      | none => exact ((hled lid).2 (Or.inr (Or.inr h3))).1
      | some l => exact ((hled lid).1 l h1 h2 h3).1
    · intro lid f h1 h2 h4
      cases h3 : c.ledgers.get? lid with
      | none =>
        rw [show ({ t1 with primaries := p, nodeReg := r } : Txn).roots = t1.roots from rfl,
          ((hled lid).2 (Or.inr (Or.inr h3))).2.1] at h4
        cases h4
      | some l =>
        refine ⟨l, rfl, ?_⟩
        rcases hroot lid l h1 h2 h3 with h5 | h5
        · rw [show ({ t1 with primaries := p, nodeReg := r } : Txn).roots = t1.roots from rfl, h5] at h4
          cases h4
        · exact follow_here (t := { t1 with primaries := p, nodeReg := r }) (by simp) h5
    · intro lid l h1 h2 h3 x
      obtain ⟨_, a2, a3, a4⟩ := (hled lid).1 l h1 h2 h3
      show t1.states.get? lid = some x ↔ t1.roots.get? lid = some (.here l.root) ∧ x = l.state
      rcases hroot lid l h1 h2 h3 with h5 | h5
      · have : ∀ r, fillRoot none c lid l ≠ some (.here r) := by
          intro r hr'
          rw [a2, hr'] at h5; cases h5
        rw [a4 this, h5]; simp [t0]
      · have : fillRoot none c lid l = some (.here l.root) := by
          rw [a2] at h5
          cases h6 : fillRoot none c lid l with
          | none => rw [h6] at h5; cases h5
          | some f => rw [h6] at h5; exact h5
        rw [a3 _ this, h5]; simp [eq_comm]
    · intro l h1 h2 h3
      show t1.roots.get? c.ledgerId = _
      rw [((hled _).1 l h1 h2 h3).2.1]
      simp [fillRoot]
    · intro lid f h1 h2
      exact absurd h2 (fun h2 => hfr lid f h1 h2)
    · exact ((hled auditId).2 (Or.inl rfl)).2.1
    · intro lid l u n h1 h2 h3 h4
      rw [hlog] at h4; simp at h4
    · intro lid l u h1 h2 h3 h4
      rw [hlog] at h4; simp at h4
  | some last =>
    obtain ⟨hl1, hpos, a, ha, hs⟩ := h.last hl
    have hfol := hf a ha
    simp only [hl] at ht hled
    have hfz := fold_frozen last c.frozen t1 hfn
    have key2 := hk2 last c.frozen t1
    generalize c.frozen.foldl (fillFrozen last) t1 = t2 at ht hfz key2
    cases ht
    have hnf : ∀ lid, c.frozen.has lid = false → c.frozen.get? lid = none := by
      intro lid h1
      cases h2 : c.frozen.get? lid with
      | none => rfl
      | some q => simp [Dict.has, h2] at h1
    have hyf : ∀ lid, c.frozen.has lid = true → ∃ q, c.frozen.get? lid = some q := by
      intro lid h1
      cases h2 : c.frozen.get? lid with
      | none => simp [Dict.has, h2] at h1
      | some q => exact ⟨q, rfl⟩
    have hnfa : ∀ lid, c.frozen.has lid = false → a.frozen.has lid = false := by
      intro lid h1
      cases h2 : a.frozen.has lid with
      | false => rfl
      | true => rw [hfol.2 lid h2] at h1; cases h1
    -- the root of a ledger which is not written out
    have hroot : ∀ lid l f, lid ≠ auditId → c.frozen.has lid = false → c.ledgers.get? lid = some l →
        fillRoot (some last) c lid l = some f → f = .here l.root ∨
        ∃ g, last.roots.get? lid = some g ∧ f = bump g ∧
          follow log (·.roots.get? lid) (log.length - 1) = some l.root := by
      intro lid l f h1 h2 h3 h4
      unfold fillRoot at h4
      split at h4
      · cases h4; exact Or.inl rfl
      · simp only at h4
        have hun : unchangedRoot last lid = some f → ∃ g, last.roots.get? lid = some g ∧ f = bump g := by
          intro h5
          unfold unchangedRoot at h5
          split at h5
          · cases h5
          · next n hn' => cases h5; exact ⟨_, hn', rfl⟩
          · next v hn' => cases h5; exact ⟨_, hn', rfl⟩
        split at h4
        · next hsz =>
          split at h4
          · cases h4; exact Or.inl rfl
          · obtain ⟨g, hg, rfl⟩ := hun h4
            obtain ⟨x, hx, _⟩ := hs.roots lid g h1 (hnfa lid h2) hg
            rw [hs.sizes lid h1 (hnfa lid h2), hx] at hsz
            cases hsz
        · next n hsz =>
          split at h4
          · cases h4; exact Or.inl rfl
          · next hgt =>
            obtain ⟨g, hg, rfl⟩ := hun h4
            obtain ⟨x, hx, hxr⟩ := hs.roots lid g h1 (hnfa lid h2) hg
            rw [hs.sizes lid h1 (hnfa lid h2), hx] at hsz
            simp only [Option.map_some, Option.some.injEq] at hsz
            obtain ⟨hle, hre⟩ := hfol.1 lid x l hx h3
            refine Or.inr ⟨g, hg, rfl, ?_⟩
            rw [hxr, hre (by omega)]
    have hr2 : ∀ lid l, lid ≠ auditId → c.frozen.has lid = false → c.ledgers.get? lid = some l →
        t2.roots.get? lid = fillRoot (some last) c lid l := by
      intro lid l h1 h2 h3
      rw [((hfz lid).1 (hnf lid h2)).2.1, ((hled lid).1 l h1 h2 h3).2.1]
      cases fillRoot (some last) c lid l <;> rfl
    have hsucc : ∀ (t' : Txn), (log ++ [t'])[log.length - 1 + 1]? = some t' := by
      intro t'; rw [show log.length - 1 + 1 = log.length by omega]; simp
    have hprev : ∀ (t' : Txn), (log ++ [t'])[log.length - 1]? = some last := by
      intro t'; rw [List.getElem?_append_left (by omega)]; exact hl1
    refine ⟨key2.1.trans key.1, key2.2.1.trans key.2.1, key2.2.2.trans key.2.2, hps _ rfl, hrs _ rfl,
      fun h => hrn h, ?_, ?_, ?_, ?_, ?_, ?_, hnd, ?_, ?_, ?_⟩
    rotate_right
    · intro n hn
      obtain ⟨u, hu, h1⟩ := hpc n hn
      rw [hl] at hu; cases hu
      exact ⟨hpos, last, hprev _, h1⟩
    · intro lid h1 h2
      show t2.sizes.get? lid = _
      rw [((hfz lid).1 (hnf lid h2)).1]
      cases h3 : c.ledgers.get? lid with
      | none => exact ((hled lid).2 (Or.inr (Or.inr h3))).1
      | some l => exact ((hled lid).1 l h1 h2 h3).1
    · intro lid f h1 h2 h4
      have h4 : t2.roots.get? lid = some f := h4
      cases h3 : c.ledgers.get? lid with
      | none =>
        rw [((hfz lid).1 (hnf lid h2)).2.1, ((hled lid).2 (Or.inr (Or.inr h3))).2.1] at h4
        cases h4
      | some l =>
        refine ⟨l, rfl, ?_⟩
        have h5 := h4
        rw [hr2 lid l h1 h2 h3] at h5
        rcases hroot lid l f h1 h2 h3 h5 with rfl | ⟨g, hg, rfl, hfo⟩
        · exact follow_here (t := { t2 with primaries := p, nodeReg := r }) (by simp) h4
        · have := follow_bump (log := log ++ [{ t2 with primaries := p, nodeReg := r }])
            (field := (·.roots.get? lid)) (hprev _) hg
            (by rw [follow_append _ _ _ _ (by omega)]; exact hfo) (hsucc _) h4
          rwa [show log.length - 1 + 1 = log.length by omega] at this
    · intro lid l h1 h2 h3 x
      show t2.states.get? lid = some x ↔ t2.roots.get? lid = some (.here l.root) ∧ x = l.state
      obtain ⟨_, a2, a3, a4⟩ := (hled lid).1 l h1 h2 h3
      rw [((hfz lid).1 (hnf lid h2)).2.2, hr2 lid l h1 h2 h3]
      cases h5 : fillRoot (some last) c lid l with
      | none => rw [a4 (by simp [h5])]; simp [t0]
      | some f =>
        rcases hroot lid l f h1 h2 h3 h5 with rfl | ⟨g, hg, rfl, hfo⟩
        · rw [a3 _ h5]; simp [eq_comm]
        · have hne : ∀ r, bump g ≠ Field.here r := by intro r; cases g <;> simp [bump]
          rw [a4 (by intro r; rw [h5]; simp [hne r])]
          simp [t0, hne]
    · intro l h1 h2 h3
      show t2.roots.get? c.ledgerId = _
      rw [hr2 _ l h1 h2 h3]
      simp [fillRoot]
    · intro lid f h1 h2
      have h2 : t2.roots.get? lid = some f := h2
      refine ⟨hpos, ?_⟩
      obtain ⟨q, hq⟩ := hyf lid h1
      have ht1 : t1.roots.get? lid = none := by
        rw [((hled lid).2 (Or.inr (Or.inl h1))).2.1]; rfl
      by_cases hbk : ∃ n, last.roots.get? lid = some (.back n)
      · obtain ⟨n, hbk⟩ := hbk
        have hroots := ((hfz lid).2.2 q n hq hbk).2.1
        have hlr : ∃ v, follow log (·.roots.get? lid) (log.length - 1) = some v := by
          cases hfa : a.frozen.has lid with
          | false =>
            by_cases h3 : lid = auditId
            · rw [h3, hs.noAudit] at hbk; cases hbk
            · obtain ⟨x, _, hx⟩ := hs.roots lid _ h3 hfa hbk
              exact ⟨_, hx⟩
          | true =>
            obtain ⟨_, v, hv, _⟩ := hs.frozen lid _ hfa hbk
            exact ⟨v, hv⟩
        obtain ⟨v, hv⟩ := hlr
        refine ⟨v, ?_, ?_⟩
        · have := follow_bump (log := log ++ [{ t2 with primaries := p, nodeReg := r }])
            (field := (·.roots.get? lid)) (hprev _) hbk
            (by rw [follow_append _ _ _ _ (by omega)]; exact hv) (hsucc _) hroots
          rwa [show log.length - 1 + 1 = log.length by omega] at this
        · rw [follow_append _ _ _ _ (by omega)]; exact hv
      · have := ((hfz lid).2.1 q hq (fun n hn => hbk ⟨n, hn⟩)).2.1
        rw [this, ht1] at h2; cases h2
    · show t2.roots.get? auditId = none
      have ht1 : t1.roots.get? auditId = none := by
        rw [((hled auditId).2 (Or.inl rfl)).2.1]; rfl
      cases h1 : c.frozen.get? auditId with
      | none => rw [((hfz auditId).1 h1).2.1]; exact ht1
      | some q =>
        rw [((hfz auditId).2.1 q h1 (by simp [hs.noAudit])).2.1]; exact ht1
    · intro lid l u n h1 h2 h3 h4 h5 h6 h7
      rw [hprev] at h5; cases h5
      show t2.roots.get? lid = _
      rw [hr2 lid l h1 h2 h3]
      unfold fillRoot
      simp only [h6]
      split <;> rfl
    · intro lid l u h1 h2 h3 h4 h5 h6
      rw [hprev] at h5; cases h5
      show t2.roots.get? lid ≠ none
      rw [hr2 lid l h1 h2 h3]
      have hun : unchangedRoot last lid ≠ none := by
        unfold unchangedRoot
        split
        · next hx => exact absurd hx h6
        · simp
        · simp
      unfold fillRoot
      split
      · simp
      · simp only
        split
        · split
          · simp
          · exact hun
        · split
          · simp
          · exact hun

end Verif.Audit
