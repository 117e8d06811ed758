import Verif.Model.ReqIdrToTxn
/-!
# C55, C64: requests already executed are recognised and not executed again
-/
namespace Verif.Props
open Verif.ReqDb

/-! ## Text of numbers -/

theorem digitVal_digit (n : Nat) : digitVal (digit n) = some (n % 10) := by
  have : n % 10 < 10 := Nat.mod_lt _ (by omega)
  unfold digit
  generalize n % 10 = m at *
  have : m = 0 ∨ m = 1 ∨ m = 2 ∨ m = 3 ∨ m = 4 ∨ m = 5 ∨ m = 6 ∨ m = 7 ∨ m = 8 ∨ m = 9 := by omega
  rcases this with h | h | h | h | h | h | h | h | h | h <;> subst h <;> decide

theorem digit_ne (n : Nat) : digit n ≠ '~' := by
  have : n % 10 < 10 := Nat.mod_lt _ (by omega)
  unfold digit
  generalize n % 10 = m at *
  have : m = 0 ∨ m = 1 ∨ m = 2 ∨ m = 3 ∨ m = 4 ∨ m = 5 ∨ m = 6 ∨ m = 7 ∨ m = 8 ∨ m = 9 := by omega
  rcases this with h | h | h | h | h | h | h | h | h | h <;> subst h <;> decide

theorem decAux_parse (fuel n : Nat) (h : n < fuel) :
    (decAux fuel n).foldl (fun o c => o.bind (fun n => (digitVal c).map (fun d => 10 * n + d))) (some 0) =
      some n := by
  induction fuel generalizing n with
  | zero => omega
  | succ fuel ih =>
    unfold decAux
    split
    · next h1 => simp [digitVal_digit]; omega
    · next h1 =>
      rw [List.foldl_append, ih (n / 10) (by omega)]
      simp [digitVal_digit]
      omega

theorem decAux_ne_nil (fuel n : Nat) (h : 0 < fuel) : decAux fuel n ≠ [] := by
  cases fuel with
  | zero => omega
  | succ fuel => unfold decAux; split <;> simp

theorem parse_dec (n : Nat) : parse (dec n) = some n := by
  unfold parse dec
  rw [if_neg (decAux_ne_nil _ _ (by omega)), decAux_parse _ _ (by omega)]

theorem decAux_no_delim (fuel n : Nat) : '~' ∉ decAux fuel n := by
  induction fuel generalizing n with
  | zero => simp [decAux]
  | succ fuel ih =>
    unfold decAux
    split
    · simp only [List.mem_singleton]; exact fun e => digit_ne n e.symm
    · simp only [List.mem_append, List.mem_singleton, not_or]
      exact ⟨ih _, fun e => digit_ne n e.symm⟩

theorem split_no_delim (s : Str) (h : '~' ∉ s) : split '~' s = [s] := by
  induction s with
  | nil => rfl
  | cons c s ih =>
    simp only [List.mem_cons, not_or] at h
    rw [split, if_neg (fun e => h.1 e.symm), ih h.2]

theorem split_append (a b : Str) (h : '~' ∉ a) : split '~' (a ++ '~' :: b) = a :: split '~' b := by
  induction a with
  | nil => simp [split]
  | cons c s ih =>
    simp only [List.mem_cons, not_or] at h
    rw [List.cons_append, split, if_neg (fun e => h.1 e.symm), ih h.2]

theorem parseValue_createValue (l n : Nat) : parseValue (createValue l n) = some (l, n) := by
  unfold parseValue createValue
  rw [split_append (dec l) (dec n) (decAux_no_delim _ _), split_no_delim (dec n) (decAux_no_delim _ _)]
  simp [parse_dec]

/-! ## The store -/

theorem get?_setBatch (db : Db) (l : List (Str × Str)) (k : Str) :
    (setBatch db l).get? k =
      match l.reverse.find? (fun e => e.1 = k) with
      | some e => some e.2
      | none => db.get? k := by
  induction l generalizing db with
  | nil => rfl
  | cons e l ih =>
    simp only [setBatch, List.foldl_cons] at ih ⊢
    rw [ih, List.reverse_cons, List.find?_append]
    cases h : l.reverse.find? (fun e => e.1 = k) with
    | some x => simp
    | none =>
      simp only [Option.none_or, List.find?_singleton, Dict.get?_set]
      by_cases he : e.1 = k <;> simp [he]

/-- A hexadecimal text, as SHA-256 digests are given: it holds no colon. -/
def Hex (s : Str) : Prop := ':' ∉ s

theorem not_fullKey {s d : Str} (h : Hex s) : s ≠ fullKey d := by
  intro e; apply h; rw [e]; simp [fullKey]

theorem fullKey_inj {a b : Str} (h : fullKey a = fullKey b) : a = b := by
  simpa [fullKey] using h

/-- The database after recording batches one after the other. -/
def recorded (batches : List (List Entry)) : Db := batches.foldl addBatch []

theorem find?_payloadPairs (batch : List Entry) (d : Str) :
    ((payloadPairs batch).reverse.find? (fun e => e.1 = d)).map Prod.snd =
      (batch.reverse.find? (fun e => e.payload = d)).map (fun e => createValue e.ledgerId e.seqNo) := by
  unfold payloadPairs
  rw [← List.map_reverse, List.find?_map]
  simp only [Option.map_map]
  rfl

theorem find?_fullPairs (batch : List Entry) (d : Str) :
    ((fullPairs batch).reverse.find? (fun e => e.1 = fullKey d)).map Prod.snd =
      (batch.reverse.find? (fun e => e.digest = some d)).map Entry.payload := by
  unfold fullPairs
  rw [← List.filterMap_reverse]
  induction batch.reverse with
  | nil => rfl
  | cons e l ih =>
    simp only [List.filterMap_cons, List.find?_cons]
    cases hd : e.digest with
    | none => simpa using ih
    | some x =>
      simp only [Option.map_some, List.find?_cons]
      by_cases hx : x = d
      · subst hx; simp
      · have : fullKey x ≠ fullKey d := fun e => hx (fullKey_inj e)
        simp only [this, hx, decide_false, Option.some.injEq]
        exact ih

/-- C55. After any batches were recorded, a payload digest leads to the ledger and
sequence number it was last recorded with, and a full digest to the payload digest
it was last recorded with; digests never recorded lead to nothing. -/
theorem C55_lookup (batches : List (List Entry)) (hx : ∀ b ∈ batches, ∀ e ∈ b, Hex e.payload) (d : Str)
    (hd : Hex d) :
    getByPayload (recorded batches) d =
      (batches.flatten.reverse.find? (fun e => e.payload = d)).map (fun e => (e.ledgerId, e.seqNo)) ∧
    getByFull (recorded batches) d =
      (batches.flatten.reverse.find? (fun e => e.digest = some d)).map Entry.payload := by
  have key : ∀ (batches : List (List Entry)) (db : Db), (∀ b ∈ batches, ∀ e ∈ b, Hex e.payload) →
      getByPayload (batches.foldl addBatch db) d =
        ((batches.flatten.reverse.find? (fun e => e.payload = d)).map (fun e => (e.ledgerId, e.seqNo))).or
          (getByPayload db d) ∧
      getByFull (batches.foldl addBatch db) d =
        ((batches.flatten.reverse.find? (fun e => e.digest = some d)).map Entry.payload).or
          (getByFull db d) := by
    intro batches
    induction batches with
    | nil => intro db _; simp
    | cons b bs ih =>
      intro db hx
      have hb : ∀ e ∈ b, Hex e.payload := hx b List.mem_cons_self
      obtain ⟨h1, h2⟩ := ih (addBatch db b) (fun b' hb' => hx b' (List.mem_cons_of_mem _ hb'))
      have h3 : getByPayload (addBatch db b) d =
          ((b.reverse.find? (fun e => e.payload = d)).map (fun e => (e.ledgerId, e.seqNo))).or
            (getByPayload db d) := by
        unfold getByPayload addBatch
        rw [get?_setBatch]
        have hn : (fullPairs b).reverse.find? (fun e => e.1 = d) = none := by
          rw [List.find?_eq_none]
          intro e he
          simp only [decide_eq_true_eq]
          intro e1
          simp only [List.mem_reverse, fullPairs, List.mem_filterMap, Option.map_eq_some_iff] at he
          obtain ⟨x, -, y, -, h⟩ := he
          rw [← h] at e1
          exact not_fullKey hd e1.symm
        rw [hn, get?_setBatch]
        have hp := find?_payloadPairs b d
        cases hf : (payloadPairs b).reverse.find? (fun e => e.1 = d) with
        | none =>
          rw [hf] at hp
          have : b.reverse.find? (fun e => e.payload = d) = none := by
            cases h : b.reverse.find? (fun e => e.payload = d) with
            | none => rfl
            | some x => rw [h] at hp; simp at hp
          rw [this]; rfl
        | some x =>
          rw [hf] at hp
          cases h : b.reverse.find? (fun e => e.payload = d) with
          | none => rw [h] at hp; simp at hp
          | some y =>
            rw [h] at hp
            simp only [Option.map_some, Option.some.injEq] at hp
            simp [hp, parseValue_createValue]
      have h4 : getByFull (addBatch db b) d =
          ((b.reverse.find? (fun e => e.digest = some d)).map Entry.payload).or (getByFull db d) := by
        unfold getByFull addBatch
        rw [get?_setBatch]
        have hp := find?_fullPairs b d
        cases hf : (fullPairs b).reverse.find? (fun e => e.1 = fullKey d) with
        | some x =>
          rw [hf] at hp
          rw [← hp]; rfl
        | none =>
          rw [hf] at hp
          rw [← hp, get?_setBatch]
          have hn : (payloadPairs b).reverse.find? (fun e => e.1 = fullKey d) = none := by
            rw [List.find?_eq_none]
            intro e he
            simp only [decide_eq_true_eq]
            intro e1
            simp only [List.mem_reverse, payloadPairs, List.mem_map] at he
            obtain ⟨x, hx', h⟩ := he
            rw [← h] at e1
            exact not_fullKey (hb x hx') e1
          rw [hn]; rfl
      simp only [List.foldl_cons, List.flatten_cons, List.reverse_append, List.find?_append]
      rw [h1, h2, h3, h4]
      constructor
      · cases (bs.flatten.reverse.find? (fun e => decide (e.payload = d))) <;> simp
      · cases (bs.flatten.reverse.find? (fun e => decide (e.digest = some d))) <;> simp
  obtain ⟨h1, h2⟩ := key batches [] hx
  constructor
  · unfold recorded
    rw [h1]; simp [getByPayload]
  · unfold recorded
    rw [h2]; simp [getByFull]

-- two batches; the second records one payload again under another number
example : getByPayload (recorded [[⟨"ab".toList, 1, 12, some "cd".toList⟩], [⟨"ab".toList, 2, 305, none⟩]])
    "ab".toList = some (2, 305) := by decide
example : getByFull (recorded [[⟨"ab".toList, 1, 12, some "cd".toList⟩], [⟨"ab".toList, 2, 305, none⟩]])
    "cd".toList = some "ab".toList := by decide

/-! ## A request is executed at most once -/

theorem flatten_sublist {α : Type} {a b : List (List α)} (h : a.Sublist b) : a.flatten.Sublist b.flatten := by
  induction h with
  | slnil => exact List.Sublist.refl _
  | cons x _ ih => exact ih.trans (List.sublist_append_right _ _)
  | cons_cons x _ ih => exact (List.Sublist.refl x).append ih

/-- Every committed transaction is recorded and payloads occur once. -/
structure Once (s : Node) : Prop where
  nodup : ((s.committed ++ s.uncommitted.flatten).map Txn.payload).Nodup
  recs : ∀ t ∈ s.committed, (getByPayload s.db t.payload).isSome
  hex : ∀ t ∈ s.committed ++ s.uncommitted.flatten, Hex t.payload
  nz : ∀ t ∈ s.committed ++ s.uncommitted.flatten, t.reqId ≠ 0

theorem applyReqs_spec (s : Node) (ts cur : List Txn)
    (h : ((s.committed ++ (s.uncommitted.flatten ++ cur)).map Txn.payload).Nodup)
    (hr : ∀ t ∈ s.committed, (getByPayload s.db t.payload).isSome) :
    ((s.committed ++ (s.uncommitted.flatten ++ s.applyReqs ts cur)).map Txn.payload).Nodup ∧
      ∀ t ∈ s.applyReqs ts cur, t ∈ cur ∨ t ∈ ts := by
  induction ts generalizing cur with
  | nil => exact ⟨h, fun t ht => .inl ht⟩
  | cons t ts ih =>
    unfold Node.applyReqs
    split
    · next hf =>
      simp only [Node.fresh, Bool.and_eq_true, Option.isNone_iff_eq_none, Bool.not_eq_true',
        List.any_eq_false, decide_eq_true_eq] at hf
      have := ih (cur ++ [t]) (by
        rw [← List.append_assoc, ← List.append_assoc, List.map_append, List.nodup_append]
        refine ⟨by simpa using h, by simp, ?_⟩
        intro a ha b hb e
        simp only [List.map_cons, List.map_nil, List.mem_singleton] at hb
        subst hb; subst e
        obtain ⟨u, hu, e⟩ := List.mem_map.1 ha
        rw [List.append_assoc] at hu
        rcases List.mem_append.1 hu with hu | hu
        · have := hr u hu
          rw [e, hf.1] at this
          simp at this
        · exact hf.2 u hu e)
      refine ⟨this.1, fun u hu => ?_⟩
      rcases this.2 u hu with h1 | h1
      · rcases List.mem_append.1 h1 with h1 | h1
        · exact .inl h1
        · simp at h1; exact .inr (by simp [h1])
      · exact .inr (List.mem_cons_of_mem _ h1)
    · have := ih cur h
      refine ⟨this.1, fun u hu => ?_⟩
      rcases this.2 u hu with h1 | h1
      · exact .inl h1
      · exact .inr (List.mem_cons_of_mem _ h1)

theorem isSome_setBatch {db : Db} {l : List (Str × Str)} {k : Str} (h : (db.get? k).isSome ∨ ∃ v, (k, v) ∈ l) :
    ((setBatch db l).get? k).isSome := by
  rw [get?_setBatch]
  split
  · rfl
  · next hn =>
    rcases h with h | ⟨v, h⟩
    · exact h
    · have := List.find?_eq_none.1 hn (k, v) (by simpa using h)
      simp at this

theorem getByPayload_addBatch {db : Db} {b : List Entry} {d : Str} (hd : Hex d)
    (h : (getByPayload db d).isSome ∨ ∃ e ∈ b, e.payload = d) :
    (getByPayload (addBatch db b) d).isSome := by
  unfold getByPayload addBatch
  rw [get?_setBatch]
  have hn : (fullPairs b).reverse.find? (fun e => e.1 = d) = none := by
    rw [List.find?_eq_none]
    intro e he
    simp only [decide_eq_true_eq]
    intro e1
    simp only [List.mem_reverse, fullPairs, List.mem_filterMap, Option.map_eq_some_iff] at he
    obtain ⟨x, -, y, -, h⟩ := he
    rw [← h] at e1
    exact not_fullKey hd e1.symm
  rw [hn, get?_setBatch]
  cases hf : (payloadPairs b).reverse.find? (fun e => e.1 = d) with
  | some x =>
    have hp := find?_payloadPairs b d
    rw [hf] at hp
    cases hy : b.reverse.find? (fun e => e.payload = d) with
    | none => rw [hy] at hp; simp at hp
    | some y =>
      rw [hy] at hp
      simp only [Option.map_some, Option.some.injEq] at hp
      simp [hp, parseValue_createValue]
  | none =>
    rcases h with h | ⟨e, he, e1⟩
    · exact h
    · have := List.find?_eq_none.1 hf (e.payload, createValue e.ledgerId e.seqNo)
        (by simp only [List.mem_reverse, payloadPairs, List.mem_map]; exact ⟨e, he, rfl⟩)
      simp [e1] at this

/-- The events the theorem is about: digests are hexadecimal, no `reqId` is zero
and the node does not stop between the ledger and the store. -/
def Calm : Event → Prop
  | .apply reqs => ∀ t ∈ reqs, Hex t.payload ∧ t.reqId ≠ 0
  | .commitCrash => False
  | _ => True

theorem Once.step {s : Node} (h : Once s) (e : Event) (he : Calm e) : Once (s.step e) := by
  cases e with
  | apply reqs =>
    simp only [Node.step]
    have hs := applyReqs_spec s reqs [] (by simpa using h.nodup) h.recs
    have hf : (s.uncommitted ++ [s.applyReqs reqs []]).flatten =
        s.uncommitted.flatten ++ s.applyReqs reqs [] := by simp
    refine ⟨by simp only [hf]; exact hs.1, h.recs, ?_, ?_⟩
    all_goals
      intro t ht
      simp only [hf] at ht
      rcases List.mem_append.1 ht with ht | ht
      · first | exact h.hex t (List.mem_append_left _ ht) | exact h.nz t (List.mem_append_left _ ht)
      · rcases List.mem_append.1 ht with ht | ht
        · first | exact h.hex t (List.mem_append_right _ ht) | exact h.nz t (List.mem_append_right _ ht)
        · rcases hs.2 t ht with h1 | h1
          · simp at h1
          · first | exact (he t h1).1 | exact (he t h1).2
  | commit =>
    simp only [Node.step]
    split
    · exact h
    · next b bs hb =>
      have h1 := h.nodup
      have h3 := h.hex
      have h4 := h.nz
      rw [hb] at h1 h3 h4
      simp only [List.flatten_cons, ← List.append_assoc] at h1 h3 h4
      refine ⟨h1, fun t ht => ?_, h3, h4⟩
      have hall : b.all (fun t => t.reqId ≠ 0) = true := by
        rw [List.all_eq_true]
        intro t ht
        simpa using h4 t (by simp [ht])
      simp only [updateSeqNoMap, hall, if_true]
      apply getByPayload_addBatch (h3 t (List.mem_append_left _ ht))
      rcases List.mem_append.1 ht with ht | ht
      · exact .inl (h.recs t ht)
      · refine .inr ?_
        obtain ⟨i, hi, e⟩ := List.mem_iff_getElem.1 ht
        refine ⟨⟨t.payload, s.ledgerId, s.committed.length + 1 + i, some t.digest⟩, ?_, rfl⟩
        refine List.mem_map.2 ⟨(t, i), ?_, rfl⟩
        rw [List.mem_zipIdx_iff_getElem?]
        simp [← e, hi]
  | revert =>
    simp only [Node.step]
    have hsub : s.uncommitted.dropLast.flatten.Sublist s.uncommitted.flatten := by
      exact flatten_sublist (List.dropLast_sublist _)
    have hsub2 := (List.Sublist.refl s.committed).append hsub
    refine ⟨h.nodup.sublist (hsub2.map _), h.recs, fun t ht => h.hex t (hsub2.subset ht),
      fun t ht => h.nz t (hsub2.subset ht)⟩
  | commitCrash => exact he.elim

/-- C64, partial: the ledger of a node, its uncommitted part included, never holds
two transactions for the same request payload. Missing: histories with a `reqId` of
zero and with a stop between the write of the ledger and that of the store, where
the claim is false (`C64_zero_reqid`, `C64_crash`). -/
theorem C64_once_partial (evs : List Event) (h : ∀ e ∈ evs, Calm e) :
    (((run evs).committed ++ (run evs).uncommitted.flatten).map Txn.payload).Nodup := by
  have : ∀ (evs : List Event) (s : Node), Once s → (∀ e ∈ evs, Calm e) → Once (evs.foldl Node.step s) := by
    intro evs
    induction evs with
    | nil => intro s h _; exact h
    | cons e evs ih =>
      intro s h he
      exact ih _ (h.step e (he e List.mem_cons_self)) (fun x hx => he x (List.mem_cons_of_mem _ hx))
  exact (this evs {} ⟨by simp, by simp, by simp, by simp⟩ h).nodup

def txA : Txn := ⟨"aa".toList, "1a".toList, 7⟩
def txZ : Txn := ⟨"bb".toList, "1b".toList, 0⟩

-- an honest history: the second attempt is refused, before and after the commit
example : ((run [.apply [txA], .apply [txA], .commit, .apply [txA], .commit, .commit]).committed) = [txA] := by
  decide

/-- C64 fails: a request with `reqId` 0 keeps the whole batch from being recorded,
so every request of this batch can be executed again. -/
theorem C64_zero_reqid : ∃ evs : List Event, (∀ e ∈ evs, e ≠ .commitCrash) ∧
    (run evs).committed = [txA, txZ, txA] :=
  ⟨[.apply [txA, txZ], .commit, .apply [txA], .commit], by simp, by decide⟩

/-- C64 fails: so does a stop between the write of the ledger and that of the store. -/
theorem C64_crash : ∃ evs : List Event, (run evs).committed = [txA, txA] :=
  ⟨[.apply [txA], .commitCrash, .apply [txA], .commit], by decide⟩

end Verif.Props
