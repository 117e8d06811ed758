import Verif.Proofs.SchemaFields
import Verif.Proofs.Count
/-! Lemmas about the schemas: objects and messages. -/
namespace Verif.Schema

open Verif (Val ascii)
open Verif.Entry (Bytes Items lookup get truthy OP withoutOp lookup_some_iff lookup_none_iff)
open Verif.Entry.Spec (Field NoField)
open Verif.Spec (WF)
open Verif.Schema.Spec (Need HasForm must may)

attribute [local irreducible] ascii

/-! ### Objects -/

/-- The schema has the lines of the table. -/
inductive Lines : Schema → List Need → Prop
  | nil : Lines [] []
  | cons (l : Line) (n : Need) (s : Schema) (t : List Need) : l.name = ascii n.name → l.optional = !n.must →
      Exact l.field n.form → Lines s t → Lines (l :: s) (n :: t)

theorem Lines.req {name : String} {f : V} {P : Val → Prop} {s : Schema} {t : List Need} (h : Exact f P)
    (hs : Lines s t) : Lines (req name f :: s) (must name P :: t) := .cons _ _ _ _ rfl rfl h hs

theorem Lines.opt {name : String} {f : V} {P : Val → Prop} {s : Schema} {t : List Need} (h : Exact f P)
    (hs : Lines s t) : Lines (opt name f :: s) (may name P :: t) := .cons _ _ _ _ rfl rfl h hs

theorem wf_dict {d : Items} (h : WF (.dict d)) : (d.map Prod.fst).Nodup ∧ ∀ e ∈ d, WF e.2 := by
  cases h; exact ⟨by assumption, by assumption⟩

theorem field_mem {d : Items} {k : Bytes} {v : Val} (h : Field d k v) : (k, v) ∈ d := by
  obtain ⟨a, b, rfl, _⟩ := h; simp

theorem mem_field {d : Items} (hd : (d.map Prod.fst).Nodup) {k : Bytes} {v : Val} (h : (k, v) ∈ d) :
    Field d k v := by
  obtain ⟨a, b, rfl⟩ := List.append_of_mem h
  refine ⟨a, b, rfl, fun e he hk => ?_⟩
  rw [List.map_append, List.nodup_append] at hd
  exact hd.2.2 e.1 (List.mem_map_of_mem he) k (by simp) hk

theorem field_unique {d : Items} {k : Bytes} {v w : Val} (h : Field d k v) (h2 : Field d k w) : v = w := by
  rw [← lookup_some_iff] at h h2
  rw [h] at h2
  exact Option.some.inj h2

theorem get_field {d : Items} {k : Bytes} {v : Val} (h : Field d k v) : get d k = v := by
  show (lookup d k).getD .none = v
  rw [(lookup_some_iff _ _ _).2 h]; rfl

theorem noField_get {d : Items} {k : Bytes} (h : NoField d k) : get d k = .none := by
  show (lookup d k).getD .none = .none
  rw [(lookup_none_iff _ _).2 h]; rfl

theorem field_or (d : Items) (k : Bytes) : (∃ v, Field d k v) ∨ NoField d k := by
  cases h : lookup d k with
  | none => exact .inr ((lookup_none_iff _ _).1 h)
  | some v => exact .inl ⟨v, (lookup_some_iff _ _ _).1 h⟩

theorem field_not_noField {d : Items} {k : Bytes} {v : Val} (h : Field d k v) : ¬ NoField d k :=
  fun h2 => h2 _ (field_mem h) rfl

theorem raiseIf_ok {r : Except Exc Bool} : raiseIf r = .ok () ↔ r = .ok true := by
  cases r with
  | error x => simp [raiseIf]
  | ok b => cases b <;> simp [raiseIf]

theorem checkItem_ok {s : Schema} (hs : (s.map Line.name).Nodup) (e : Bytes × Val) :
    checkItem s e = .ok () ↔ ∀ l ∈ s, l.name = e.1 → l.field e.2 = .ok true := by
  unfold checkItem
  induction s with
  | nil => simp
  | cons l s ih =>
    rw [List.map_cons, List.nodup_cons] at hs
    by_cases hl : l.name = e.1
    · simp only [List.find?_cons_of_pos, hl, beq_self_eq_true]
      rw [raiseIf_ok]
      constructor
      · intro h m hm hn
        rcases List.mem_cons.1 hm with rfl | hm
        · exact h
        · exact absurd (List.mem_map_of_mem (f := Line.name) hm) (by rw [hn, ← hl]; exact hs.1)
      · exact fun h => h l (by simp) hl
    · have : (l.name == e.1) = false := by simpa using hl
      rw [List.find?_cons_of_neg (by simp [this])]
      refine (ih hs.2).trans ?_
      simp [hl]

theorem validate_iff {s : Schema} {t : List Need} (hs : (s.map Line.name).Nodup) (h : Lines s t) {d : Items}
    (hd : WF (.dict d)) : validate s d = .ok () ↔ HasForm t d := by
  obtain ⟨hn, hw⟩ := wf_dict hd
  have key : (∀ l ∈ s, (l.optional = false → ∃ v, Field d l.name v) ∧
      ∀ v, Field d l.name v → l.field v = .ok true) ↔ HasForm t d := by
    clear hs
    unfold HasForm
    induction h with
    | nil => simp
    | cons l n s t h1 h2 h3 _ ih =>
      rw [List.forall_mem_cons, List.forall_mem_cons, ih, h1, h2]
      refine and_congr_left' ?_
      refine and_congr (by simp) ?_
      exact ⟨fun h v hv => (h3 v (hw _ (field_mem hv))).1 (h v hv),
        fun h v hv => (h3 v (hw _ (field_mem hv))).2 (h v hv)⟩
  rw [← key]
  unfold validate
  by_cases hm : s.any (fun l => !l.optional && (lookup d l.name).isNone) = true
  · rw [if_pos hm]
    refine ⟨nofun, fun h2 => ?_⟩
    obtain ⟨l, hl, h3⟩ := List.any_eq_true.1 hm
    simp only [Bool.and_eq_true, Bool.not_eq_true', Option.isNone_iff_eq_none] at h3
    obtain ⟨v, hv⟩ := (h2 l hl).1 h3.1
    rw [(lookup_some_iff _ _ _).2 hv] at h3
    exact nomatch h3.2
  · rw [if_neg hm, forEach_ok]
    constructor
    · intro h2 l hl
      refine ⟨fun ho => ?_, fun v hv => ?_⟩
      · rcases field_or d l.name with h3 | h3
        · exact h3
        · refine absurd (List.any_eq_true.2 ⟨l, hl, ?_⟩) hm
          simp [ho, (lookup_none_iff _ _).2 h3]
      · exact (checkItem_ok hs _).1 (h2 _ (field_mem hv)) l hl rfl
    · intro h2 e he
      refine (checkItem_ok hs _).2 fun l hl hk => (h2 l hl).2 _ ?_
      rw [hk]
      exact mem_field hn he

theorem exact_record {s : Schema} {t : List Need} (hs : (s.map Line.name).Nodup) (h : Lines s t)
    {extra : Items → Except Exc Unit} {E : Items → Prop}
    (he : ∀ d, WF (.dict d) → HasForm t d → (extra d = .ok () ↔ E d)) :
    Exact (recordF s extra) (fun v => ∃ d, v = .dict d ∧ HasForm t d ∧ E d) := by
  intro v hv
  cases v with
  | dict d =>
    have hval := validate_iff hs h hv
    simp only [recordF, Val.dict.injEq, exists_eq_left']
    cases h1 : validate s d with
    | error e =>
      rw [h1] at hval
      have hno : ¬ HasForm t d := fun h2 => nomatch hval.2 h2
      simp [hno]
    | ok u =>
      have ht : HasForm t d := hval.1 (by rw [h1])
      have := he d hv ht
      cases h2 : extra d with
      | error e => rw [h2] at this; simp only [reduceCtorEq, false_iff] at this; simp [this]
      | ok u => rw [h2] at this; simp [ht, this.1 (by cases u; rfl)]
  | _ => simp [recordF]

/-! ### Batch ids, votes, multi-signatures -/

theorem bidCheck_ok {l : List Val} (h : ∀ v ∈ l, WF v) : bidCheck l = .ok true ↔
    ∃ a b c e, l = [a, b, c, e] ∧ Spec.Natural a ∧ Spec.Natural b ∧ Spec.Natural c ∧ Spec.NonEmpty e := by
  unfold bidCheck
  split
  · rename_i a b c e
    rw [both_ok, both_ok, both_ok, exact_nonNeg _ (h a (by simp)), exact_nonNeg _ (h b (by simp)),
      exact_nonNeg _ (h c (by simp)), exact_nonEmpty _ (h e (by simp))]
    constructor
    · exact fun ⟨h1, h2, h3, h4⟩ => ⟨a, b, c, e, rfl, h1, h2, h3, h4⟩
    · rintro ⟨_, _, _, _, h0, h1, h2, h3, h4⟩
      simp only [List.cons.injEq, and_true] at h0
      obtain ⟨rfl, rfl, rfl, rfl⟩ := h0
      exact ⟨h1, h2, h3, h4⟩
  · rename_i hne
    refine ⟨nofun, ?_⟩
    rintro ⟨a, b, c, e, rfl, _⟩
    exact absurd rfl (hne a b c e)

theorem bid_nodup : BID.Nodup := by decide +kernel

theorem bidItems_some (d : Items) (l : List Val) : bidItems d = some l ↔
    ∃ a b c e, l = [a, b, c, e] ∧ Field d (ascii "view_no") a ∧ Field d (ascii "pp_view_no") b ∧
      Field d (ascii "pp_seq_no") c ∧ Field d (ascii "pp_digest") e := by
  simp only [← lookup_some_iff]
  unfold bidItems BID
  simp only [List.mapM_cons, List.mapM_nil, Option.bind_eq_bind, Option.bind_eq_some_iff, Option.pure_def, Option.some.injEq]
  constructor
  · rintro ⟨a, ha, l1, ⟨b, hb, l2, ⟨c, hc, l3, ⟨e, he, l4, h4, rfl⟩, rfl⟩, rfl⟩, rfl⟩
    exact ⟨a, b, c, e, by rw [← h4], ha, hb, hc, he⟩
  · rintro ⟨a, b, c, e, rfl, ha, hb, hc, he⟩
    exact ⟨a, ha, _, ⟨b, hb, _, ⟨c, hc, _, ⟨e, he, _, rfl, rfl⟩, rfl⟩, rfl⟩, rfl⟩

theorem exact_batchId : Exact batchIdF Spec.BatchId := by
  intro v hv
  cases v with
  | list l =>
    have hl : ∀ x ∈ l, WF x := by cases hv; assumption
    rw [batchIdF, bidCheck_ok hl]
    constructor
    · rintro ⟨a, b, c, e, h, h1, h2, h3, h4⟩
      exact ⟨a, b, c, e, h1, h2, h3, h4, .inl (by rw [h])⟩
    · rintro ⟨a, b, c, e, h1, h2, h3, h4, h | ⟨d, h, _⟩⟩
      · exact ⟨a, b, c, e, Val.list.inj h, h1, h2, h3, h4⟩
      · cases h
  | dict d =>
    obtain ⟨hn, hw⟩ := wf_dict hv
    rw [batchIdF]
    constructor
    · intro h
      by_cases h4 : d.length = 4
      · rw [if_neg (by simp [h4])] at h
        split at h
        · cases h
        · cases hb : bidItems d with
          | none => rw [hb] at h; cases h
          | some l =>
            rw [hb] at h
            obtain ⟨a, b, c, e, rfl, f1, f2, f3, f4⟩ := (bidItems_some _ _).1 hb
            have hl : ∀ x ∈ [a, b, c, e], WF x := by
              intro x hx
              simp only [List.mem_cons, List.not_mem_nil, or_false] at hx
              rcases hx with rfl | rfl | rfl | rfl
              · exact hw _ (field_mem f1)
              · exact hw _ (field_mem f2)
              · exact hw _ (field_mem f3)
              · exact hw _ (field_mem f4)
            obtain ⟨a', b', c', e', h0, h1, h2, h3, h5⟩ := (bidCheck_ok hl).1 h
            simp only [List.cons.injEq, and_true] at h0
            obtain ⟨rfl, rfl, rfl, rfl⟩ := h0
            exact ⟨a, b, c, e, h1, h2, h3, h5, .inr ⟨d, rfl, h4, f1, f2, f3, f4⟩⟩
      · rw [if_pos (by simp [h4])] at h
        cases h
    · rintro ⟨a, b, c, e, h1, h2, h3, h5, h | ⟨d', h, h4, f1, f2, f3, f4⟩⟩
      · cases h
      · cases h
        have hkeys : ∀ x ∈ d.map Prod.fst, x ∈ BID := by
          intro x hx
          refine Classical.byContradiction fun hno => ?_
          have := length_le_of_subset (A := x :: BID) (B := d.map Prod.fst)
            (List.nodup_cons.2 ⟨hno, bid_nodup⟩) (by
              intro y hy
              rcases List.mem_cons.1 hy with rfl | hy
              · exact hx
              · simp only [BID, List.mem_cons, List.not_mem_nil, or_false] at hy
                rcases hy with rfl | rfl | rfl | rfl
                · exact List.mem_map_of_mem (field_mem f1)
                · exact List.mem_map_of_mem (field_mem f2)
                · exact List.mem_map_of_mem (field_mem f3)
                · exact List.mem_map_of_mem (field_mem f4))
          rw [List.length_cons, List.length_map, h4] at this
          have : BID.length = 4 := rfl
          omega
        rw [if_neg (by simp [h4]), if_neg (by
          simp only [List.any_eq_true, Bool.not_eq_true', List.contains_eq_mem, decide_eq_false_iff_not]
          rintro ⟨e, he, hk⟩
          exact hk (hkeys _ (List.mem_map_of_mem he)))]
        rw [(bidItems_some _ _).2 ⟨a, b, c, e, rfl, f1, f2, f3, f4⟩]
        refine (bidCheck_ok ?_).2 ⟨a, b, c, e, rfl, h1, h2, h3, h5⟩
        intro x hx
        simp only [List.mem_cons, List.not_mem_nil, or_false] at hx
        rcases hx with rfl | rfl | rfl | rfl
        · exact hw _ (field_mem f1)
        · exact hw _ (field_mem f2)
        · exact hw _ (field_mem f3)
        · exact hw _ (field_mem f4)
  | _ => simp [batchIdF, Spec.BatchId]

theorem exact_viewChange : Exact viewChangeF Spec.Vote := by
  intro v hv
  unfold viewChangeF
  split
  · rename_i a b
    have hl : ∀ x ∈ [a, b], WF x := by cases hv; assumption
    rw [both_ok, exact_nonEmpty _ (hl a (by simp)), exact_limited _ _ (hl b (by simp))]
    simp only [Spec.Vote, Val.list.injEq, List.cons.injEq, and_true]
    exact ⟨fun h => ⟨a, b, ⟨rfl, rfl⟩, h⟩, fun ⟨x, y, ⟨h1, h2⟩, h⟩ => by rw [h1, h2]; exact h⟩
  · rename_i hne
    refine ⟨nofun, ?_⟩
    rintro ⟨n, d, rfl, _⟩
    exact absurd rfl (hne n d)

theorem exact_ledgerInfo (env : Env) : Exact (ledgerInfoF env) (Spec.LedgerInfo env) := by
  intro v hv
  unfold ledgerInfoF
  split
  · rename_i a b c
    have hl : ∀ x ∈ [a, b, c], WF x := by cases hv; assumption
    rw [both_ok, both_ok, exact_ledgerId _ _ (hl a (by simp)), exact_nonNeg _ (hl b (by simp)),
      exact_merkle _ (hl c (by simp))]
    simp only [Spec.LedgerInfo, Val.list.injEq, List.cons.injEq, and_true]
    exact ⟨fun h => ⟨a, b, c, ⟨rfl, rfl, rfl⟩, h⟩, fun ⟨x, y, z, ⟨h1, h2, h3⟩, h⟩ => by rw [h1, h2, h3]; exact h⟩
  · rename_i hne
    refine ⟨nofun, ?_⟩
    rintro ⟨a, b, c, rfl, _⟩
    exact absurd rfl (hne a b c)

theorem whole_intVal {P : Int → Prop} {v : Val} (h : Spec.Whole P v) : (intVal v).isSome = true := by
  rcases h with ⟨n, rfl, _⟩ | ⟨rfl, _⟩ | ⟨rfl, _⟩ <;> rfl

theorem text_isStr {P : Bytes → Prop} {v : Val} (h : Spec.Text P v) : isStr v = true := by
  obtain ⟨s, rfl, _⟩ := h; rfl

theorem exact_multiSigValue (env : Env) : Exact (multiSigValueF env) (Spec.MultiSigValue env) := by
  intro v hv
  unfold multiSigValueF
  split
  · rename_i a b c e f
    have hl : ∀ x ∈ [a, b, c, e, f], WF x := by cases hv; assumption
    have hr : both (ledgerIdF env a) (both (merkleF b) (both (merkleF c) (both (merkleF e) (timestampF f)))) =
        .ok true ↔ Spec.LedgerId env a ∧ Spec.Root b ∧ Spec.Root c ∧ Spec.Root e ∧ Spec.Time f := by
      rw [both_ok, both_ok, both_ok, both_ok, exact_ledgerId _ _ (hl a (by simp)), exact_merkle _ (hl b (by simp)),
        exact_merkle _ (hl c (by simp)), exact_merkle _ (hl e (by simp)), exact_timestamp _ (hl f (by simp))]
    have hsp : Spec.MultiSigValue env (.list [a, b, c, e, f]) ↔
        Spec.LedgerId env a ∧ Spec.Root b ∧ Spec.Root c ∧ Spec.Root e ∧ Spec.Time f := by
      simp only [Spec.MultiSigValue, Val.list.injEq, List.cons.injEq, and_true]
      constructor
      · rintro ⟨x1, x2, x3, x4, x5, ⟨rfl, rfl, rfl, rfl, rfl⟩, h⟩
        exact h
      · exact fun h => ⟨a, b, c, e, f, ⟨rfl, rfl, rfl, rfl, rfl⟩, h⟩
    rw [hsp]
    split
    · exact hr
    · rename_i hno
      refine ⟨nofun, fun ⟨h1, h2, h3, h4, h5⟩ => absurd ?_ hno⟩
      rw [whole_intVal h1, text_isStr h2, text_isStr h3, text_isStr h4, whole_intVal h5]; rfl
  · rename_i hne
    refine ⟨nofun, ?_⟩
    rintro ⟨a, b, c, e, f, h, _⟩
    exact absurd (Val.list.inj h) (hne a b c e f)
  · rename_i h1 h2
    refine ⟨nofun, ?_⟩
    rintro ⟨a, b, c, e, f, rfl, _⟩
    exact absurd rfl (h2 _)

theorem exact_multiSig (env : Env) : Exact (multiSigF env) (Spec.MultiSig env) := by
  intro v hv
  unfold multiSigF
  split
  · rename_i a b c
    have hl : ∀ x ∈ [a, b, c], WF x := by cases hv; assumption
    rw [both_ok, both_ok, both_ok, exact_multiSigValue _ _ (hl c (by simp)), exact_limited _ _ (hl a (by simp)),
      exact_iter exact_nonEmpty _ (hl b (by simp))]
    constructor
    · rintro ⟨h1, h2, ⟨l, rfl, h3⟩, h4⟩
      refine ⟨a, l, c, rfl, h2, ?_, h3, h1⟩
      rintro rfl
      simp [someItem] at h4
    · rintro ⟨x, l, z, h, h2, h5, h3, h1⟩
      simp only [Val.list.injEq, List.cons.injEq, and_true] at h
      obtain ⟨rfl, rfl, rfl⟩ := h
      refine ⟨h1, h2, ⟨l, rfl, h3⟩, ?_⟩
      cases l with
      | nil => exact absurd rfl h5
      | cons x l => rfl
  · rename_i hne
    refine ⟨nofun, ?_⟩
    rintro ⟨a, l, c, h, _⟩
    exact absurd (Val.list.inj h) (hne a _ c)
  · rename_i h1 h2
    refine ⟨nofun, ?_⟩
    rintro ⟨a, l, c, rfl, _⟩
    exact absurd rfl (h2 _)

end Verif.Schema
