import Verif.Proofs.SchemaTables
/-! Lemmas about the schemas: building a message and reading it back. -/
namespace Verif.Schema

open Verif (Val ascii)
open Verif.Entry (Bytes Items lookup get truthy OP withoutOp lookup_some_iff lookup_none_iff truthy_false_iff)
open Verif.Entry.Spec (Field NoField)
open Verif.Spec (WF)
open Verif.Schema.Spec (Need HasForm must may)

theorem names_const (env : Env) : (Spec.messages env).map (fun x => (x.1, x.2.map Need.name)) =
    (Spec.messages ⟨fun _ => none, fun _ => false, []⟩).map (fun x => (x.1, x.2.map Need.name)) := rfl

theorem names_ok : ∀ x ∈ (Spec.messages ⟨fun _ => none, fun _ => false, []⟩).map (fun x => (x.1, x.2.map Need.name)),
    (∀ n ∈ x.2, ascii n ≠ OP ∧ ascii n ≠ ascii "self") ∧ x.1 ∈ types ∧ (x.2.map ascii).Nodup := by decide +kernel

theorem types_inj : ∀ k ∈ types, ∀ j ∈ types, ascii k = ascii j → k = j := by decide +kernel

theorem op_names : OP ≠ ascii "self" ∧ OP ≠ ascii "checkpoints" ∧ OP ≠ ascii "prepared" ∧ OP ≠ ascii "preprepared" ∧
    OP ≠ ascii "checkpoint" ∧ OP ≠ ascii "batches" := by decide +kernel

theorem checkpoint_names : ∀ n ∈ Spec.checkpointTable.map Need.name, ascii n ≠ OP ∧ ascii n ≠ ascii "self" := by
  decide +kernel

attribute [local irreducible] ascii

theorem name_ok {env : Env} {k : String} {t : List Need} (h : (k, t) ∈ Spec.messages env) :
    (∀ n ∈ t, ascii n.name ≠ OP ∧ ascii n.name ≠ ascii "self") ∧ k ∈ types := by
  have h1 := List.mem_map_of_mem (f := fun x : String × List Need => (x.1, x.2.map Need.name)) h
  rw [names_const] at h1
  have h2 := names_ok _ h1
  exact ⟨fun n hn => h2.1 _ (List.mem_map_of_mem hn), h2.2.1⟩

/-! ### Dicts -/

theorem lookup_withoutOp {d : Items} {k : Bytes} (hk : k ≠ OP) : lookup (withoutOp d) k = lookup d k := by
  unfold lookup withoutOp
  congr 1
  induction d with
  | nil => rfl
  | cons e d ih =>
    rw [List.filter_cons]
    by_cases h : e.1 = OP
    · have hne : e.1 ≠ k := fun h2 => hk (h2 ▸ h)
      rw [if_neg (by simp [h]), List.find?_cons_of_neg (by simpa using hne)]
      exact ih
    · rw [if_pos (by simp [h])]
      by_cases h2 : e.1 = k
      · rw [List.find?_cons_of_pos (by simpa using h2), List.find?_cons_of_pos (by simpa using h2)]
      · rw [List.find?_cons_of_neg (by simpa using h2), List.find?_cons_of_neg (by simpa using h2)]
        exact ih

theorem field_withoutOp {d : Items} {k : Bytes} (hk : k ≠ OP) (v : Val) :
    Field (withoutOp d) k v ↔ Field d k v := by
  rw [← lookup_some_iff, ← lookup_some_iff, lookup_withoutOp hk]

theorem hasForm_congr {t : List Need} {d e : Items}
    (h : ∀ n ∈ t, ∀ v, Field d (ascii n.name) v ↔ Field e (ascii n.name) v) : HasForm t d ↔ HasForm t e := by
  unfold HasForm
  constructor
  · intro h2 n hn
    simp only [← h n hn]
    exact h2 n hn
  · intro h2 n hn
    simp only [h n hn]
    exact h2 n hn

theorem wf_filter {d : Items} (h : WF (.dict d)) (p : Bytes × Val → Bool) : WF (.dict (d.filter p)) := by
  obtain ⟨h1, h2⟩ := wf_dict h
  exact .dict _ (List.Nodup.sublist (List.filter_sublist.map _) h1) fun e he => h2 e (List.mem_filter.1 he).1

theorem lines_names {s : Schema} {t : List Need} (h : Lines s t) :
    s.map Line.name = t.map (fun n => ascii n.name) := by
  induction h with
  | nil => rfl
  | cons l n s t h1 _ _ _ ih => rw [List.map_cons, List.map_cons, h1, ih]

theorem construct_ok {op : Bytes} {s : Schema} {t : List Need} (hs : (s.map Line.name).Nodup) (h : Lines s t)
    (ht : ∀ n ∈ t, ascii n.name ≠ OP ∧ ascii n.name ≠ ascii "self") {d : Items} (hd : WF (.dict d)) (m : Msg) :
    construct op s d = .ok m ↔ NoField d (ascii "self") ∧ HasForm t d ∧ m = ⟨op, pick s (withoutOp d)⟩ := by
  have hv := validate_iff hs h (d := withoutOp d) (wf_filter hd _)
  rw [hasForm_congr (e := d) (fun n hn v => field_withoutOp (ht n hn).1 v)] at hv
  unfold construct hasSelf
  by_cases hf : NoField d (ascii "self")
  · rw [(isSome_noField _ _).2 hf]
    simp only [Bool.false_eq_true, if_false]
    cases hval : validate s (withoutOp d) with
    | error e =>
      rw [hval] at hv
      simp only [reduceCtorEq, false_iff] at hv
      simp [hv]
    | ok u =>
      rw [hval] at hv
      have := hv.1 (by cases u; rfl)
      simp only [Except.ok.injEq, hf, this, true_and]
      exact ⟨Eq.symm, Eq.symm⟩
  · have : (lookup d (ascii "self")).isSome = true := by
      rcases field_or d (ascii "self") with h | h
      · exact (isSome_field _ _).2 h
      · exact absurd h hf
    rw [if_pos this]
    simp [hf]

theorem lookup_pick {s : Schema} {d : Items} (k : Bytes) :
    lookup (pick s d) k = if k ∈ s.map Line.name then lookup d k else none := by
  induction s with
  | nil => simp [pick, lookup]
  | cons l s ih =>
    have hp : pick (l :: s) d = (match (lookup d l.name) with | some v => [(l.name, v)] | none => []) ++ pick s d := by
      unfold pick
      rw [List.filterMap_cons]
      cases lookup d l.name <;> rfl
    rw [hp]
    by_cases hk : l.name = k
    · subst hk
      simp only [List.map_cons, List.mem_cons, true_or, if_true]
      cases h : lookup d l.name with
      | none =>
        simp only [List.nil_append]
        rw [ih, h]; simp
      | some v => simp [lookup]
    · have hk2 : k ≠ l.name := fun h => hk h.symm
      simp only [List.map_cons, List.mem_cons, hk2, false_or]
      rw [← ih]
      cases h : lookup d l.name with
      | none => rfl
      | some v => simp [lookup, hk]

theorem pick_keys (s : Schema) (d : Items) : ((pick s d).map Prod.fst).Sublist (s.map Line.name) := by
  induction s with
  | nil => simp [pick]
  | cons l s ih =>
    unfold pick at ih ⊢
    rw [List.filterMap_cons]
    cases lookup d l.name with
    | none => exact ih.cons _
    | some v => exact ih.cons_cons _

theorem wf_pick {s : Schema} (hs : (s.map Line.name).Nodup) {d : Items} (hd : WF (.dict d)) : WF (.dict (pick s d)) := by
  obtain ⟨_, h2⟩ := wf_dict hd
  refine .dict _ ((pick_keys s d).nodup hs) fun e he => ?_
  unfold pick at he
  obtain ⟨l, _, h⟩ := List.mem_filterMap.1 he
  cases hv : lookup d l.name with
  | none => rw [hv] at h; cases h
  | some v =>
    rw [hv] at h
    cases h
    exact h2 _ (field_mem ((lookup_some_iff _ _ _).1 hv))

theorem pick_self {s : Schema} (hs : (s.map Line.name).Nodup) {F : Items}
    (h : (F.map Prod.fst).Sublist (s.map Line.name)) : pick s F = F := by
  induction s generalizing F with
  | nil =>
    rw [List.map_nil, List.sublist_nil, List.map_eq_nil_iff] at h
    subst h; rfl
  | cons l s ih =>
    rw [List.map_cons, List.nodup_cons] at hs
    have hp : ∀ F : Items, pick (l :: s) F =
        (match (lookup F l.name) with | some v => [(l.name, v)] | none => []) ++ pick s F := by
      intro F
      unfold pick
      rw [List.filterMap_cons]
      cases lookup F l.name <;> rfl
    rw [hp]
    rw [List.map_cons] at h
    cases F with
    | nil =>
      simp only [lookup, List.find?_nil, Option.map_none, List.nil_append]
      exact ih hs.2 (by simp)
    | cons e F =>
      rw [List.map_cons] at h
      by_cases he : e.1 = l.name
      · have hsub : (F.map Prod.fst).Sublist (s.map Line.name) := by
          rw [he] at h
          exact List.cons_sublist_cons.1 h
        have h1 : lookup (e :: F) l.name = some e.2 := by simp [lookup, he]
        rw [h1]
        have h2 : pick s (e :: F) = pick s F := by
          unfold pick
          have : ∀ m ∈ s, lookup (e :: F) m.name = lookup F m.name := by
            intro m hm
            have hne : e.1 ≠ m.name := fun h3 => hs.1 (by
              rw [← he, h3]; exact List.mem_map_of_mem hm)
            simp [lookup, hne]
          clear ih hp h hsub h1 hs
          induction s with
          | nil => rfl
          | cons m s ih2 =>
            rw [List.filterMap_cons, List.filterMap_cons, this m (by simp), ih2 (fun x hx => this x (by simp [hx]))]
        rw [h2, ih hs.2 hsub]
        simp [← he]
      · have hsub : ((e :: F).map Prod.fst).Sublist (s.map Line.name) := by
          rw [List.map_cons]
          rcases List.sublist_cons_iff.1 h with h2 | ⟨r, h2, _⟩
          · exact h2
          · exact absurd (List.cons.inj h2).1 he
        have h1 : lookup (e :: F) l.name = none := by
          rw [lookup_none_iff]
          intro x hx hxl
          exact hs.1 (hsub.subset (hxl ▸ List.mem_map_of_mem hx))
        rw [h1]
        exact ih hs.2 hsub

/-! ### Building -/

theorem checkpoint_ok {c : Items} (hc : WF (.dict c)) :
    checkpointOf (.dict c) = .ok () ↔ Spec.Checkpoint c := by
  have hk : ∀ n ∈ Spec.checkpointTable, ascii n.name ≠ OP ∧ ascii n.name ≠ ascii "self" := fun n hn =>
    checkpoint_names _ (List.mem_map_of_mem hn)
  have h := fun m => construct_ok (op := ascii "CHECKPOINT") checkpoint_nodup checkpoint_lines hk hc m
  unfold checkpointOf Spec.Checkpoint
  cases hm : construct (ascii "CHECKPOINT") checkpoint c with
  | error e =>
    simp only [hm, reduceCtorEq, false_iff, not_and] at h ⊢
    exact fun h1 h2 => h _ h2 h1 rfl
  | ok m =>
    have := (h m).1 hm
    simp [hm, this.1, this.2.1]

theorem observed_ok (env : Env) {d : Items} (hd : WF (.dict d)) : observedExtra env d = .ok () ↔
    ∃ c, Field d (ascii "msg") (.dict c) ∧ HasForm (Spec.batchCommittedTable env) c ∧ NoField c (ascii "self") := by
  unfold observedExtra
  rcases field_or d (ascii "msg") with ⟨v, hv⟩ | hno
  · rw [get_field hv]
    cases v with
    | dict c =>
      have hc := (wf_dict hd).2 _ (field_mem hv)
      have hk := (name_ok (env := env) (k := "BATCH_COMMITTED") (t := Spec.batchCommittedTable env)
        (by simp [Spec.messages])).1
      have h := fun m => construct_ok (op := ascii "BATCH_COMMITTED") (batchCommitted_nodup env)
        (batchCommitted_lines env) hk hc m
      have hr : (∃ c', Field d (ascii "msg") (.dict c') ∧ HasForm (Spec.batchCommittedTable env) c' ∧
          NoField c' (ascii "self")) ↔ HasForm (Spec.batchCommittedTable env) c ∧ NoField c (ascii "self") := by
        constructor
        · rintro ⟨c', h1, h2⟩
          cases field_unique hv h1
          exact h2
        · exact fun h2 => ⟨c, hv, h2⟩
      rw [hr]
      cases hm : construct (ascii "BATCH_COMMITTED") (batchCommitted env) c with
      | error e =>
        simp only [hm, reduceCtorEq, false_iff, not_and] at h ⊢
        exact fun h1 h2 => h _ h2 h1 rfl
      | ok m =>
        have := (h m).1 hm
        simp [hm, this.1, this.2.1]
    | _ =>
      refine ⟨nofun, ?_⟩
      rintro ⟨c, h, _⟩
      exact nomatch field_unique hv h
  · rw [noField_get hno]
    refine ⟨nofun, ?_⟩
    rintro ⟨c, h, _⟩
    exact absurd hno (field_not_noField h)

theorem list_contains_none (l : List Val) : l.contains Val.none = true ↔ Val.none ∈ l := by
  simp

theorem prePrepare_ok (d : Items) : prePrepareExtra d = .ok () ↔
    ∀ l, Field d (ascii "blsMultiSigs") (.list l) → Val.none ∉ l := by
  unfold prePrepareExtra
  rcases field_or d (ascii "blsMultiSigs") with ⟨v, hv⟩ | hno
  · rw [get_field hv]
    cases v with
    | list l =>
      simp only
      by_cases hl : Val.none ∈ l
      · rw [if_pos ((list_contains_none l).2 hl)]
        refine ⟨nofun, fun h => absurd hl (h l hv)⟩
      · rw [if_neg (fun h => hl ((list_contains_none l).1 h))]
        refine ⟨fun _ l' h' => ?_, fun _ => rfl⟩
        cases field_unique hv h'
        exact hl
    | _ => exact ⟨fun _ l h => (nomatch field_unique hv h), fun _ => rfl⟩
  · rw [noField_get hno]
    exact ⟨fun _ l h => absurd hno (field_not_noField h), fun _ => rfl⟩

theorem checkpoints_ok {d : Items} (hd : WF (.dict d)) :
    forEach checkpointOf (itemsOf (get d (ascii "checkpoints"))) = .ok () ↔
    ∀ l, Field d (ascii "checkpoints") (.list l) → ∀ c, Val.dict c ∈ l → Spec.Checkpoint c := by
  rw [forEach_ok]
  rcases field_or d (ascii "checkpoints") with ⟨v, hv⟩ | hno
  · rw [get_field hv]
    have hw := (wf_dict hd).2 _ (field_mem hv)
    cases v with
    | list l =>
      have hl : ∀ x ∈ l, WF x := by cases hw; assumption
      constructor
      · intro h l' h' c hc
        cases field_unique hv h'
        exact (checkpoint_ok (hl _ hc)).1 (h _ hc)
      · intro h x hx
        cases x with
        | dict c => exact (checkpoint_ok (hl _ hx)).2 (h l hv c hx)
        | _ => rfl
    | _ => exact ⟨fun _ l h => (nomatch field_unique hv h), fun _ x hx => by simp [itemsOf] at hx⟩
  · rw [noField_get hno]
    exact ⟨fun _ l h => absurd hno (field_not_noField h), fun _ x hx => by simp [itemsOf] at hx⟩

theorem newViewCheckpoint_ok {d : Items} (hd : WF (.dict d)) :
    checkpointOf (get d (ascii "checkpoint")) = .ok () ↔
    ∀ c, Field d (ascii "checkpoint") (.dict c) → Spec.Checkpoint c := by
  rcases field_or d (ascii "checkpoint") with ⟨v, hv⟩ | hno
  · rw [get_field hv]
    have hw := (wf_dict hd).2 _ (field_mem hv)
    cases v with
    | dict c =>
      rw [checkpoint_ok hw]
      refine ⟨fun h c' h' => ?_, fun h => h c hv⟩
      cases field_unique hv h'
      exact h
    | _ => exact ⟨fun _ l h => (nomatch field_unique hv h), fun _ => rfl⟩
  · rw [noField_get hno]
    exact ⟨fun _ l h => absurd hno (field_not_noField h), fun _ => rfl⟩

theorem special_types : "OBSERVED_DATA" ∈ types ∧ "PREPREPARE" ∈ types ∧ "VIEW_CHANGE" ∈ types ∧ "NEW_VIEW" ∈ types := by
  decide +kernel

theorem ascii_beq {k j : String} (hk : k ∈ types) (hj : j ∈ types) : (ascii k == ascii j) = decide (k = j) := by
  by_cases h : k = j
  · simp [h]
  · have : ascii k ≠ ascii j := fun h2 => h (types_inj k hk j hj h2)
    simp [h, this]

theorem extra_ok (env : Env) {k : String} (hk : k ∈ types) {d : Items} (hd : WF (.dict d)) :
    extra env (ascii k) d = .ok () ↔ Spec.Beyond env k d := by
  unfold extra Spec.Beyond
  rw [ascii_beq hk special_types.1, ascii_beq hk special_types.2.1, ascii_beq hk special_types.2.2.1,
    ascii_beq hk special_types.2.2.2]
  by_cases h1 : k = "OBSERVED_DATA"
  · subst h1
    simp [observed_ok env hd]
  · by_cases h2 : k = "PREPREPARE"
    · subst h2
      simp [prePrepare_ok]
    · by_cases h3 : k = "VIEW_CHANGE"
      · subst h3
        simp [checkpoints_ok hd]
      · by_cases h4 : k = "NEW_VIEW"
        · subst h4
          simp [newViewCheckpoint_ok hd]
        · simp [h1, h2, h3, h4]

/-- The fields that a type looks at beyond its schema are in the schema. -/
theorem beyond_congr {env : Env} {k : String} {t : List Need} (ht : (k, t) ∈ Spec.messages env) {d e : Items}
    (h : ∀ n ∈ t, ∀ v, Field d (ascii n.name) v ↔ Field e (ascii n.name) v) :
    Spec.Beyond env k d ↔ Spec.Beyond env k e := by
  have hu : ∀ t', (k, t') ∈ Spec.messages env → t' = t := by
    intro t' ht'
    rcases tables_find (classes_tables env) (messages_nodup env) (ascii k) with ⟨_, h2⟩ | ⟨_, k', t'', _, _, _, _, _, h6⟩
    · exact absurd rfl (h2 _ ht)
    · exact (Prod.mk.inj ((h6 _ ht' rfl).trans (h6 _ ht rfl).symm)).2
  unfold Spec.Beyond
  refine and_congr ?_ (and_congr ?_ (and_congr ?_ ?_))
  · refine imp_congr_right fun hk => ?_
    subst hk
    have := h (may "blsMultiSigs" (Spec.ListOf (Spec.NullOr (Spec.MultiSig env)))) (by
      rw [← hu (must "instId" Spec.Natural :: _) (by simp [Spec.messages]; rfl)]; simp)
    simp only [may] at this
    simp only [this]
  · refine imp_congr_right fun hk => ?_
    subst hk
    have := h (must "checkpoints" (Spec.ListOf Spec.Anything)) (by
      rw [← hu (must "viewNo" Spec.Natural :: _) (by simp [Spec.messages]; rfl)]; simp)
    simp only [must] at this
    simp only [this]
  · refine imp_congr_right fun hk => ?_
    subst hk
    have := h (must "checkpoint" Spec.Anything) (by
      rw [← hu (must "viewNo" Spec.Natural :: _) (by simp [Spec.messages]; rfl)]; simp)
    simp only [must] at this
    simp only [this]
  · refine imp_congr_right fun hk => ?_
    subst hk
    have := h (must "msg" Spec.Anything) (by
      rw [← hu (must "msg_type" (Spec.OneOf ["BATCH"]) :: _) (by simp [Spec.messages]; rfl)]; simp)
    simp only [must] at this
    simp only [this]

/-- The table of a type. -/
theorem build_cases (env : Env) (op : Bytes) :
    ((classes env).find? (fun c => c.1 == op) = none ∧ ∀ k t, (k, t) ∈ Spec.messages env → ascii k ≠ op) ∨
    ∃ s k t, (classes env).find? (fun c => c.1 == op) = some (op, s) ∧ op = ascii k ∧ (k, t) ∈ Spec.messages env ∧
      (s.map Line.name).Nodup ∧ Lines s t ∧ ∀ k' t', (k', t') ∈ Spec.messages env → ascii k' = op → k' = k ∧ t' = t := by
  rcases tables_find (classes_tables env) (messages_nodup env) op with ⟨h1, h2⟩ | ⟨s, k, t, h1, h2, h3, h4, h5, h6⟩
  · exact .inl ⟨h1, fun k t h => h2 (k, t) h⟩
  · exact .inr ⟨s, k, t, h1, h2, h3, h4, h5, fun k' t' h h7 => by
      have := h6 (k', t') h h7
      exact ⟨(Prod.mk.inj this).1, (Prod.mk.inj this).2⟩⟩

theorem field_pick {s : Schema} {d : Items} {k : Bytes} (hk : k ∈ s.map Line.name) (v : Val) :
    Field (pick s d) k v ↔ Field d k v := by
  rw [← lookup_some_iff, ← lookup_some_iff, lookup_pick, if_pos hk]

theorem build_iff (env : Env) {op : Bytes} {s : Schema} {k : String} {t : List Need}
    (h1 : (classes env).find? (fun c => c.1 == op) = some (op, s)) (h2 : op = ascii k)
    (h3 : (k, t) ∈ Spec.messages env) (h4 : (s.map Line.name).Nodup) (h5 : Lines s t) {d : Items} (hd : WF (.dict d))
    (m : Msg) : build env op d = .ok m ↔
      NoField d (ascii "self") ∧ HasForm t d ∧ Spec.Beyond env k d ∧ m = ⟨op, pick s (withoutOp d)⟩ := by
  obtain ⟨hk, hty⟩ := name_ok h3
  have hwo : WF (.dict (withoutOp d)) := wf_filter hd _
  have hwp : WF (.dict (pick s (withoutOp d))) := wf_pick h4 hwo
  have hbe : Spec.Beyond env k (pick s (withoutOp d)) ↔ Spec.Beyond env k d := by
    refine beyond_congr h3 fun n hn v => ?_
    rw [field_pick (by rw [lines_names h5]; exact List.mem_map_of_mem (f := fun n : Need => ascii n.name) hn),
      field_withoutOp (hk n hn).1]
  have hc := fun m => construct_ok (op := op) h4 h5 hk hd m
  unfold build
  rw [h1]
  cases hm : construct op s d with
  | error e =>
    simp only [hm, reduceCtorEq, false_iff, not_and] at hc ⊢
    intro a b _ c
    exact hc m a b c
  | ok m' =>
    obtain ⟨c1, c2, c3⟩ := (hc m').1 hm
    have he := extra_ok env hty hwp
    rw [hbe] at he
    subst c3
    subst h2
    simp only [hm]
    cases hx : extra env (ascii k) (pick s (withoutOp d)) with
    | error e =>
      rw [hx] at he
      simp only [reduceCtorEq, false_iff] at he
      simp [he]
    | ok u =>
      rw [hx] at he
      simp only [Except.ok.injEq, c1, c2, he.1 (by cases u; rfl), true_and]
      exact ⟨Eq.symm, Eq.symm⟩

theorem accepted_iff (env : Env) (op : Bytes) {d : Items} (hd : WF (.dict d)) :
    (∃ m, build env op d = .ok m) ↔ ∃ k, op = ascii k ∧ Spec.Declared env k d := by
  rcases build_cases env op with ⟨h1, h2⟩ | ⟨s, k, t, h1, h2, h3, h4, h5, h6⟩
  · constructor
    · rintro ⟨m, hm⟩
      unfold build at hm
      rw [h1] at hm
      cases hm
    · rintro ⟨k, rfl, _, ⟨t, ht, _⟩, _⟩
      exact absurd rfl (h2 k t ht)
  · have hb := build_iff env h1 h2 h3 h4 h5 hd
    constructor
    · rintro ⟨m, hm⟩
      obtain ⟨a, b, c, _⟩ := (hb m).1 hm
      exact ⟨k, h2, a, ⟨t, h3, b⟩, c⟩
    · rintro ⟨k', hk', a, ⟨t', ht', b⟩, c⟩
      obtain ⟨rfl, rfl⟩ := h6 k' t' ht' hk'.symm
      exact ⟨_, (hb _).2 ⟨a, b, c, rfl⟩⟩

end Verif.Schema
