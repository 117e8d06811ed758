import Verif.Proofs.SchemaRaise
/-! Lemmas about the schemas: writing a message out and reading it back. -/
namespace Verif.Schema

open Verif (Val ascii)
open Verif.Entry (Bytes Items lookup get truthy OP withoutOp lookup_some_iff lookup_none_iff truthy_false_iff)
open Verif.Entry.Spec (Field NoField)
open Verif.Spec (WF)
open Verif.Schema.Spec (Need HasForm must may)

attribute [local irreducible] ascii

theorem lookup_setItem (d : Items) (k : Bytes) (v : Val) (j : Bytes) :
    lookup (setItem d k v) j = if j = k then (lookup d k).map (fun _ => v) else lookup d j := by
  induction d with
  | nil => simp [setItem, lookup]
  | cons e d ih =>
    unfold setItem lookup at ih ⊢
    rw [List.map_cons]
    by_cases he : e.1 = k
    · rw [if_pos (by simpa using he)]
      by_cases hj : j = k
      · subst hj
        rw [List.find?_cons_of_pos (by simp)]
        simp [he]
      · rw [List.find?_cons_of_neg (by simpa using fun h => hj h.symm)]
        rw [ih, if_neg hj, if_neg hj, List.find?_cons_of_neg (by simpa using fun h => hj (h.symm.trans he))]
    · rw [if_neg (by simpa using he)]
      by_cases hj : e.1 = j
      · rw [List.find?_cons_of_pos (by simpa using hj)]
        rw [if_neg (fun h => he (hj.trans h)), List.find?_cons_of_pos (by simpa using hj)]
      · rw [List.find?_cons_of_neg (by simpa using hj), ih]
        by_cases hj2 : j = k
        · rw [if_pos hj2, if_pos hj2, List.find?_cons_of_neg (by simpa using he)]
        · rw [if_neg hj2, if_neg hj2, List.find?_cons_of_neg (by simpa using hj)]

theorem field_setItem {d : Items} {k : Bytes} {v : Val} {w : Val} (h : Field d k w) : Field (setItem d k v) k v := by
  rw [← lookup_some_iff] at h ⊢
  rw [lookup_setItem, if_pos rfl, h]; rfl

theorem field_setItem_ne {d : Items} {k j : Bytes} (hj : j ≠ k) (v w : Val) :
    Field (setItem d k v) j w ↔ Field d j w := by
  rw [← lookup_some_iff, ← lookup_some_iff, lookup_setItem, if_neg hj]

theorem setItem_keys (d : Items) (k : Bytes) (v : Val) : (setItem d k v).map Prod.fst = d.map Prod.fst := by
  unfold setItem
  rw [List.map_map]
  refine List.map_congr_left fun e _ => ?_
  simp only [Function.comp_apply]
  split
  · rename_i h; exact (by simpa using h : e.1 = k).symm
  · rfl

theorem wf_setItem {d : Items} {k : Bytes} {v : Val} (hd : WF (.dict d)) (hv : WF v) : WF (.dict (setItem d k v)) := by
  obtain ⟨h1, h2⟩ := wf_dict hd
  refine .dict _ (by rw [setItem_keys]; exact h1) fun e he => ?_
  unfold setItem at he
  obtain ⟨x, hx, rfl⟩ := List.mem_map.1 he
  split
  · exact hv
  · exact h2 x hx

theorem setItem_same {d : Items} (hd : (d.map Prod.fst).Nodup) {k : Bytes} {v : Val} (h : Field d k v) :
    setItem d k v = d := by
  unfold setItem
  conv => rhs; rw [← List.map_id d]
  refine List.map_congr_left fun e he => ?_
  split
  · rename_i hk
    have hk : e.1 = k := by simpa using hk
    have := field_unique h (mem_field hd (k := k) (v := e.2) (by rw [← hk]; exact he))
    rw [this, ← hk]; rfl
  · rfl

theorem setItem_cons {e : Bytes × Val} {d : Items} {k : Bytes} {v : Val} (h : e.1 ≠ k) :
    setItem (e :: d) k v = e :: setItem d k v := by
  unfold setItem
  rw [List.map_cons, if_neg (by simpa using h)]

theorem hasForm_set {t : List Need} {d : Items} {k : Bytes} {v : Val} (h : HasForm t d)
    (hv : ∀ n ∈ t, ascii n.name = k → n.form v) : HasForm t (setItem d k v) := by
  intro n hn
  by_cases hk : ascii n.name = k
  · refine ⟨fun hm => ?_, fun w hw => ?_⟩
    · obtain ⟨w, hw⟩ := (h n hn).1 hm
      rw [hk] at hw ⊢
      exact ⟨v, field_setItem hw⟩
    · have : v = w := by
        rw [← lookup_some_iff, lookup_setItem, if_pos hk] at hw
        cases hl : lookup d k with
        | none => rw [hl] at hw; cases hw
        | some x => rw [hl] at hw; exact Option.some.inj hw
      rw [← this]
      exact hv n hn hk
  · refine ⟨fun hm => ?_, fun w hw => ?_⟩
    · exact ((h n hn).1 hm).imp fun w hw => (field_setItem_ne hk v w).2 hw
    · exact (h n hn).2 w ((field_setItem_ne hk v w).1 hw)

/-- Reading back what was written. -/
theorem build_again (env : Env) {op : Bytes} {s : Schema} {k : String} {t : List Need}
    (h1 : (classes env).find? (fun c => c.1 == op) = some (op, s)) (h2 : op = ascii k)
    (h3 : (k, t) ∈ Spec.messages env) (h4 : (s.map Line.name).Nodup) (h5 : Lines s t) {F : Items} (hF : WF (.dict F))
    (hk : (F.map Prod.fst).Sublist (s.map Line.name)) (hf : HasForm t F) (hb : Spec.Beyond env k F) :
    WF (.dict ((OP, .str op) :: F)) ∧ build env op ((OP, .str op) :: F) = .ok ⟨op, F⟩ := by
  obtain ⟨hn, _⟩ := name_ok h3
  obtain ⟨w1, w2⟩ := wf_dict hF
  have hkeys : ∀ e ∈ F, e.1 ≠ OP ∧ e.1 ≠ ascii "self" := by
    intro e he
    have := hk.subset (List.mem_map_of_mem he)
    rw [lines_names h5] at this
    obtain ⟨n, hnt, h⟩ := List.mem_map.1 this
    rw [← h]
    exact hn n hnt
  have hw : WF (.dict ((OP, .str op) :: F)) := by
    refine .dict _ ?_ ?_
    · rw [List.map_cons, List.nodup_cons]
      refine ⟨fun h => ?_, w1⟩
      obtain ⟨e, he, h⟩ := List.mem_map.1 h
      exact (hkeys e he).1 h
    · intro e he
      rcases List.mem_cons.1 he with rfl | he
      · exact .str _
      · exact w2 e he
  have hfield : ∀ n ∈ t, ∀ v, Field ((OP, .str op) :: F) (ascii n.name) v ↔ Field F (ascii n.name) v := by
    intro n hnt v
    rw [← lookup_some_iff, ← lookup_some_iff]
    have : OP ≠ ascii n.name := fun h => (hn n hnt).1 h.symm
    simp [lookup, this]
  have hwo : withoutOp ((OP, .str op) :: F) = F := by
    unfold withoutOp
    rw [List.filter_cons, if_neg (by simp), List.filter_eq_self]
    intro e he
    simpa using (hkeys e he).1
  refine ⟨hw, (build_iff env h1 h2 h3 h4 h5 hw _).2 ⟨?_, ?_, ?_, ?_⟩⟩
  · intro e he
    rcases List.mem_cons.1 he with rfl | he
    · exact op_names.1
    · exact (hkeys e he).2
  · exact (hasForm_congr hfield).2 hf
  · exact (beyond_congr h3 hfield).2 hb
  · rw [hwo, pick_self h4 hk]

/-! ### Batch ids and checkpoints -/

theorem dictsOf_mem {l : List Val} {d : Items} : d ∈ dictsOf l ↔ Val.dict d ∈ l := by
  unfold dictsOf
  rw [List.mem_filterMap]
  constructor
  · rintro ⟨v, hv, h⟩
    cases v <;> simp at h
    rw [← h]; exact hv
  · exact fun h => ⟨_, h, rfl⟩

theorem dictsOf_map (l : List Items) (f : Items → Items) : dictsOf (l.map (fun d => .dict (f d))) = l.map f := by
  induction l with
  | nil => rfl
  | cons d l ih =>
    unfold dictsOf at ih ⊢
    rw [List.map_cons, List.filterMap_cons, ih]; rfl

theorem wf_get {d : Items} (hd : WF (.dict d)) (k : Bytes) : WF (get d k) := by
  rcases field_or d k with ⟨v, hv⟩ | h
  · rw [get_field hv]; exact (wf_dict hd).2 _ (field_mem hv)
  · rw [noField_get h]; exact .none

/-- The items of a batch id. -/
def bidOut (d : Items) : Items := BID.map (fun k => (k, get d k))

theorem lookup_bidOut (d : Items) {k : Bytes} (hk : k ∈ BID) : lookup (bidOut d) k = some (get d k) := by
  unfold bidOut lookup
  have : ∀ l : List Bytes, k ∈ l → ((l.map (fun k => (k, get d k))).find? (fun e => e.1 == k)).map Prod.snd = some (get d k) := by
    intro l hl
    induction l with
    | nil => cases hl
    | cons j l ih =>
      rw [List.map_cons]
      by_cases hj : j = k
      · rw [List.find?_cons_of_pos (by simpa using hj), hj]; rfl
      · rw [List.find?_cons_of_neg (by simpa using hj)]
        exact ih ((List.mem_cons.1 hl).resolve_left (Ne.symm hj))
  exact this _ hk

theorem bidOut_again (d : Items) : bidOut (bidOut d) = bidOut d := by
  refine List.map_congr_left fun k hk => ?_
  have h := lookup_bidOut d hk
  show (k, (lookup (bidOut d) k).getD .none) = _
  rw [h]; rfl

theorem wf_bidOut {d : Items} (hd : WF (.dict d)) : WF (.dict (bidOut d)) := by
  refine .dict _ ?_ ?_
  · unfold bidOut
    rw [List.map_map]
    show (BID.map id).Nodup
    rw [List.map_id]; exact bid_nodup
  · intro e he
    obtain ⟨k, _, rfl⟩ := List.mem_map.1 he
    exact wf_get hd k

theorem bid_form {d : Items} (h : Spec.BatchId (.dict d)) : Spec.BatchId (.dict (bidOut d)) := by
  obtain ⟨a, b, c, e, h1, h2, h3, h4, h5 | ⟨d', h5, h6, f1, f2, f3, f4⟩⟩ := h
  · cases h5
  · cases h5
    refine ⟨a, b, c, e, h1, h2, h3, h4, .inr ⟨_, rfl, rfl, ?_, ?_, ?_, ?_⟩⟩ <;> rw [← lookup_some_iff]
    · rw [lookup_bidOut d (by simp [BID]), get_field f1]
    · rw [lookup_bidOut d (by simp [BID]), get_field f2]
    · rw [lookup_bidOut d (by simp [BID]), get_field f3]
    · rw [lookup_bidOut d (by simp [BID]), get_field f4]

theorem bids_form {v : Val} (h : Spec.ListOf Spec.BatchId v) : Spec.ListOf Spec.BatchId (bidsDict v) := by
  unfold bidsDict
  split
  · rename_i d l
    obtain ⟨l', hl, h2⟩ := h
    cases hl
    refine ⟨_, rfl, fun x hx => ?_⟩
    obtain ⟨d', hd', rfl⟩ := List.mem_map.1 hx
    refine bid_form (h2 _ ?_)
    rcases List.mem_cons.1 hd' with rfl | hd'
    · simp
    · exact List.mem_cons_of_mem _ (dictsOf_mem.1 hd')
  · exact h

theorem wf_bids {v : Val} (h : WF v) : WF (bidsDict v) := by
  unfold bidsDict
  split
  · rename_i d l
    have hl : ∀ x ∈ Val.dict d :: l, WF x := by cases h; assumption
    refine .list _ fun x hx => ?_
    obtain ⟨d', hd', rfl⟩ := List.mem_map.1 hx
    refine wf_bidOut ?_
    rcases List.mem_cons.1 hd' with rfl | hd'
    · exact hl _ (by simp)
    · exact hl _ (List.mem_cons_of_mem _ (dictsOf_mem.1 hd'))
  · exact h

theorem bids_again (v : Val) : bidsDict (bidsDict v) = bidsDict v := by
  cases v with
  | list l =>
    cases l with
    | nil => rfl
    | cons x l =>
      cases x with
      | dict d =>
        show Val.list ((bidOut d :: dictsOf ((dictsOf l).map bidDict)).map bidDict) = Val.list ((d :: dictsOf l).map bidDict)
        have : dictsOf ((dictsOf l).map bidDict) = (dictsOf l).map bidOut := dictsOf_map _ bidOut
        rw [this, List.map_cons, List.map_cons, List.map_map]
        congr 1
        refine congr (congrArg _ ?_) ?_
        · exact congrArg Val.dict (bidOut_again d)
        · exact List.map_congr_left fun x _ => congrArg Val.dict (bidOut_again x)
      | _ => rfl
  | _ => rfl

/-- The items of a checkpoint. -/
def cpOut (c : Items) : Items := (OP, .str (ascii "CHECKPOINT")) :: pick checkpoint (withoutOp c)

theorem cp_lines_names : ∀ k ∈ checkpoint.map Line.name, k ≠ OP ∧ k ≠ ascii "self" := by
  intro k hk
  rw [lines_names checkpoint_lines] at hk
  obtain ⟨n, hn, rfl⟩ := List.mem_map.1 hk
  exact checkpoint_names _ (List.mem_map_of_mem hn)

theorem withoutOp_cpOut (c : Items) : withoutOp (cpOut c) = pick checkpoint (withoutOp c) := by
  have hr : withoutOp (cpOut c) = (pick checkpoint (withoutOp c)).filter (fun e => !(e.1 == OP)) := by
    show List.filter _ (_ :: _) = _
    rw [List.filter_cons, if_neg (by simp)]
  rw [hr, List.filter_eq_self]
  intro e he
  have := (pick_keys _ _).subset (List.mem_map_of_mem (f := Prod.fst) he)
  simpa using (cp_lines_names _ this).1

theorem cpOut_again (c : Items) : cpOut (cpOut c) = cpOut c := by
  show _ :: pick checkpoint (withoutOp (cpOut c)) = _ :: pick checkpoint (withoutOp c)
  rw [withoutOp_cpOut, pick_self checkpoint_nodup (pick_keys _ _)]

theorem wf_cpOut {c : Items} (hc : WF (.dict c)) : WF (.dict (cpOut c)) := by
  have h := wf_pick checkpoint_nodup (wf_filter hc (fun e => !(e.1 == OP)))
  obtain ⟨h1, h2⟩ := wf_dict h
  refine .dict _ ?_ ?_
  · unfold cpOut
    rw [List.map_cons, List.nodup_cons]
    refine ⟨fun h3 => ?_, h1⟩
    exact (cp_lines_names _ ((pick_keys _ _).subset h3)).1 rfl
  · intro e he
    rcases List.mem_cons.1 he with rfl | he
    · exact .str _
    · exact h2 e he

theorem cp_form {c : Items} (hc : Spec.Checkpoint c) : Spec.Checkpoint (cpOut c) := by
  have hn : ∀ n ∈ Spec.checkpointTable, ascii n.name ≠ OP ∧ ascii n.name ≠ ascii "self" := fun n hn =>
    checkpoint_names _ (List.mem_map_of_mem hn)
  refine ⟨(hasForm_congr fun n hnt v => ?_).2 hc.1, ?_⟩
  · rw [← field_withoutOp (hn n hnt).1 (d := cpOut c), withoutOp_cpOut, field_pick, field_withoutOp (hn n hnt).1]
    rw [lines_names checkpoint_lines]
    exact List.mem_map_of_mem (f := fun n : Need => ascii n.name) hnt
  · intro e he
    rcases List.mem_cons.1 he with rfl | he
    · exact op_names.1
    · exact (cp_lines_names _ ((pick_keys _ _).subset (List.mem_map_of_mem (f := Prod.fst) he))).2

theorem checkpoints_out {l : List Val} {c : Val} (h : checkpointsDict (.list l) = .ok c)
    (hw : WF (.list l)) (hl : ∀ d, Val.dict d ∈ l → Spec.Checkpoint d) :
    checkpointsDict c = .ok c ∧ WF c ∧ ∃ l', c = .list l' ∧ ∀ d, Val.dict d ∈ l' → Spec.Checkpoint d := by
  unfold checkpointsDict at h
  simp only at h
  have hwl : ∀ x ∈ l, WF x := by cases hw; assumption
  by_cases hd : dictsOf l = []
  · rw [if_neg (by simp [hd])] at h
    by_cases hl0 : l = []
    · rw [if_pos (by simp [hl0])] at h
      cases h
      subst hl0
      exact ⟨rfl, hw, [], rfl, by simp⟩
    · rw [if_neg (by simpa using hl0)] at h
      cases h
  · rw [if_pos (by simpa using hd)] at h
    cases h
    have hm : dictsOf ((dictsOf l).map checkpointDict) = (dictsOf l).map cpOut := dictsOf_map _ cpOut
    refine ⟨?_, ?_, _, rfl, ?_⟩
    · unfold checkpointsDict
      simp only
      rw [hm, if_pos (by simpa using hd), List.map_map]
      congr 2
      exact List.map_congr_left fun x _ => congrArg Val.dict (cpOut_again x)
    · refine .list _ fun x hx => ?_
      obtain ⟨d, hdm, rfl⟩ := List.mem_map.1 hx
      exact wf_cpOut (hwl _ (dictsOf_mem.1 hdm))
    · intro d hdm
      rw [← dictsOf_mem, hm] at hdm
      obtain ⟨x, hx, rfl⟩ := List.mem_map.1 hdm
      exact cp_form (hl x (dictsOf_mem.1 hx))

/-! ### Writing out -/

/-- The table of VIEW_CHANGE. -/
def vcTable : List Need := [must "viewNo" Spec.Natural, must "stableCheckpoint" Spec.Natural,
  must "prepared" (Spec.ListOf Spec.BatchId), must "preprepared" (Spec.ListOf Spec.BatchId),
  must "checkpoints" (Spec.ListOf Spec.Anything)]

/-- The table of NEW_VIEW. -/
def nvTable : List Need := [must "viewNo" Spec.Natural, must "viewChanges" (Spec.ListOf Spec.Vote),
  must "checkpoint" Spec.Anything, must "batches" (Spec.ListOf Spec.BatchId), may "primary" (Spec.UpTo 256)]

theorem vc_mem (env : Env) : ("VIEW_CHANGE", vcTable) ∈ Spec.messages env := by simp [Spec.messages, vcTable]
theorem nv_mem (env : Env) : ("NEW_VIEW", nvTable) ∈ Spec.messages env := by simp [Spec.messages, nvTable]

theorem vc_checkpoints {v : Val} (hv : ∃ l, v = .list l) :
    ∀ n ∈ vcTable, ascii n.name = ascii "checkpoints" → n.form v := by
  refine List.forall_mem_cons.2 ⟨fun h => absurd h (by decide +kernel), List.forall_mem_cons.2
    ⟨fun h => absurd h (by decide +kernel), List.forall_mem_cons.2 ⟨fun h => absurd h (by decide +kernel),
    List.forall_mem_cons.2 ⟨fun h => absurd h (by decide +kernel), List.forall_mem_cons.2 ⟨fun _ => ?_, nofun⟩⟩⟩⟩⟩
  obtain ⟨l, rfl⟩ := hv
  exact ⟨l, rfl, fun _ _ => trivial⟩

theorem vc_prepared {v : Val} (hv : Spec.ListOf Spec.BatchId v) :
    ∀ n ∈ vcTable, ascii n.name = ascii "prepared" → n.form v :=
  List.forall_mem_cons.2 ⟨fun h => absurd h (by decide +kernel), List.forall_mem_cons.2
    ⟨fun h => absurd h (by decide +kernel), List.forall_mem_cons.2 ⟨fun _ => hv,
    List.forall_mem_cons.2 ⟨fun h => absurd h (by decide +kernel), List.forall_mem_cons.2
    ⟨fun h => absurd h (by decide +kernel), nofun⟩⟩⟩⟩⟩

theorem vc_preprepared {v : Val} (hv : Spec.ListOf Spec.BatchId v) :
    ∀ n ∈ vcTable, ascii n.name = ascii "preprepared" → n.form v :=
  List.forall_mem_cons.2 ⟨fun h => absurd h (by decide +kernel), List.forall_mem_cons.2
    ⟨fun h => absurd h (by decide +kernel), List.forall_mem_cons.2 ⟨fun h => absurd h (by decide +kernel),
    List.forall_mem_cons.2 ⟨fun _ => hv, List.forall_mem_cons.2
    ⟨fun h => absurd h (by decide +kernel), nofun⟩⟩⟩⟩⟩

theorem nv_checkpoint (v : Val) : ∀ n ∈ nvTable, ascii n.name = ascii "checkpoint" → n.form v :=
  List.forall_mem_cons.2 ⟨fun h => absurd h (by decide +kernel), List.forall_mem_cons.2
    ⟨fun h => absurd h (by decide +kernel), List.forall_mem_cons.2 ⟨fun _ => trivial,
    List.forall_mem_cons.2 ⟨fun h => absurd h (by decide +kernel), List.forall_mem_cons.2
    ⟨fun h => absurd h (by decide +kernel), nofun⟩⟩⟩⟩⟩

theorem nv_batches {v : Val} (hv : Spec.ListOf Spec.BatchId v) :
    ∀ n ∈ nvTable, ascii n.name = ascii "batches" → n.form v :=
  List.forall_mem_cons.2 ⟨fun h => absurd h (by decide +kernel), List.forall_mem_cons.2
    ⟨fun h => absurd h (by decide +kernel), List.forall_mem_cons.2 ⟨fun h => absurd h (by decide +kernel),
    List.forall_mem_cons.2 ⟨fun _ => hv, List.forall_mem_cons.2
    ⟨fun h => absurd h (by decide +kernel), nofun⟩⟩⟩⟩⟩

theorem vc_names : ascii "checkpoints" ≠ ascii "prepared" ∧ ascii "checkpoints" ≠ ascii "preprepared" ∧
    ascii "prepared" ≠ ascii "preprepared" ∧ ascii "checkpoint" ≠ ascii "batches" := by decide +kernel

theorem asDict_cases (k : String) (hk : k ∈ types) (F : Items) :
    asDict ⟨ascii k, F⟩ = if k = "VIEW_CHANGE" then viewChangeDict ⟨ascii k, F⟩
      else if k = "NEW_VIEW" then newViewDict ⟨ascii k, F⟩ else .ok ((OP, .str (ascii k)) :: F) := by
  unfold asDict
  simp only
  rw [ascii_beq hk special_types.2.2.1, ascii_beq hk special_types.2.2.2]
  simp only [decide_eq_true_eq]
  rfl

/-- What building gives, in terms of the object. -/
theorem built {env : Env} {op : Bytes} {d : Items} {m : Msg} (hd : WF (.dict d)) (h : build env op d = .ok m) :
    ∃ s k t, (classes env).find? (fun c => c.1 == op) = some (op, s) ∧ op = ascii k ∧ (k, t) ∈ Spec.messages env ∧
      (s.map Line.name).Nodup ∧ Lines s t ∧ (∀ k' t', (k', t') ∈ Spec.messages env → ascii k' = op → k' = k ∧ t' = t) ∧
      m.op = op ∧ WF (.dict m.fields) ∧ (m.fields.map Prod.fst).Sublist (s.map Line.name) ∧
      (∀ n ∈ t, ∀ v, Field m.fields (ascii n.name) v ↔ Field d (ascii n.name) v) ∧ HasForm t m.fields ∧
      Spec.Beyond env k m.fields := by
  rcases build_cases env op with ⟨h1, _⟩ | ⟨s, k, t, h1, h2, h3, h4, h5, h6⟩
  · unfold build at h
    rw [h1] at h
    cases h
  · obtain ⟨_, b, c, rfl⟩ := (build_iff env h1 h2 h3 h4 h5 hd m).1 h
    have hf : ∀ n ∈ t, ∀ v, Field (pick s (withoutOp d)) (ascii n.name) v ↔ Field d (ascii n.name) v := by
      intro n hn v
      rw [field_pick (by rw [lines_names h5]; exact List.mem_map_of_mem (f := fun n : Need => ascii n.name) hn),
        field_withoutOp ((name_ok h3).1 n hn).1]
    exact ⟨s, k, t, h1, h2, h3, h4, h5, h6, rfl, wf_pick h4 (wf_filter hd _), pick_keys _ _, hf,
      (hasForm_congr hf).2 b, (beyond_congr h3 hf).2 c⟩

theorem need {t : List Need} {d : Items} (h : HasForm t d) {name : String} {P : Val → Prop} (hn : must name P ∈ t) :
    ∃ v, Field d (ascii name) v ∧ P v := by
  obtain ⟨h1, h2⟩ := h _ hn
  obtain ⟨v, hv⟩ := h1 rfl
  exact ⟨v, hv, h2 v hv⟩

theorem checkpointsDict_error {l : List Val} {x : Exc} : checkpointsDict (.list l) = .error x ↔
    x = .attributeError ∧ l ≠ [] ∧ ∀ c, Val.dict c ∉ l := by
  have hd : dictsOf l = [] ↔ ∀ c, Val.dict c ∉ l := by
    rw [List.eq_nil_iff_forall_not_mem]
    exact forall_congr' fun c => not_congr dictsOf_mem
  rw [← hd]
  unfold checkpointsDict
  simp only
  by_cases h1 : dictsOf l = []
  · rw [if_neg (by simp [h1])]
    by_cases h2 : l = []
    · rw [if_pos (by simp [h2])]; simp [h2]
    · rw [if_neg (by simpa using h2)]
      simp only [Except.error.injEq, h1, ne_eq, h2, not_false_eq_true, and_self, and_true]
      exact ⟨Eq.symm, Eq.symm⟩
  · rw [if_pos (by simpa using h1)]
    simp [h1]

theorem asDict_error {env : Env} {op : Bytes} {d : Items} {m : Msg} (hd : WF (.dict d)) (h : build env op d = .ok m)
    (x : Exc) : asDict m = .error x ↔ x = .attributeError ∧ ∃ k, op = ascii k ∧ Spec.Unwritable k d := by
  obtain ⟨s, k, t, h1, h2, h3, h4, h5, h6, h7, h8, h9, h10, h11, h12⟩ := built hd h
  obtain ⟨mop, F⟩ := m
  simp only at h7 h8 h9 h10 h11 h12
  subst h7
  have hty := (name_ok h3).2
  have hk : (∃ k', mop = ascii k' ∧ Spec.Unwritable k' d) ↔ Spec.Unwritable k d := by
    constructor
    · rintro ⟨k', hk', h⟩
      have : k' = k := by
        rcases h with ⟨rfl, _⟩ | ⟨rfl, _⟩
        · exact (h6 _ _ (vc_mem env) hk'.symm).1
        · exact (h6 _ _ (nv_mem env) hk'.symm).1
      rw [← this]; exact h
    · exact fun h => ⟨k, h2, h⟩
  rw [hk]
  subst h2
  rw [asDict_cases k hty]
  unfold Spec.Unwritable
  by_cases hvc : k = "VIEW_CHANGE"
  · subst hvc
    obtain ⟨_, rfl⟩ := h6 _ _ (vc_mem env) rfl
    obtain ⟨v, hv, l, rfl, _⟩ := need h11 (show must "checkpoints" (Spec.ListOf Spec.Anything) ∈ vcTable by simp [vcTable])
    have hv' := (h10 (must "checkpoints" (Spec.ListOf Spec.Anything)) (by simp [vcTable]) _).1 hv
    have hs : (∃ l', Field d (ascii "checkpoints") (.list l') ∧ l' ≠ [] ∧ ∀ c, Val.dict c ∉ l') ↔
        l ≠ [] ∧ ∀ c, Val.dict c ∉ l := by
      constructor
      · rintro ⟨l', h1, h2⟩
        cases field_unique hv' h1
        exact h2
      · exact fun h => ⟨l, hv', h⟩
    rw [if_pos rfl, hs]
    simp only [true_and, show ("VIEW_CHANGE" = "NEW_VIEW") = False by simp, false_and, or_false]
    rw [← checkpointsDict_error]
    unfold viewChangeDict
    rw [show get (⟨ascii "VIEW_CHANGE", F⟩ : Msg).fields (ascii "checkpoints") = .list l from get_field hv]
    cases checkpointsDict (.list l) <;> simp
  · rw [if_neg hvc]
    by_cases hnv : k = "NEW_VIEW"
    · subst hnv
      obtain ⟨_, rfl⟩ := h6 _ _ (nv_mem env) rfl
      obtain ⟨v, hv, _⟩ := need h11 (show must "checkpoint" Spec.Anything ∈ nvTable by simp [nvTable])
      have hv' := (h10 (must "checkpoint" Spec.Anything) (by simp [nvTable]) _).1 hv
      have hs : (∃ w, Field d (ascii "checkpoint") w ∧ ∀ c, w ≠ .dict c) ↔ ∀ c, v ≠ .dict c := by
        constructor
        · rintro ⟨w, h1, h2⟩
          cases field_unique hv' h1
          exact h2
        · exact fun h => ⟨v, hv', h⟩
      rw [if_pos rfl, hs]
      simp only [true_and, show ("NEW_VIEW" = "VIEW_CHANGE") = False by simp, false_and, false_or]
      unfold newViewDict
      rw [show get (⟨ascii "NEW_VIEW", F⟩ : Msg).fields (ascii "checkpoint") = v from get_field hv]
      cases v <;> simp [eq_comm]
    · rw [if_neg hnv]
      simp [hvc, hnv]

theorem resend {env : Env} {op : Bytes} {d : Items} {m : Msg} {e : Items} (hd : WF (.dict d))
    (h : build env op d = .ok m) (he : asDict m = .ok e) :
    WF (.dict e) ∧ ∃ F, e = (OP, .str op) :: F ∧ build env op e = .ok ⟨op, F⟩ ∧ asDict ⟨op, F⟩ = .ok e := by
  obtain ⟨s, k, t, h1, h2, h3, h4, h5, h6, h7, h8, h9, h10, h11, h12⟩ := built hd h
  obtain ⟨mop, F⟩ := m
  simp only at h7 h8 h9 h10 h11 h12
  subst h7
  have hty := (name_ok h3).2
  have hgo : ∀ G, WF (.dict G) → (G.map Prod.fst).Sublist (s.map Line.name) → HasForm t G → Spec.Beyond env k G →
      e = (OP, .str mop) :: G → asDict ⟨mop, G⟩ = .ok e →
      WF (.dict e) ∧ ∃ F, e = (OP, .str mop) :: F ∧ build env mop e = .ok ⟨mop, F⟩ ∧ asDict ⟨mop, F⟩ = .ok e := by
    intro G g1 g2 g3 g4 g5 g6
    have := build_again env h1 h2 h3 h4 h5 g1 g2 g3 g4
    rw [← g5] at this
    exact ⟨this.1, G, g5, this.2, g6⟩
  subst h2
  have hn := (wf_dict h8).1
  by_cases hvc : k = "VIEW_CHANGE"
  · subst hvc
    obtain ⟨_, rfl⟩ := h6 _ _ (vc_mem env) rfl
    obtain ⟨v, hv, l, rfl, _⟩ := need h11 (show must "checkpoints" (Spec.ListOf Spec.Anything) ∈ vcTable by simp [vcTable])
    obtain ⟨p, hp, hpf⟩ := need h11 (show must "prepared" (Spec.ListOf Spec.BatchId) ∈ vcTable by simp [vcTable])
    obtain ⟨q, hq, hqf⟩ := need h11 (show must "preprepared" (Spec.ListOf Spec.BatchId) ∈ vcTable by simp [vcTable])
    have hwv := (wf_dict h8).2 _ (field_mem hv)
    have hcp := h12.2.1 rfl l hv
    rw [asDict_cases _ hty, if_pos rfl] at he
    unfold viewChangeDict at he
    rw [show get (⟨ascii "VIEW_CHANGE", F⟩ : Msg).fields (ascii "checkpoints") = .list l from get_field hv,
      show get (⟨ascii "VIEW_CHANGE", F⟩ : Msg).fields (ascii "prepared") = p from get_field hp,
      show get (⟨ascii "VIEW_CHANGE", F⟩ : Msg).fields (ascii "preprepared") = q from get_field hq] at he
    cases hc : checkpointsDict (.list l) with
    | error x => rw [hc] at he; cases he
    | ok c =>
      rw [hc] at he
      obtain ⟨c1, c2, l', rfl, c4⟩ := checkpoints_out hc hwv hcp
      simp only [Except.ok.injEq] at he
      have o := op_names
      have hbd : baseDict ⟨ascii "VIEW_CHANGE", F⟩ = (OP, .str (ascii "VIEW_CHANGE")) :: F := rfl
      rw [hbd, setItem_cons (fun h => o.2.1 h), setItem_cons (fun h => o.2.2.1 h), setItem_cons (fun h => o.2.2.2.1 h)] at he
      obtain ⟨n1, n2, n3, _⟩ := vc_names
      let G := setItem (setItem (setItem F (ascii "checkpoints") (.list l')) (ascii "prepared") (bidsDict p))
        (ascii "preprepared") (bidsDict q)
      have hG : G = setItem (setItem (setItem F (ascii "checkpoints") (.list l')) (ascii "prepared") (bidsDict p))
        (ascii "preprepared") (bidsDict q) := rfl
      have hwG : WF (.dict G) := wf_setItem (wf_setItem (wf_setItem h8 c2) (wf_bids ((wf_dict h8).2 _ (field_mem hp))))
        (wf_bids ((wf_dict h8).2 _ (field_mem hq)))
      have f1 : Field G (ascii "checkpoints") (.list l') :=
        (field_setItem_ne n2 _ _).2 ((field_setItem_ne n1 _ _).2 (field_setItem hv))
      have f2 : Field G (ascii "prepared") (bidsDict p) :=
        (field_setItem_ne n3 _ _).2 (field_setItem ((field_setItem_ne n1.symm _ _).2 hp))
      have f3 : Field G (ascii "preprepared") (bidsDict q) :=
        field_setItem ((field_setItem_ne n3.symm _ _).2 ((field_setItem_ne n2.symm _ _).2 hq))
      refine hgo G hwG ?_ ?_ ?_ he.symm ?_
      · rw [hG, setItem_keys, setItem_keys, setItem_keys]; exact h9
      · exact hasForm_set (hasForm_set (hasForm_set h11 (vc_checkpoints ⟨l', rfl⟩)) (vc_prepared (bids_form hpf)))
          (vc_preprepared (bids_form hqf))
      · refine ⟨nofun, fun _ l'' hl'' => ?_, nofun, nofun⟩
        cases field_unique f1 hl''
        exact c4
      · rw [asDict_cases _ hty, if_pos rfl]
        unfold viewChangeDict
        rw [show get (⟨ascii "VIEW_CHANGE", G⟩ : Msg).fields (ascii "checkpoints") = _ from get_field f1,
          show get (⟨ascii "VIEW_CHANGE", G⟩ : Msg).fields (ascii "prepared") = _ from get_field f2,
          show get (⟨ascii "VIEW_CHANGE", G⟩ : Msg).fields (ascii "preprepared") = _ from get_field f3, c1]
        simp only [bids_again]
        have hbd : baseDict ⟨ascii "VIEW_CHANGE", G⟩ = (OP, .str (ascii "VIEW_CHANGE")) :: G := rfl
        rw [hbd, setItem_cons (fun h => o.2.1 h), setItem_cons (fun h => o.2.2.1 h),
          setItem_cons (fun h => o.2.2.2.1 h), setItem_same (wf_dict hwG).1 f1, setItem_same (wf_dict hwG).1 f2,
          setItem_same (wf_dict hwG).1 f3, ← he]
  · by_cases hnv : k = "NEW_VIEW"
    · subst hnv
      obtain ⟨_, rfl⟩ := h6 _ _ (nv_mem env) rfl
      obtain ⟨v, hv, _⟩ := need h11 (show must "checkpoint" Spec.Anything ∈ nvTable by simp [nvTable])
      obtain ⟨p, hp, hpf⟩ := need h11 (show must "batches" (Spec.ListOf Spec.BatchId) ∈ nvTable by simp [nvTable])
      rw [asDict_cases _ hty, if_neg hvc, if_pos rfl] at he
      unfold newViewDict at he
      rw [show get (⟨ascii "NEW_VIEW", F⟩ : Msg).fields (ascii "checkpoint") = v from get_field hv,
        show get (⟨ascii "NEW_VIEW", F⟩ : Msg).fields (ascii "batches") = p from get_field hp] at he
      cases v with
      | dict c =>
        simp only [Except.ok.injEq] at he
        have o := op_names
        have hbd : baseDict ⟨ascii "NEW_VIEW", F⟩ = (OP, .str (ascii "NEW_VIEW")) :: F := rfl
        rw [hbd, setItem_cons (fun h => o.2.2.2.2.1 h), setItem_cons (fun h => o.2.2.2.2.2 h)] at he
        have n4 := vc_names.2.2.2
        let G := setItem (setItem F (ascii "checkpoint") (.dict (cpOut c))) (ascii "batches") (bidsDict p)
        have hG : G = setItem (setItem F (ascii "checkpoint") (.dict (cpOut c))) (ascii "batches") (bidsDict p) := rfl
        have hwG : WF (.dict G) := wf_setItem (wf_setItem h8 (wf_cpOut ((wf_dict h8).2 _ (field_mem hv))))
          (wf_bids ((wf_dict h8).2 _ (field_mem hp)))
        have f1 : Field G (ascii "checkpoint") (.dict (cpOut c)) := (field_setItem_ne n4 _ _).2 (field_setItem hv)
        have f2 : Field G (ascii "batches") (bidsDict p) := field_setItem ((field_setItem_ne n4.symm _ _).2 hp)
        refine hgo G hwG ?_ ?_ ?_ he.symm ?_
        · rw [hG, setItem_keys, setItem_keys]; exact h9
        · exact hasForm_set (hasForm_set h11 (nv_checkpoint _)) (nv_batches (bids_form hpf))
        · refine ⟨nofun, nofun, fun _ c' hc' => ?_, nofun⟩
          cases field_unique f1 hc'
          exact cp_form (h12.2.2.1 rfl c hv)
        · rw [asDict_cases _ hty, if_neg hvc, if_pos rfl]
          unfold newViewDict
          rw [show get (⟨ascii "NEW_VIEW", G⟩ : Msg).fields (ascii "checkpoint") = _ from get_field f1,
            show get (⟨ascii "NEW_VIEW", G⟩ : Msg).fields (ascii "batches") = _ from get_field f2]
          simp only [bids_again]
          have hbd : baseDict ⟨ascii "NEW_VIEW", G⟩ = (OP, .str (ascii "NEW_VIEW")) :: G := rfl
          have hcd : checkpointDict (cpOut c) = .dict (cpOut c) := congrArg Val.dict (cpOut_again c)
          rw [hbd, setItem_cons (fun h => o.2.2.2.2.1 h), setItem_cons (fun h => o.2.2.2.2.2 h), hcd,
            setItem_same (wf_dict hwG).1 f1, setItem_same (wf_dict hwG).1 f2, ← he]
          rfl
      | _ => cases he
    · rw [asDict_cases _ hty, if_neg hvc, if_neg hnv] at he
      cases he
      exact hgo F h8 h9 h11 h12 rfl (by rw [asDict_cases _ hty, if_neg hvc, if_neg hnv])

end Verif.Schema
