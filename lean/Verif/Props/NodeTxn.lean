import Verif.Spec.NodeTxn
/-!
# The nodes of a pool after any NODE transactions (C50, C72, C73)
-/
namespace Verif.Props
open Verif Verif.NodeTxn Verif.Spec.NodeTxn

theorem nt_get?_merge (d data : Rec) (k : Field) : (merge d data).get? k = (data.get? k).or (d.get? k) := by
  unfold merge
  induction data with
  | nil => rfl
  | cons e es ih =>
    simp only [List.foldr_cons, Dict.get?_set, Dict.get?_cons, ih]
    split <;> rfl

theorem conflictLoop_none {data : Rec} {u : Option Bytes} {l : List (Bytes × Rec)} (h : conflictLoop data u l = none) :
    ∀ e ∈ l, u ≠ some e.1 → conflictWith data e.2 = none := by
  induction l with
  | nil => intro e he; simp at he
  | cons a l ih =>
    intro e he hu
    unfold conflictLoop at h
    split at h
    · next h1 =>
      rcases List.mem_cons.1 he with he | he
      · subst he; exact absurd h1 hu
      · exact ih h e he hu
    · cases hc : conflictWith data a.2 with
      | some x => rw [hc] at h; cases h
      | none =>
        rw [hc] at h
        rcases List.mem_cons.1 he with he | he
        · subst he; exact hc
        · exact ih h e he hu

theorem conflictWith_none {data other : Rec} (h : conflictWith data other = none) :
    data.get? .alias ≠ other.get? .alias ∧ nodeAddr data ≠ nodeAddr other ∧ clientAddr data ≠ clientAddr other := by
  unfold conflictWith at h
  split at h
  · cases h
  · next h1 =>
    split at h
    · cases h
    · next h2 =>
      split at h
      · cases h
      · next h3 => exact ⟨h1, h2, h3⟩

theorem distinct_set {α : Type} {p : Pool} {f : Rec → α} (h : Distinct p f) {d : Bytes} {r : Rec}
    (hn : ∀ b rb, p.get? b = some rb → b ≠ d → f r ≠ f rb) : Distinct (p.set d r) f := by
  intro a b ra rb ha hb e
  rw [Dict.get?_set] at ha hb
  split at ha <;> split at hb
  · next h1 h2 => rw [← h1, ← h2]
  · next h1 h2 => cases ha; exact absurd e (hn b rb hb (fun h3 => h2 h3.symm))
  · next h1 h2 => cases hb; exact absurd e.symm (hn a ra ha (fun h3 => h1 h3.symm))
  · exact h a b ra rb ha hb e

/-- What passes the checks, in the case of a new node. -/
structure Added (env : Env) (p : Pool) (r : Req) : Prop where
  absent : p.get? r.dest = none
  full : ∀ f ∈ haFields ++ [Field.alias], ∃ v, r.data.get? f = some v
  noNode : stewardHasNode p r.sender = false
  differ : nodeAddr r.data ≠ clientAddr r.data
  apart : ∀ b rb, p.get? b = some rb →
    r.data.get? .alias ≠ rb.get? .alias ∧ nodeAddr r.data ≠ nodeAddr rb ∧ clientAddr r.data ≠ clientAddr rb

/-- What passes the checks, in the case of a node that is there. -/
structure Updated (env : Env) (p : Pool) (r : Req) (old : Rec) : Prop where
  present : p.get? r.dest = some old
  sameAlias : r.data.get? .alias = old.get? .alias
  ha : (∀ f ∈ haFields, r.data.get? f = none) ∨
    (∀ f ∈ haFields, ∃ v, r.data.get? f = some v) ∧ nodeAddr r.data ≠ clientAddr r.data
  apart : ∀ b rb, p.get? b = some rb → b ≠ r.dest → nodeAddr r.data ≠ nodeAddr rb ∧ clientAddr r.data ≠ clientAddr rb

theorem dataError_none {data : Rec} {sk : Bool} (h : dataError data sk = none) :
    (sk = false → ∀ f ∈ haFields ++ [Field.alias], ∃ v, data.get? f = some v) ∧
    ((∀ f ∈ haFields, ∃ v, data.get? f = some v) → nodeAddr data ≠ clientAddr data) := by
  unfold dataError at h
  split at h
  · cases h
  · next h1 =>
    split at h
    · cases h
    · next h2 =>
      refine ⟨fun hs f hf => ?_, fun hall e => h2 ?_⟩
      · subst hs
        simp only [Bool.not_false, Bool.true_and, Bool.not_eq_true', Bool.not_eq_false, List.all_eq_true] at h1
        exact (Dict.has_iff _ _).1 (h1 f hf)
      · obtain ⟨a, ha⟩ := hall .nodeIp (by simp [haFields])
        obtain ⟨b, hb⟩ := hall .nodePort (by simp [haFields])
        obtain ⟨c, hc⟩ := hall .clientIp (by simp [haFields])
        obtain ⟨d, hd⟩ := hall .clientPort (by simp [haFields])
        unfold nodeAddr clientAddr at e
        rw [ha, hb, hc, hd] at e ⊢
        simpa using e

theorem schemaOk_iff {env : Env} {data : Rec} (h : schemaOk env data = true) :
    (∃ v, data.get? .alias = some v) ∧ (∀ e ∈ data, fieldOk env e = true) ∧
    ((∀ f ∈ haFields, data.get? f = none) ∨ (∀ f ∈ haFields, ∃ v, data.get? f = some v)) := by
  unfold schemaOk at h
  rw [Bool.and_eq_true, Bool.and_eq_true] at h
  refine ⟨(Dict.has_iff _ _).1 h.1.1, List.all_eq_true.1 h.1.2, ?_⟩
  rw [Bool.or_eq_true] at h
  rcases h.2 with h | h
  · refine .inl fun f hf => ?_
    rw [Bool.not_eq_true', List.any_eq_false] at h
    exact (Dict.has_false_iff _ _).1 (by simpa using h f hf)
  · exact .inr fun f hf => (Dict.has_iff _ _).1 (List.all_eq_true.1 h f hf)

theorem nt_check_none {env : Env} {p : Pool} {r : Req} (h : check env p r = none) :
    schemaOk env r.data = true ∧ staticValidation env r = none ∧ dynamicValidation p r = none := by
  unfold check at h
  split at h
  · cases h
  · next h1 =>
    cases hs : staticValidation env r with
    | some e => rw [hs] at h; cases h
    | none => rw [hs] at h; exact ⟨by simpa using h1, rfl, h⟩

theorem getRec_nil {p : Pool} (hu : Unique p) {d : Bytes} (h : getRec p d = []) : p.get? d = none := by
  cases hg : p.get? d with
  | none => rfl
  | some r =>
    unfold getRec at h
    rw [hg] at h
    obtain ⟨v, hv⟩ := hu.complete d r hg .alias (by simp)
    rw [Option.getD_some] at h
    subst h; cases hv

theorem nt_passes {env : Env} {p : Pool} {r : Req} (hu : Unique p) (h : check env p r = none) :
    Added env p r ∨ ∃ old, Updated env p r old := by
  obtain ⟨hs, _, hd⟩ := nt_check_none h
  obtain ⟨_, _, hha⟩ := schemaOk_iff hs
  unfold dynamicValidation at hd
  split at hd
  · next hne =>
    right
    cases hg : p.get? r.dest with
    | none => exact absurd (by unfold getRec; rw [hg]; rfl) hne
    | some old =>
      refine ⟨old, ?_⟩
      have hold : getRec p r.dest = old := by unfold getRec; rw [hg]; rfl
      unfold updateError at hd
      cases he : dataError r.data true with
      | some e => rw [he] at hd; cases hd
      | none =>
        rw [he] at hd
        simp only at hd
        split at hd
        · cases hd
        · unfold conflicting at hd
          simp only [ne_eq] at hd
          split at hd
          · cases hd
          · next h3 =>
            refine ⟨hg, ?_, ?_, fun b rb hb hne2 => ?_⟩
            · rw [hold] at h3; exact (Classical.not_not.1 h3).symm
            · rcases hha with hha | hha
              · exact .inl hha
              · exact .inr ⟨hha, (dataError_none he).2 hha⟩
            · have := conflictWith_none (conflictLoop_none hd (b, rb) (Dict.mem_of_get? hb)
                (fun h5 => hne2 (Option.some.inj h5).symm))
              exact this.2
  · next hne =>
    left
    have habs := getRec_nil hu (Classical.not_not.1 hne)
    unfold addError at hd
    cases he : dataError r.data false with
    | some e => rw [he] at hd; cases hd
    | none =>
      rw [he] at hd
      simp only at hd
      split at hd
      · cases hd
      · next h3 =>
        have hfull := (dataError_none he).1 rfl
        refine ⟨habs, hfull, by simpa using h3, (dataError_none he).2 fun f hf => hfull f (by simp [hf]),
          fun b rb hb => ?_⟩
        exact conflictWith_none (conflictLoop_none hd (b, rb) (Dict.mem_of_get? hb) (by simp))

theorem newRec_added {env : Env} {p : Pool} {r : Req} (h : Added env p r) (f : Field) :
    (newRec p r).get? f = (r.data.get? f).or (if f = .identifier then some (recorded r) else none) := by
  unfold newRec
  have : getRec p r.dest = [] := by unfold getRec; rw [h.absent]; rfl
  rw [this, if_pos rfl, nt_get?_merge, Dict.get?_cons, Dict.get?_nil]
  congr 1
  by_cases e : f = .identifier
  · subst e; rfl
  · rw [if_neg e, if_neg (fun h => e h.symm)]

theorem newRec_updated {env : Env} {p : Pool} {r : Req} {old : Rec} (hu : Unique p) (h : Updated env p r old) (f : Field) :
    (newRec p r).get? f = (r.data.get? f).or (old.get? f) := by
  unfold newRec
  have h1 : getRec p r.dest = old := by unfold getRec; rw [h.present]; rfl
  have h2 : old ≠ [] := by
    intro e
    obtain ⟨v, hv⟩ := hu.complete _ _ h.present .alias (by simp)
    subst e; cases hv
  rw [h1, if_neg h2, nt_get?_merge]

theorem newRec_added_full {env : Env} {p : Pool} {r : Req} (h : Added env p r) :
    ∀ f ∈ haFields ++ [Field.alias], (newRec p r).get? f = r.data.get? f := by
  intro f hf
  obtain ⟨v, hv⟩ := h.full f hf
  rw [newRec_added h, hv]; rfl

theorem nodeAddr_congr {a b : Rec} (h : ∀ f ∈ haFields, a.get? f = b.get? f) :
    nodeAddr a = nodeAddr b ∧ clientAddr a = clientAddr b := by
  unfold nodeAddr clientAddr
  rw [h .nodeIp (by simp [haFields]), h .nodePort (by simp [haFields]), h .clientIp (by simp [haFields]),
    h .clientPort (by simp [haFields])]
  exact ⟨rfl, rfl⟩

theorem newRec_addr {env : Env} {p : Pool} {r : Req} {old : Rec} (hu : Unique p) (h : Updated env p r old) :
    (nodeAddr (newRec p r) = nodeAddr old ∧ clientAddr (newRec p r) = clientAddr old) ∨
    (nodeAddr (newRec p r) = nodeAddr r.data ∧ clientAddr (newRec p r) = clientAddr r.data ∧
      nodeAddr r.data ≠ clientAddr r.data) := by
  rcases h.ha with h1 | ⟨h1, h2⟩
  · refine .inl (nodeAddr_congr fun f hf => ?_)
    rw [newRec_updated hu h, h1 f hf]; rfl
  · have := nodeAddr_congr (a := newRec p r) (b := r.data) fun f hf => by
      obtain ⟨v, hv⟩ := h1 f hf
      rw [newRec_updated hu h, hv]; rfl
    exact .inr ⟨this.1, this.2, h2⟩

theorem newRec_alias {env : Env} {p : Pool} {r : Req} {old : Rec} (hu : Unique p) (h : Updated env p r old) :
    (newRec p r).get? .alias = old.get? .alias := by
  rw [newRec_updated hu h, h.sameAlias]
  cases old.get? .alias <;> rfl

theorem unique_step {env : Env} {p : Pool} {r : Req} (hu : Unique p) (h : check env p r = none) :
    Unique (updateState p r) := by
  unfold updateState
  rcases nt_passes hu h with ha | ⟨old, ha⟩
  · have hf := newRec_added_full ha
    have hc := nodeAddr_congr (a := newRec p r) (b := r.data) fun f h => hf f (by simp [h])
    refine ⟨?_, distinct_set hu.alias fun b rb hb _ => ?_, distinct_set hu.nodeHa fun b rb hb _ => ?_,
      distinct_set hu.clientHa fun b rb hb _ => ?_, ?_⟩
    · intro a q hq f h1
      rw [Dict.get?_set] at hq
      split at hq
      · cases hq; rw [hf f h1]; exact ha.full f h1
      · exact hu.complete a q hq f h1
    · simp only [hf .alias (by simp)]; exact (ha.apart b rb hb).1
    · rw [hc.1]; exact (ha.apart b rb hb).2.1
    · rw [hc.2]; exact (ha.apart b rb hb).2.2
    · intro a q hq
      rw [Dict.get?_set] at hq
      split at hq
      · cases hq; rw [hc.1, hc.2]; exact ha.differ
      · exact hu.differ a q hq
  · refine ⟨?_, distinct_set hu.alias fun b rb hb hne => ?_, distinct_set hu.nodeHa fun b rb hb hne => ?_,
      distinct_set hu.clientHa fun b rb hb hne => ?_, ?_⟩
    · intro a q hq f h1
      rw [Dict.get?_set] at hq
      split at hq
      · cases hq
        rw [newRec_updated hu ha]
        obtain ⟨v, hv⟩ := hu.complete _ _ ha.present f h1
        cases r.data.get? f with
        | some w => exact ⟨w, rfl⟩
        | none => exact ⟨v, hv⟩
      · exact hu.complete a q hq f h1
    · simp only [newRec_alias hu ha]
      exact fun e => hne (hu.alias _ _ _ _ ha.present hb e).symm
    · rcases newRec_addr hu ha with h1 | h1
      · rw [h1.1]; exact fun e => hne (hu.nodeHa _ _ _ _ ha.present hb e).symm
      · rw [h1.1]; exact (ha.apart b rb hb hne).1
    · rcases newRec_addr hu ha with h1 | h1
      · rw [h1.2]; exact fun e => hne (hu.clientHa _ _ _ _ ha.present hb e).symm
      · rw [h1.2.1]; exact (ha.apart b rb hb hne).2
    · intro a q hq
      rw [Dict.get?_set] at hq
      split at hq
      · cases hq
        rcases newRec_addr hu ha with h1 | h1
        · rw [h1.1, h1.2]; exact hu.differ _ _ ha.present
        · rw [h1.1, h1.2.1]; exact h1.2.2
      · exact hu.differ a q hq

/-- All states of a history have a property. -/
def AllStates (P : Pool → Prop) (s : State) : Prop := P s.cur ∧ ∀ p ∈ s.past, P p

theorem back_all {P : Pool → Prop} (n : Nat) (p : Pool) (l : List Pool) (h : P p ∧ ∀ q ∈ l, P q) :
    AllStates P (back n p l) := by
  induction n generalizing p l with
  | zero => exact h
  | succ n ih =>
    cases l with
    | nil => exact h
    | cons q l => exact ih q l ⟨h.2 q List.mem_cons_self, fun x hx => h.2 x (List.mem_cons_of_mem _ hx)⟩

/-- A property kept by accepted requests holds throughout. -/
theorem nt_run_all {env : Env} {P : Pool → Prop} {evs : List Ev}
    (hstep : ∀ p r, Ev.request r ∈ evs → P p → check env p r = none → P (updateState p r))
    {s : State} (h : AllStates P s) : AllStates P (run env s evs) := by
  induction evs generalizing s with
  | nil => exact h
  | cons e evs ih =>
    refine ih (fun p r hr => hstep p r (List.mem_cons_of_mem _ hr)) ?_
    cases e with
    | request r =>
      unfold step
      simp only
      split
      · next hc =>
        refine ⟨hstep _ r List.mem_cons_self h.1 hc, fun p hp => ?_⟩
        rcases List.mem_cons.1 hp with hp | hp
        · subst hp; exact h.1
        · exact h.2 p hp
      · exact h
    | revert n => exact back_all n _ _ h

/-- **C50**, names and addresses. After any requests and reverts, from a genesis with
unique names and addresses, the names and addresses of all nodes are there and
unique. Addresses are compared as they are spelled. -/
theorem node_unique (env : Env) (genesis : Pool) (hg : Unique genesis) (evs : List Ev) :
    Unique (run env ⟨genesis, []⟩ evs).cur :=
  (nt_run_all (P := Unique) (fun _ _ _ hp hc => unique_step hp hc) ⟨hg, by simp⟩).1

theorem owner_step {env : Env} {p : Pool} {r : Req} (hu : Unique p) (ho : OnePerSteward p)
    (hr : r.named = true ∧ r.data.get? .identifier = none) (h : check env p r = none) : OnePerSteward (updateState p r) := by
  unfold updateState
  rcases nt_passes hu h with ha | ⟨old, ha⟩
  · have hi : (newRec p r).get? .identifier = some (.str r.sender) := by
      rw [newRec_added ha, hr.2]; unfold recorded; rw [hr.1]; rfl
    refine ⟨?_, distinct_set ho.distinct fun b rb hb _ e => ?_⟩
    · intro a q hq
      rw [Dict.get?_set] at hq
      split at hq
      · cases hq; exact ⟨_, hi⟩
      · exact ho.recorded a q hq
    · have h1 := ha.noNode
      unfold stewardHasNode at h1
      rw [List.any_eq_false] at h1
      have h2 := h1 (b, rb) (Dict.mem_of_get? hb)
      simp only at e h2
      rw [hi] at e
      simp [← e] at h2
  · have hi : (newRec p r).get? .identifier = old.get? .identifier := by rw [newRec_updated hu ha, hr.2]; rfl
    refine ⟨?_, distinct_set ho.distinct fun b rb hb hne e => ?_⟩
    · intro a q hq
      rw [Dict.get?_set] at hq
      split at hq
      · cases hq; rw [hi]; exact ho.recorded _ _ ha.present
      · exact ho.recorded a q hq
    · simp only [hi] at e
      exact hne (ho.distinct _ _ _ _ ha.present hb e).symm

/-- **C50**, one node per steward, in part: if every request has the field `identifier`, and
none has such a field in its data. What is missing is shown by `steward_several_nodes` and
`steward_unnamed`. -/
theorem node_owner_partial (env : Env) (genesis : Pool) (hg : Unique genesis) (ho : OnePerSteward genesis) (evs : List Ev)
    (hr : ∀ r, Ev.request r ∈ evs → r.named = true ∧ r.data.get? .identifier = none) :
    OnePerSteward (run env ⟨genesis, []⟩ evs).cur :=
  (nt_run_all (P := fun p => Unique p ∧ OnePerSteward p)
    (fun _ r hm hp hc => ⟨unique_step hp.1 hc, owner_step hp.1 hp.2 (hr r hm) hc⟩) ⟨⟨hg, ho⟩, by simp⟩).1.2

/-- **C72**, in part: a node that is there stays there with its name, whatever is
requested later. -/
theorem node_name_kept (env : Env) (p : Pool) (hg : Unique p) (rs : List Req) (a : Bytes) (r : Rec) (h : p.get? a = some r) :
    ∃ r', (run env ⟨p, []⟩ (rs.map .request)).cur.get? a = some r' ∧ r'.get? .alias = r.get? .alias := by
  suffices ∀ (past : List Pool) (q : Pool), Unique q → (∃ r', q.get? a = some r' ∧ r'.get? .alias = r.get? .alias) →
      ∃ r', (run env ⟨q, past⟩ (rs.map .request)).cur.get? a = some r' ∧ r'.get? .alias = r.get? .alias from
    this [] p hg ⟨r, h, rfl⟩
  clear h hg
  induction rs with
  | nil => intro past q _ h; exact h
  | cons x rs ih =>
    intro past q hu h
    simp only [List.map_cons]
    show ∃ r', (run env (step env ⟨q, past⟩ (.request x)) (rs.map .request)).cur.get? a = some r' ∧ _
    unfold step
    simp only
    split
    · next hc =>
      refine ih _ _ (unique_step hu hc) ?_
      obtain ⟨r', h1, h2⟩ := h
      unfold updateState
      rw [Dict.get?_set]
      split
      · next he =>
        subst he
        refine ⟨_, rfl, ?_⟩
        rcases nt_passes hu hc with ha | ⟨old, ha⟩
        · rw [ha.absent] at h1; cases h1
        · rw [newRec_alias hu ha, ← h2]
          have := ha.present
          rw [h1] at this; cases this; rfl
      · exact ⟨r', h1, h2⟩
    · exact ih _ _ hu h

/-- **C72**, in part: and with its recorded steward, if no request has a field
`identifier` in its data. -/
theorem node_owner_kept_partial (env : Env) (p : Pool) (hg : Unique p) (rs : List Req)
    (hr : ∀ x ∈ rs, x.data.get? .identifier = none) (a : Bytes) (r : Rec) (h : p.get? a = some r) :
    ∃ r', (run env ⟨p, []⟩ (rs.map .request)).cur.get? a = some r' ∧ r'.get? .identifier = r.get? .identifier := by
  suffices ∀ (past : List Pool) (q : Pool), Unique q →
      (∃ r', q.get? a = some r' ∧ r'.get? .identifier = r.get? .identifier) →
      ∃ r', (run env ⟨q, past⟩ (rs.map .request)).cur.get? a = some r' ∧ r'.get? .identifier = r.get? .identifier from
    this [] p hg ⟨r, h, rfl⟩
  clear h hg
  induction rs with
  | nil => intro past q _ h; exact h
  | cons x rs ih =>
    have ih := ih fun y hy => hr y (List.mem_cons_of_mem _ hy)
    intro past q hu h
    simp only [List.map_cons]
    show ∃ r', (run env (step env ⟨q, past⟩ (.request x)) (rs.map .request)).cur.get? a = some r' ∧ _
    unfold step
    simp only
    split
    · next hc =>
      refine ih _ _ (unique_step hu hc) ?_
      obtain ⟨r', h1, h2⟩ := h
      unfold updateState
      rw [Dict.get?_set]
      split
      · next he =>
        subst he
        refine ⟨_, rfl, ?_⟩
        rcases nt_passes hu hc with ha | ⟨old, ha⟩
        · rw [ha.absent] at h1; cases h1
        · rw [newRec_updated hu ha, hr x List.mem_cons_self, ← h2]
          have := ha.present
          rw [h1] at this; cases this; rfl
      · exact ⟨r', h1, h2⟩
    · exact ih _ _ hu h

/-- **C72**, negation: whether a node is changed does not depend on who asks. -/
theorem node_update_by_anyone (env : Env) (p : Pool) (r : Req) (old : Rec) (hp : p.get? r.dest = some old) (ho : old ≠ [])
    (anyone : Bytes) (named : Bool) : check env p { r with sender := anyone, named := named } = check env p r ∧
      updateState p { r with sender := anyone, named := named } = updateState p r := by
  have h1 : getRec p r.dest = old := by unfold getRec; rw [hp]; rfl
  refine ⟨?_, ?_⟩
  · unfold check staticValidation dynamicValidation
    simp only [h1, ne_eq, ho, not_false_eq_true, if_true]
    rfl
  · unfold updateState newRec
    simp only [h1, ho, if_false]

theorem bls_static {env : Env} {verify : Bytes → Bytes → Bool} (hv : env.verifyPop = some verify) {k p : Option Fv}
    (h : blsError env k p = none) :
    k = none ∧ p = none ∨ ∃ key proof, k = some (.str key) ∧ p = some (.str proof) ∧ verify proof key = true := by
  unfold blsError at h
  split at h
  · exact .inl ⟨rfl, rfl⟩
  · cases h
  · cases h
  · next key proof =>
    split at h
    · next h1 => unfold verifyProof at h1; rw [hv] at h1; exact .inr ⟨key, proof, rfl, rfl, h1⟩
    · cases h
  · cases h

/-- **C73**. With a verifier, from a genesis where this is so, after any requests and
reverts every BLS key is recorded with a proof of possession that verifies. -/
theorem node_keys_proved (env : Env) (verify : Bytes → Bytes → Bool) (hv : env.verifyPop = some verify) (genesis : Pool)
    (hg : Unique genesis) (hk : KeysProved verify genesis) (evs : List Ev) :
    KeysProved verify (run env ⟨genesis, []⟩ evs).cur := by
  refine (nt_run_all (P := fun p => Unique p ∧ KeysProved verify p)
    (fun p r _ hp hc => ⟨unique_step hp.1 hc, ?_⟩) ⟨⟨hg, hk⟩, by simp⟩).1.2
  intro a q v hq hb
  unfold updateState at hq
  rw [Dict.get?_set] at hq
  split at hq
  · cases hq
    have hs := (nt_check_none hc).2.1
    unfold staticValidation at hs
    split at hs
    · cases hs
    · split at hs
      · cases hs
      · rcases nt_passes hp.1 hc with ha | ⟨old, ha⟩
        · rw [newRec_added ha] at hb
          simp only [newRec_added ha]
          rcases bls_static hv hs with ⟨h1, h2⟩ | ⟨key, proof, h1, h2, h3⟩
          · rw [h1] at hb; cases hb
          · rw [h1] at hb; cases hb
            exact ⟨key, proof, rfl, by rw [h2]; rfl, h3⟩
        · rw [newRec_updated hp.1 ha] at hb
          simp only [newRec_updated hp.1 ha]
          rcases bls_static hv hs with ⟨h1, h2⟩ | ⟨key, proof, h1, h2, h3⟩
          · rw [h1] at hb
            rw [h2]
            exact hp.2 _ _ _ ha.present hb
          · rw [h1] at hb; cases hb
            exact ⟨key, proof, rfl, by rw [h2]; rfl, h3⟩
  · exact hp.2 a q v hq hb

/-! ## Concrete histories -/

/-- An environment in which key 5 is proved by 6. -/
def ntEnv : Env := ⟨fun _ => true, fun _ => true, fun _ => true, fun a => !a.isEmpty, some fun proof key => proof = key.map (· + 1)⟩

/-- The data of a new node number `i`. -/
def ntData (i : UInt8) : Rec :=
  [(.nodeIp, .str [10, 0, 0, i]), (.nodePort, .int 9701), (.clientIp, .str [10, 0, 0, i]), (.clientPort, .int 9702),
   (.alias, .str [i])]

/-- Two nodes join, with BLS keys, and the first moves to another address; a third
is refused the address of the second, and a second node of the same steward is
refused. -/
def ntHistory : List Ev :=
  [.request ⟨[1], [11], none, ntData 1 ++ [(.blsKey, .str [5]), (.blsKeyProof, .str [6])], true⟩,
   .request ⟨[2], [12], none, ntData 2, true⟩,
   .request ⟨[1], [11], none, (ntData 7).dropLast ++ [(.alias, .str [1])], true⟩,
   .request ⟨[3], [13], none, ntData 2, true⟩,
   .request ⟨[2], [14], none, ntData 4, true⟩,
   .request ⟨[2], [12], none, [(.alias, .str [2]), (.services, .list [])], true⟩,
   .revert 1]

theorem unique_nil : Unique [] := ⟨by simp, by simp [Distinct], by simp [Distinct], by simp [Distinct], by simp⟩
theorem onePer_nil : OnePerSteward [] := ⟨by simp, by simp [Distinct]⟩

example : Unique (run ntEnv ⟨[], []⟩ ntHistory).cur := node_unique _ _ unique_nil _
example : OnePerSteward (run ntEnv ⟨[], []⟩ ntHistory).cur :=
  node_owner_partial _ _ unique_nil onePer_nil _ (by
    intro r hr
    simp only [ntHistory, List.mem_cons, Ev.request.injEq, reduceCtorEq, List.not_mem_nil, or_false] at hr
    rcases hr with rfl | rfl | rfl | rfl | rfl | rfl <;> decide)
example : (run ntEnv ⟨[], []⟩ ntHistory).cur.keys = [[11], [12]] ∧
    ((run ntEnv ⟨[], []⟩ ntHistory).cur.get? [11]).map nodeAddr = some (some (.str [10, 0, 0, 7]), some (.int 9701)) ∧
    (run ntEnv ⟨[], []⟩ ntHistory).past.length = 3 := by decide +kernel
example : KeysProved (fun proof key => proof = key.map (· + 1)) (run ntEnv ⟨[], []⟩ ntHistory).cur ∧
    ((run ntEnv ⟨[], []⟩ ntHistory).cur.get? [11]).bind (·.get? .blsKey) = some (.str [5]) :=
  ⟨node_keys_proved _ _ rfl _ unique_nil (by intro a r v h; cases h) _, by decide +kernel⟩
example : ∃ r', (run ntEnv ⟨(run ntEnv ⟨[], []⟩ ntHistory).cur, []⟩
    ([⟨[9], [11], none, [(.alias, .str [8])], true⟩, ⟨[9], [11], none, [(.alias, .str [1]), (.services, .list [])], true⟩].map .request)).cur.get?
      [11] = some r' ∧ r'.get? .alias = some (.str [1]) ∧ r'.get? .identifier = some (.str [1]) := by
  refine ⟨_, rfl, ?_⟩; decide +kernel

/-- **C50**, negation for stewards: the data of a request may name another owner, so one
steward adds two nodes, and by an update is even recorded as the steward of both. -/
theorem steward_several_nodes : ∃ (r1 r2 r3 : Req) (p : Pool), r1.sender = r2.sender ∧ r1.dest ≠ r2.dest ∧
    check ntEnv [] r1 = none ∧ check ntEnv (updateState [] r1) r2 = none ∧
    p = (run ntEnv ⟨[], []⟩ [.request r1, .request r2, .request r3]).cur ∧
    (p.get? r1.dest).bind (·.get? .identifier) = some (.str r1.sender) ∧
    (p.get? r2.dest).bind (·.get? .identifier) = some (.str r1.sender) ∧ ¬ OnePerSteward p := by
  refine ⟨⟨[1], [11], none, ntData 1 ++ [(.identifier, .str [99])], true⟩, ⟨[1], [12], none, ntData 2, true⟩,
    ⟨[1], [11], none, [(.alias, .str [1]), (.identifier, .str [1])], true⟩, _, by decide, by decide, by decide +kernel,
    by decide +kernel, rfl, by decide +kernel, by decide +kernel, fun h => ?_⟩
  have := h.distinct [11] [12] _ _ rfl rfl (by decide +kernel)
  exact absurd this (by decide)

theorem nt_set_new {α : Type} (d : Dict Bytes α) (k : Bytes) (v : α) (h : d.get? k = none) : d.set k v = d ++ [(k, v)] := by
  induction d with
  | nil => rfl
  | cons e d ih =>
    rw [Dict.get?_cons] at h
    split at h
    · cases h
    · next hne =>
      unfold Dict.set
      rw [if_neg hne, ih h]
      rfl

/-- A request that has no field `identifier` and puts none in the data is not remembered as
that of its sender: who had no node before it has none after it. -/
theorem steward_unnamed_free (p : Pool) (r : Req) (hn : r.named = false)
    (hd : r.data.get? .identifier = none) (hnew : p.get? r.dest = none) (s : Bytes) :
    stewardHasNode (updateState p r) s = stewardHasNode p s := by
  have hi : (newRec p r).get? .identifier = some .null := by
    unfold newRec
    have : getRec p r.dest = [] := by unfold getRec; rw [hnew]; rfl
    rw [this, if_pos rfl, nt_get?_merge, hd, Dict.get?_cons]
    unfold recorded; rw [hn]; rfl
  unfold stewardHasNode updateState
  rw [nt_set_new _ _ _ hnew, List.any_append]
  simp [hi]

/-- The `i`-th node of a steward. -/
def ntMany (i : Nat) : Req :=
  ⟨[1], List.replicate i 7, none,
   [(.nodeIp, .str (List.replicate i 0)), (.nodePort, .int 9701), (.clientIp, .str (List.replicate i 0)), (.clientPort, .int 9702),
    (.alias, .str (List.replicate (i + 1) 1))], false⟩
def ntManyPool (k : Nat) : Pool :=
  (List.range k).map (fun i => (List.replicate i 7, merge [(.identifier, .null)] (ntMany i).data))

theorem ntMany_absent (k j : Nat) (h : k ≤ j) : (ntManyPool k).get? (List.replicate j 7) = none := by
  cases hg : (ntManyPool k).get? (List.replicate j 7) with
  | none => rfl
  | some r =>
    have := Dict.mem_of_get? hg
    simp only [ntManyPool, List.mem_map, List.mem_range, Prod.mk.injEq] at this
    obtain ⟨i, hi, he, _⟩ := this
    have := congrArg List.length he
    simp at this
    omega

theorem nt_conflictLoop {data : Rec} {l : List (Bytes × Rec)} (h : ∀ e ∈ l, conflictWith data e.2 = none) :
    conflictLoop data none l = none := by
  induction l with
  | nil => rfl
  | cons e l ih =>
    unfold conflictLoop
    rw [if_neg (by simp), h e List.mem_cons_self]
    exact ih fun x hx => h x (List.mem_cons_of_mem _ hx)

theorem ntMany_ok (k : Nat) : check ntEnv (ntManyPool k) (ntMany k) = none := by
  have h1 : schemaOk ntEnv (ntMany k).data = true := rfl
  have h2 : staticValidation ntEnv (ntMany k) = none := rfl
  have h3 : getRec (ntManyPool k) (ntMany k).dest = [] := by
    unfold getRec
    rw [show (ntMany k).dest = List.replicate k 7 from rfl, ntMany_absent k k (Nat.le_refl k)]
    rfl
  have h4 : dataError (ntMany k).data false = none := by
    unfold dataError
    rw [if_neg (show ¬ ((!false && !(haFields ++ [Field.alias]).all fun f => Dict.has (ntMany k).data f) = true) from Bool.false_ne_true)]
    rw [if_neg]
    intro h
    simp [ntMany, Dict.get?_cons] at h
  have h5 : stewardHasNode (ntManyPool k) (ntMany k).sender = false := by
    unfold stewardHasNode ntManyPool
    rw [List.any_eq_false]
    intro e he
    obtain ⟨i, _, rfl⟩ := List.mem_map.1 he
    simp [nt_get?_merge, ntMany, Dict.get?_cons]
  have h6 : conflicting (ntManyPool k) (ntMany k).data none = none := by
    unfold conflicting ntManyPool
    refine nt_conflictLoop fun e he => ?_
    obtain ⟨i, hi, rfl⟩ := List.mem_map.1 he
    have hi := List.mem_range.1 hi
    have hb : (List.replicate (k + 1) (1 : UInt8)) ≠ List.replicate (i + 1) 1 := fun h => by
      have := congrArg List.length h; simp at this; omega
    unfold conflictWith
    rw [if_neg, if_neg, if_neg]
    · simp only [nt_get?_merge]; intro h
      simp [ntMany, Dict.get?_cons] at h
      omega
    · simp only [nt_get?_merge]; intro h
      simp [ntMany, Dict.get?_cons] at h
      omega
    · simp only [nt_get?_merge]; intro h
      simp only [ntMany, Dict.get?_cons] at h
      simp only [reduceCtorEq, if_false, if_true, Option.some_or, Option.some.injEq, Fv.str.injEq] at h
      exact hb h
  unfold check
  rw [h1, h2]
  simp only [Bool.not_true, Bool.false_eq_true, if_false]
  unfold dynamicValidation addError
  rw [h3, h4]
  simp only [ne_eq, not_true_eq_false, if_false]
  rw [h5, h6]
  rfl

theorem ntMany_step (k : Nat) : updateState (ntManyPool k) (ntMany k) = ntManyPool (k + 1) := by
  unfold updateState
  have hd : (ntManyPool k).get? (ntMany k).dest = none := ntMany_absent k k (Nat.le_refl k)
  rw [nt_set_new _ _ _ hd]
  unfold newRec
  have : getRec (ntManyPool k) (ntMany k).dest = [] := by unfold getRec; rw [hd]; rfl
  rw [this, if_pos rfl]
  unfold ntManyPool
  rw [List.range_succ, List.map_append]
  rfl

/-- **C50**, negation for stewards, without any field in the data: the sender of a request is
looked up by the names of those that signed it, but the record of the node has the field
`identifier` of the request. A steward that leaves the field out adds any number of nodes,
and none of them has a steward. -/
theorem steward_unnamed (k : Nat) : ∃ (steward : Bytes) (rs : List Req) (p : Pool),
    p = (run ntEnv ⟨[], []⟩ (rs.map .request)).cur ∧ p.keys.length = k ∧ p.keys.Nodup ∧
    (∀ r ∈ rs, r.sender = steward ∧ r.named = false ∧ r.data.get? .identifier = none) ∧
    ∀ a r, p.get? a = some r → r.get? .identifier = some .null := by
  refine ⟨[1], (List.range k).map ntMany, ntManyPool k, ?_, by simp [ntManyPool, Dict.keys], ?_, ?_, ?_⟩
  · suffices h : ∃ past, run ntEnv ⟨[], []⟩ (((List.range k).map ntMany).map .request) = ⟨ntManyPool k, past⟩ by
      obtain ⟨past, h⟩ := h; rw [h]
    induction k with
    | zero => exact ⟨[], rfl⟩
    | succ k ih =>
      obtain ⟨past, ih⟩ := ih
      refine ⟨ntManyPool k :: past, ?_⟩
      rw [List.range_succ, List.map_append, List.map_append]
      unfold run at ih ⊢
      rw [List.foldl_append, ih]
      show step ntEnv ⟨ntManyPool k, past⟩ (.request (ntMany k)) = _
      unfold step
      simp only
      rw [if_pos (ntMany_ok k), ntMany_step]
  · unfold Dict.keys ntManyPool
    rw [List.map_map]
    refine List.Pairwise.map _ ?_ List.nodup_range
    intro i j hij h
    have := congrArg List.length h
    simp at this
    exact hij this
  · intro r hr
    obtain ⟨i, _, rfl⟩ := List.mem_map.1 hr
    exact ⟨rfl, rfl, rfl⟩
  · intro a r h
    have := Dict.mem_of_get? h
    obtain ⟨i, _, he⟩ := List.mem_map.1 this
    cases he
    rw [nt_get?_merge]
    rfl

/-- **C72**, negation on a concrete pool: a sender that owns no node moves a node to
another address and takes it over. -/
theorem node_taken_over : ∃ (p : Pool) (r : Req), p = (run ntEnv ⟨[], []⟩ ntHistory).cur ∧
    stewardHasNode p r.sender = false ∧ (p.get? r.dest).bind (·.get? .identifier) = some (.str [1]) ∧
    check ntEnv p r = none ∧
    ((updateState p r).get? r.dest).map nodeAddr = some (some (.str [10, 0, 0, 66]), some (.int 9701)) ∧
    ((updateState p r).get? r.dest).bind (·.get? .identifier) = some (.str r.sender) :=
  ⟨_, ⟨[66], [11], none, (ntData 66).dropLast ++ [(.alias, .str [1]), (.identifier, .str [66])], true⟩, rfl, by decide +kernel,
    by decide +kernel, by decide +kernel, by decide +kernel, by decide +kernel⟩

/-- What **C73** does not say: two nodes can have the same BLS key, with the same proof. -/
theorem bls_key_shared : ∃ r1 r2 : Req, r1.dest ≠ r2.dest ∧
    let p := (run ntEnv ⟨[], []⟩ [.request r1, .request r2]).cur
    (p.get? r1.dest).bind (·.get? .blsKey) = some (.str [5]) ∧ (p.get? r2.dest).bind (·.get? .blsKey) = some (.str [5]) :=
  ⟨⟨[1], [11], none, ntData 1 ++ [(.blsKey, .str [5]), (.blsKeyProof, .str [6])], true⟩,
   ⟨[2], [12], none, ntData 2 ++ [(.blsKey, .str [5]), (.blsKeyProof, .str [6])], true⟩, by decide, by decide +kernel⟩

end Verif.Props
