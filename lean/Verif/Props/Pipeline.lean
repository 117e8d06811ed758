import Verif.Proofs.Pipeline
/-!
# C81: the uncommitted changes of a node are those of its pending batches
-/
namespace Verif.Props
open Verif.Pipeline Verif.Spec.Pipeline

/-- **C81 (part).** In every history of PRE-PREPAREs of an honest shape, own batches, orderings, executions, view
changes, catchup starts and checkpoints, in any order and with any outcome of the validation, as long as no batch is
ordered after its changes were reverted:
the ledgers, the states and the audit ledger hold the executed batches, the uncommitted parts hold the pending batches
in the order of acceptance, and nothing else; nothing raises; and executing commits the transactions of the accepted
batches, in the order of acceptance.
Missing: the full property is false, see the theorems below. -/
theorem pipeline_exact_partial {σ α : Type} [DecidableEq σ] (E : Env σ α) (base : Dbs σ α) (hb : Clean base)
    (evs : List (Event σ)) (hr : RegularHistory evs)
    (hs : ∀ k, Out.stale k ∉ (run E (start base) evs).2) :
    let n := (run E (start base) evs).1
    let log := (run E (start base) evs).2
    Exactly E.upd base n.db (done log) (pending log) ∧ Out.raised ∉ log ∧
      log.filterMap (fun o => match o with | .committed k ts => some (k, ts) | _ => none) =
        (done log).map (fun b => (b.key, b.txns)) := by
  obtain ⟨P1, P2, h1, h2, h3, h4⟩ := run_good E hb evs hr hs
  simp only
  refine ⟨?_, h3, h4⟩
  rw [h2]
  exact h1.m.exact

/-- Two databases with the same content. -/
def pl_same {σ α : Type} (a b : Dbs σ α) : Prop :=
  (∀ l, a.led l = b.led l) ∧ (∀ l, a.st l = b.st l) ∧ a.audCom = b.audCom ∧ a.audUnc = b.audUnc

theorem pl_same_of {σ α : Type} {upd : σ → Txn → σ} {base a b : Dbs σ α} {ex pe : List (Batch α)}
    (x : Exactly upd base a ex pe) (y : Exactly upd base b ex pe) : pl_same a b := by
  refine ⟨fun l => ?_, fun l => ?_, by rw [x.audit, y.audit], by rw [x.auditUnc, y.auditUnc]⟩
  · have h1 := x.ledger l
    have h2 := x.uncommitted l
    have h3 := y.ledger l
    have h4 := y.uncommitted l
    cases hA : a.led l; cases hB : b.led l
    rw [hA] at h1 h2; rw [hB] at h3 h4
    simp only at h1 h2 h3 h4
    rw [h1, h2, h3, h4]
  · have h1 := x.state l
    have h2 := x.head l
    have h3 := y.state l
    have h4 := y.head l
    cases hA : a.st l; cases hB : b.st l
    rw [hA] at h1 h2; rw [hB] at h3 h4
    simp only at h1 h2 h3 h4
    rw [h1, h2, h3, h4]

theorem pl_run_snoc {σ α : Type} [DecidableEq σ] (E : Env σ α) (n : Node σ α) (evs : List (Event σ)) (e : Event σ) :
    run E n (evs ++ [e]) = ((step E (run E n evs).1 e).1, (run E n evs).2 ++ (step E (run E n evs).1 e).2) := by
  simp [run, List.foldl_append]

/-- **C81 (part).** A PRE-PREPARE of an honest shape which is refused leaves no trace in the databases. -/
theorem refused_no_trace_partial {σ α : Type} [DecidableEq σ] (E : Env σ α) (base : Dbs σ α) (hb : Clean base)
    (evs : List (Event σ)) (hr : RegularHistory evs) (pp : PP σ) (hp : Regular pp)
    (hs : ∀ k, Out.stale k ∉ (run E (start base) evs).2)
    (href : Out.refused pp.key ∈ (step E (run E (start base) evs).1 (.preprepare pp)).2) :
    pl_same (step E (run E (start base) evs).1 (.preprepare pp)).1.db (run E (start base) evs).1.db := by
  obtain ⟨P1, P2, i, h2, h3, h4⟩ := run_good E hb evs hr hs
  obtain ⟨ds, P1', P2', g1, g2, g3, g4⟩ := receive_good (pp := pp) i hp
  have hst : step E (run E (start base) evs).1 (.preprepare pp) = receive E (run E (start base) evs).1 pp := by
    simp [step, i.alive, stepLive]
  rw [hst] at href ⊢
  -- only a refusal is shown
  have hout : (receive E (run E (start base) evs).1 pp).2 = [.refused pp.key] := by
    obtain ⟨h0, hf, ha, hl, d, hd, hdn, hdr⟩ := hp
    revert href g3
    simp only [receive, applyPp, h0, ne_eq, not_true, if_false, hf, Bool.true_eq_false, hd]
    split
    · split
      · simp
      · unfold refuse
        split <;> simp
    · simp
  rw [hout] at g2 g4
  simp only [List.foldl_cons, List.foldl_nil, follow] at g2
  have e1 : ds = [] := by
    have := congrArg Prod.fst g2
    simpa using this
  subst e1
  have e2 := congrArg Prod.snd g2
  simp only at e2
  have x := g1.m.exact
  rw [← e2, List.append_nil] at x
  exact pl_same_of x i.m.exact

/-- **C81 (part).** When a catchup starts nothing is uncommitted any more (so the catchup of the audit ledger does not
raise). -/
theorem catchup_clean_partial {σ α : Type} [DecidableEq σ] (E : Env σ α) (base : Dbs σ α) (hb : Clean base)
    (evs : List (Event σ)) (hr : RegularHistory evs) (hs : ∀ k, Out.stale k ∉ (run E (start base) evs).2) :
    let n := (step E (run E (start base) evs).1 .catchup).1
    (∀ l, (n.db.led l).unc = []) ∧ (∀ l, (n.db.st l).head = (n.db.st l).com) ∧ n.db.audUnc = [] ∧ n.outbox = [] := by
  obtain ⟨P1, P2, i, _, _, _⟩ := run_good E hb evs hr hs
  obtain ⟨h1, _⟩ := catchup_good i
  have hst : step E (run E (start base) evs).1 .catchup = catchup E (run E (start base) evs).1 := by
    simp [step, i.alive, stepLive]
  simp only [hst]
  have x := h1.m.exact
  refine ⟨fun l => ?_, fun l => ?_, ?_, h1.box⟩
  · rw [x.uncommitted]; rfl
  · rw [x.head, x.state]; simp
  · rw [x.auditUnc]; rfl

/-- **C81 (part).** When a view change starts only the batches which are ordered and wait for their execution stay, in
the order in which they wait. -/
theorem view_change_partial {σ α : Type} [DecidableEq σ] (E : Env σ α) (base : Dbs σ α) (hb : Clean base)
    (evs : List (Event σ)) (hr : RegularHistory evs) (hs : ∀ k, Out.stale k ∉ (run E (start base) evs).2) :
    let log := (run E (start base) (evs ++ [.viewChange])).2
    (pending log).map (fun b => b.key) = (run E (start base) evs).1.outbox.map (fun pp => pp.key) := by
  obtain ⟨P1, P2, i, h2, _, _⟩ := run_good E hb evs hr hs
  obtain ⟨h1, hout⟩ := viewChange_good i
  have hst : step E (run E (start base) evs).1 .viewChange = viewChange (run E (start base) evs).1 := by
    simp [step, i.alive, stepLive]
  have hp : pending (run E (start base) (evs ++ [.viewChange])).2 = P1.map Prod.fst := by
    rw [pl_run_snoc, hst, hout]
    unfold pending
    rw [List.foldl_append]
    have e : List.foldl follow ([], []) (run E (start base) evs).2 =
        (done (run E (start base) evs).2, P1.map Prod.fst ++ P2.map Prod.fst) := by
      rw [← List.map_append, ← h2]; rfl
    rw [e, follow_reverts]
  simp only
  rw [hp, i.box]
  have hc := i.chain
  have key : ∀ (P : List (Batch α × PP σ)) (Q : List (Batch α × PP σ)) (pre : List (Batch α)), Chain E base pre (P ++ Q) →
      (P.map Prod.fst).map (fun b => b.key) = (P.map Prod.snd).map (fun pp => pp.key) := by
    intro P
    induction P with
    | nil => intro Q pre _; rfl
    | cons y P ih =>
      intro Q pre h
      simp only [List.map_cons]
      rw [ih Q _ h.2, h.1.key]
  exact key P1 P2 _ hc

/-- **C81 (part).** What is accepted is what the PRE-PREPARE says: requests of it in its order, with its time; their
number, the state root, the root of the ledger and the audit root (if there is one) are those of the databases with
this batch on top. -/
theorem accepted_as_said {σ α : Type} [DecidableEq σ] (E : Env σ α) (n : Node σ α) (pp : PP σ) (k : Key) (l : Nat)
    (ts : List Txn) (a : Option α) (h : Out.accepted k l ts a ∈ (step E n (.preprepare pp)).2) :
    k = pp.key ∧ l = pp.lid ∧ (ts.map (fun t => t.req)).Sublist pp.reqs ∧ (∀ t ∈ ts, t.time = pp.time) ∧
      ts.length + (pp.discarded.getD []).length = pp.reqs.length ∧
      pp.stateRoot = ((step E n (.preprepare pp)).1.db.st pp.lid).head ∧
      pp.txnRoot = E.rootL (((step E n (.preprepare pp)).1.db.led pp.lid).com ++
        ((step E n (.preprepare pp)).1.db.led pp.lid).unc) ∧
      (∀ r, pp.auditRoot = some r →
        r = E.rootA ((step E n (.preprepare pp)).1.db.audCom ++ (step E n (.preprepare pp)).1.db.audUnc)) := by
  have base : ∀ (rs : List Req) (db : Dbs σ α) (i : Nat),
      ((applyReqs E db pp.time rs i).2.1.map (fun t => t.req)).Sublist rs ∧
      (∀ t ∈ (applyReqs E db pp.time rs i).2.1, t.time = pp.time) ∧
      (applyReqs E db pp.time rs i).2.1.length + (applyReqs E db pp.time rs i).2.2.1.length = rs.length := by
    intro rs
    induction rs with
    | nil => intro db i; simp [applyReqs]
    | cons r rs ih =>
      intro db i
      simp only [applyReqs]
      cases E.verdict db r pp.time with
      | ok =>
        obtain ⟨h1, h2, h3⟩ := ih (applyReq E db r pp.time) (i + 1)
        refine ⟨by simpa using h1, ?_, by simp only [List.length_cons]; omega⟩
        intro t ht
        rcases List.mem_cons.1 ht with ht | ht
        · rw [ht]
        · exact h2 t ht
      | invalid =>
        obtain ⟨h1, h2, h3⟩ := ih db (i + 1)
        exact ⟨h1.cons _, h2, by simp only [List.length_cons]; omega⟩
      | suspicious =>
        obtain ⟨h1, h2, h3⟩ := ih db (i + 1)
        exact ⟨h1.cons _, h2, by simp only [List.length_cons]; omega⟩
  unfold step at h ⊢
  split at h
  · simp at h
  · rename_i hdead
    rw [if_neg hdead]
    simp only [stepLive, receive] at h ⊢
    split at h
    · rename_i hk
      rw [if_pos hk]
      simp only [applyPp] at h ⊢
      split at h
      · simp at h
      · rename_i h0
        rw [if_neg h0]
        split at h
        · simp at h
        · rename_i hf
          rw [if_neg hf]
          cases hd : pp.discarded with
          | none => simp [hd] at h
          | some d =>
            simp only [hd] at h ⊢
            split at h
            · rename_i hok
              rw [if_pos hok]
              simp only [List.mem_singleton, Out.accepted.injEq] at h
              obtain ⟨rfl, rfl, rfl, _⟩ := h
              obtain ⟨_, hok⟩ := hok
              simp only [applied, Bool.and_eq_true, decide_eq_true_eq, Bool.or_eq_true] at hok
              obtain ⟨⟨⟨hlen, hst⟩, htx⟩, hau⟩ := hok
              obtain ⟨b1, b2, b3⟩ := base pp.reqs n.db 0
              refine ⟨rfl, rfl, b1, b2, by simp only [Option.getD_some]; omega, hst, htx, ?_⟩
              intro r hr
              rcases hau with hau | hau
              · rw [hau] at hr; cases hr
              · rw [hau] at hr
                exact (Option.some.inj hr).symm
            · unfold refuse at h
              split at h <;> simp at h
    · simp at h

/-! ## What the full property would need and the code does not do -/

/-- **C81 (part).** A batch is not accepted when the validation of one of its requests, with those before it applied,
says that it was ordered before. -/
theorem accepted_none_ordered {σ α : Type} [DecidableEq σ] (E : Env σ α) (n : Node σ α) (pp : PP σ) (k : Key) (l : Nat)
    (ts : List Txn) (a : Option α) (h : Out.accepted k l ts a ∈ (step E n (.preprepare pp)).2)
    (pre post : List Req) (r : Req) (hs : pp.reqs = pre ++ r :: post) :
    E.verdict (applyReqs E n.db pp.time pre 0).1 r pp.time ≠ .suspicious := by
  have base : ∀ (pre : List Req) (db : Dbs σ α) (i j : Nat),
      (applyReqs E db pp.time (pre ++ r :: post) i).2.2.2 = false →
      E.verdict (applyReqs E db pp.time pre j).1 r pp.time ≠ .suspicious := by
    intro pre
    induction pre with
    | nil =>
      intro db i j h
      simp only [List.nil_append, applyReqs] at h ⊢
      intro hv
      simp [hv] at h
    | cons q pre ih =>
      intro db i j h
      simp only [List.cons_append, applyReqs] at h ⊢
      split <;> simp only [*] at h
      · exact ih _ _ _ h
      · exact ih _ _ _ h
      · simp at h
  unfold step at h
  split at h
  · simp at h
  · simp only [stepLive, receive] at h
    split at h
    · simp only [applyPp] at h
      split at h
      · simp at h
      · split at h
        · simp at h
        · split at h
          · simp at h
          · split at h
            · rename_i hok
              rw [hs] at hok
              exact base pre n.db 0 0 hok.1
            · unfold refuse at h
              split at h <;> simp at h
    · simp at h

/-- The sequence number `L` is the greatest of the last ordered batch and of the PRE-PREPAREs the node keeps. -/
def IsLastPp {σ α : Type} (n : Node σ α) (L : Nat) : Prop :=
  n.lastOrdered.seq ≤ L ∧ (∀ e ∈ n.pps, e.1.seq ≤ L) ∧ (L = n.lastOrdered.seq ∨ ∃ e ∈ n.pps, e.1.seq = L)

theorem lastPp_eq {σ α : Type} {n : Node σ α} {L : Nat} (h : IsLastPp n L) : lastPp n = L := by
  have key : ∀ (l : List Nat) (m : Nat), m ≤ l.foldl max m ∧ (∀ x ∈ l, x ≤ l.foldl max m) ∧
      (l.foldl max m = m ∨ l.foldl max m ∈ l) := by
    intro l
    induction l with
    | nil => intro m; simp
    | cons a l ih =>
      intro m
      obtain ⟨h1, h2, h3⟩ := ih (max m a)
      simp only [List.foldl_cons, List.mem_cons]
      refine ⟨by omega, ?_, ?_⟩
      · intro x hx
        rcases hx with hx | hx
        · omega
        · exact h2 x hx
      · rcases h3 with h3 | h3
        · by_cases e : a ≤ m
          · left; omega
          · right; left; omega
        · right; right; exact h3
  obtain ⟨h1, h2, h3⟩ := key (n.pps.map (fun e => e.1.seq)) n.lastOrdered.seq
  obtain ⟨g1, g2, g3⟩ := h
  unfold lastPp
  have a1 : (n.pps.map (fun e => e.1.seq)).foldl max n.lastOrdered.seq ≤ L := by
    rcases h3 with h3 | h3
    · omega
    · obtain ⟨e, he, h4⟩ := List.mem_map.1 h3
      have := g2 e he
      omega
  have a2 : L ≤ (n.pps.map (fun e => e.1.seq)).foldl max n.lastOrdered.seq := by
    rcases g3 with g3 | ⟨e, he, g3⟩
    · omega
    · have := h2 e.1.seq (List.mem_map.2 ⟨e, he, rfl⟩)
      omega
  omega

theorem consume_apply {σ α : Type} (E : Env σ α) (t : Nat) (q : List Req) : ∀ (db : Dbs σ α) (i : Nat),
    applyReqs E db t (consume E db t q i).2.2.1 i =
      ((consume E db t q i).1, (consume E db t q i).2.1, (consume E db t q i).2.2.2, false) := by
  induction q with
  | nil => intro db i; rfl
  | cons r q ih =>
    intro db i
    cases hv : E.verdict db r t with
    | ok => simp [consume, applyReqs, hv, ih]
    | invalid => simp [consume, applyReqs, hv, ih]
    | suspicious => simp [consume, hv, ih]

/-- **C81 (part).** The next batch an honest primary makes is accepted by a node with the same databases, in the same
view and with the same last batch; it applies the same transactions and ends with the same databases. -/
theorem primary_batch_accepted {σ α : Type} [DecidableEq σ] (E : Env σ α) (n m : Node σ α) (lid t : Nat)
    (q : List Req) (hn : n.dead = false) (hm : m.dead = false) (hdb : m.db = n.db) (hv : m.view = n.view)
    (hl : IsLastPp m n.lastPpSeq) :
    (step E m (.preprepare (makePp E n lid t q))).2 = (step E n (.create lid t q)).2 ∧
      (∃ k ts a, (step E n (.create lid t q)).2 = [.accepted k lid ts a]) ∧
      (step E m (.preprepare (makePp E n lid t q))).1.db = (step E n (.create lid t q)).1.db := by
  have hl' := lastPp_eq hl
  have hk : canProcess m (makePp E n lid t q).key = true := by
    obtain ⟨g1, g2, _⟩ := hl
    have : m.pps.has ⟨n.view, n.lastPpSeq + 1⟩ = false := by
      rw [Dict.has_false_iff]
      cases hg : m.pps.get? ⟨n.view, n.lastPpSeq + 1⟩ with
      | none => rfl
      | some v =>
        exact absurd (g2 _ (Dict.mem_of_get? hg)) (Nat.not_succ_le_self _)
    simp only [canProcess, makePp, hv, hl', this, Bool.and_eq_true, decide_eq_true_eq, Bool.or_eq_true,
      Bool.not_false, and_true]
    exact ⟨⟨⟨trivial, decide_eq_true (Nat.lt_succ_of_le g1)⟩, Nat.le_succ _⟩, .inr trivial⟩
  have hc := consume_apply E t (q.filter (fun r => r.lid = lid)) n.db 0
  simp only [step, hn, hm, Bool.false_eq_true, if_false, stepLive, receive, hk, if_true, applyPp]
  have h1 : (makePp E n lid t q).subSeqNo = 0 := rfl
  have h2 : (makePp E n lid t q).final = true := rfl
  have h3 : (makePp E n lid t q).discarded =
      some (consume E n.db t (q.filter (fun r => r.lid = lid)) 0).2.2.2 := rfl
  have h4 : applyReqs E m.db (makePp E n lid t q).time (makePp E n lid t q).reqs 0 =
      ((consume E n.db t (q.filter (fun r => r.lid = lid)) 0).1,
       (consume E n.db t (q.filter (fun r => r.lid = lid)) 0).2.1,
       (consume E n.db t (q.filter (fun r => r.lid = lid)) 0).2.2.2, false) := by
    rw [hdb]; exact hc
  have h5 : appliedDb E m.db (makePp E n lid t q) =
      postApply E (consume E n.db t (q.filter (fun r => r.lid = lid)) 0).1 ⟨n.view, n.lastPpSeq + 1⟩ lid t true := by
    unfold appliedDb; rw [h4]; rfl
  have h6 : applied E (appliedDb E m.db (makePp E n lid t q)) (makePp E n lid t q)
      (consume E n.db t (q.filter (fun r => r.lid = lid)) 0).2.2.2
      (consume E n.db t (q.filter (fun r => r.lid = lid)) 0).2.2.2 = true := by
    rw [h5]
    simp [applied, makePp]
  simp only [h1, h2, h3, h4, h6, ne_eq, not_true, if_false, if_true, and_self, Bool.true_eq_false, create]
  refine ⟨rfl, ⟨_, _, _, rfl⟩, ?_⟩
  show appliedDb E m.db (makePp E n lid t q) = _
  rw [h5]; rfl

theorem revertLoop_last {σ α : Type} (ks : List Key) : ∀ n : Node σ α, (revertLoop ks n).1.lastOrdered = n.lastOrdered := by
  induction ks with
  | nil => intro n; rfl
  | cons k ks ih =>
    intro n
    unfold revertLoop
    split
    · split
      · rfl
      · simp only
        split
        · rfl
        · rw [ih]
    · rfl

/-- **C81 (part).** When a view change started, the next batch is the one after the last ordered one. -/
theorem view_change_next {σ α : Type} [DecidableEq σ] (E : Env σ α) (n : Node σ α)
    (h : (step E n .viewChange).1.dead = false) :
    IsLastPp (step E n .viewChange).1 n.lastOrdered.seq := by
  cases hd : n.dead with
  | true => simp [step, hd] at h
  | false =>
    simp only [step, hd, Bool.false_eq_true, if_false, stepLive, viewChange] at h ⊢
    split
    · next e => rw [if_pos e] at h; rw [h] at e; simp at e
    · have := revertLoop_last (sortDesc n.batches.keys) n
      simp only [IsLastPp, revertUnordered, this]
      simp

/-- **Finding.** A PRE-PREPARE with a `sub_seq_no` other than zero, or which is not final, is refused, but its requests
stay applied and nothing remembers them: `batches` is as before. -/
theorem unfinished_leaves_trace {σ α : Type} [DecidableEq σ] (E : Env σ α) (n : Node σ α) (pp : PP σ)
    (ha : n.dead = false) (hk : canProcess n pp.key = true) (hu : pp.subSeqNo ≠ 0 ∨ pp.final = false) :
    (step E n (.preprepare pp)).2 = [.refused pp.key] ∧
      (step E n (.preprepare pp)).1 = { n with db := appliedDb E n.db pp } := by
  have hst : step E n (.preprepare pp) = receive E n pp := by simp [step, ha, stepLive]
  rw [hst]
  simp only [receive, hk, if_true, applyPp]
  by_cases h0 : pp.subSeqNo = 0
  · rcases hu with hu | hu
    · exact absurd h0 hu
    · simp [h0, hu]
  · simp [h0]

/-- A small environment: the state is the list of digests; a request seen on its ledger is suspicious, a digest from
100 on is refused. -/
def pl_E : Env (List Nat) (Nat × Nat × Nat) where
  verdict db r _ :=
    if ((db.led r.lid).com ++ (db.led r.lid).unc).any (fun t => t.req.digest = r.digest) then .suspicious
    else if 100 ≤ r.digest then .invalid else .ok
  upd s t := s ++ [t.req.digest]
  mkAudit _ k l t := (k.seq, l, t)
  rootL ts := ts.foldl (fun a t => a * 1000 + t.req.digest + 1) 0
  rootA as := as.foldl (fun a x => a * 1000 + x.1 * 10 + x.2.1 + x.2.2) 0

/-- Empty databases. -/
def pl_base : Dbs (List Nat) (Nat × Nat × Nat) := ⟨fun _ => ⟨[], []⟩, fun _ => ⟨[], []⟩, [], [], ⟨0, []⟩⟩

theorem pl_base_clean : Clean pl_base := ⟨fun _ => rfl, fun _ => rfl, rfl, rfl⟩

/-- The first and the second batch of an honest primary. -/
def pl_pp1 : PP (List Nat) := makePp pl_E (start pl_base) 1 5 [⟨7, 1⟩, ⟨100, 1⟩]
def pl_pp2 : PP (List Nat) :=
  makePp pl_E (run pl_E (start pl_base) [.create 1 5 [⟨7, 1⟩, ⟨100, 1⟩]]).1 2 6 [⟨8, 2⟩]
/-- A second batch whose state root is wrong. -/
def pl_bad2 : PP (List Nat) := { pl_pp2 with stateRoot := [1] }

def pl_evs : List (Event (List Nat)) :=
  [.preprepare pl_pp1, .preprepare pl_bad2, .preprepare pl_pp2, .order ⟨0, 1⟩, .viewChange, .execute, .gc 1]

/-- The hypotheses hold for a history with an accepted batch, a refused one, an ordered one, an executed one and a
reverted one. -/
example : RegularHistory pl_evs ∧ (∀ k, Out.stale k ∉ (run pl_E (start pl_base) pl_evs).2) ∧
    (run pl_E (start pl_base) pl_evs).2 =
      [.accepted ⟨0, 1⟩ 1 [⟨⟨7, 1⟩, 5⟩] (some (1, 1, 5)), .refused ⟨0, 2⟩, .accepted ⟨0, 2⟩ 2 [⟨⟨8, 2⟩, 6⟩] (some (2, 2, 6)),
        .reverted ⟨0, 2⟩, .committed ⟨0, 1⟩ [⟨⟨7, 1⟩, 5⟩]] := by
  have hlog : (run pl_E (start pl_base) pl_evs).2 =
      [.accepted ⟨0, 1⟩ 1 [⟨⟨7, 1⟩, 5⟩] (some (1, 1, 5)), .refused ⟨0, 2⟩, .accepted ⟨0, 2⟩ 2 [⟨⟨8, 2⟩, 6⟩] (some (2, 2, 6)),
        .reverted ⟨0, 2⟩, .committed ⟨0, 1⟩ [⟨⟨7, 1⟩, 5⟩]] := by decide +kernel
  refine ⟨?_, ?_, hlog⟩
  · intro pp hp
    simp only [pl_evs, List.mem_cons, Event.preprepare.injEq, reduceCtorEq, List.not_mem_nil, or_false] at hp
    rcases hp with rfl | rfl | rfl
    · exact ⟨by decide +kernel, by decide +kernel, by decide +kernel, by decide +kernel, [1], by decide +kernel,
        by decide +kernel, by decide +kernel⟩
    · exact ⟨by decide +kernel, by decide +kernel, by decide +kernel, by decide +kernel, [], by decide +kernel,
        by decide +kernel, by decide +kernel⟩
    · exact ⟨by decide +kernel, by decide +kernel, by decide +kernel, by decide +kernel, [], by decide +kernel,
        by decide +kernel, by decide +kernel⟩
  · rw [hlog]; simp

/-- The refused batch of the example meets the hypotheses of `refused_no_trace_partial`, and the accepted one those of
`accepted_as_said`. -/
example : Out.refused pl_bad2.key ∈
      (step pl_E (run pl_E (start pl_base) [.preprepare pl_pp1]).1 (.preprepare pl_bad2)).2 ∧
    Out.accepted ⟨0, 1⟩ 1 [⟨⟨7, 1⟩, 5⟩] (some (1, 1, 5)) ∈ (step pl_E (start pl_base) (.preprepare pl_pp1)).2 := by
  decide +kernel

/-- A node which follows the primary meets the hypotheses of `primary_batch_accepted` at the second batch, and
`view_change_next` speaks about the run of the example. -/
example :
    let p := (run pl_E (start pl_base) [.create 1 5 [⟨7, 1⟩, ⟨100, 1⟩]]).1
    let f := (run pl_E (start pl_base) [.preprepare pl_pp1]).1
    p.dead = false ∧ f.dead = false ∧ f.db = p.db ∧ f.view = p.view ∧ IsLastPp f p.lastPpSeq ∧
      (step pl_E f .viewChange).1.dead = false := by
  have h := primary_batch_accepted pl_E (start pl_base) (start pl_base) 1 5 [⟨7, 1⟩, ⟨100, 1⟩] rfl rfl rfl rfl
    ⟨by decide, by simp [start], .inl rfl⟩
  refine ⟨by decide +kernel, by decide +kernel, h.2.2, by decide +kernel, ⟨by decide +kernel, ?_, .inr ?_⟩, by decide +kernel⟩
  · decide +kernel
  · decide +kernel

/-- The first batch, as a primary sends it which says it is not the last part. -/
def pl_open1 : PP (List Nat) := { pl_pp1 with final := false }

/-- **Finding.** After a PRE-PREPARE which is not final the honest one is refused for good: its requests are found
applied. Neither a catchup nor a view change removes them. -/
theorem not_final_blocks :
    let n := (run pl_E (start pl_base) [.preprepare pl_open1, .catchup, .viewChange]).1
    (n.db.led 1).unc = [⟨⟨7, 1⟩, 5⟩] ∧ n.db.audUnc = [(1, 1, 5)] ∧ (n.db.st 1).head ≠ (n.db.st 1).com ∧
    (run pl_E (start pl_base) [.preprepare pl_open1]).2 = [.refused ⟨0, 1⟩] ∧
    (run pl_E (start pl_base) [.preprepare pl_open1, .preprepare pl_pp1]).2 = [.refused ⟨0, 1⟩, .refused ⟨0, 1⟩] ∧
    (run pl_E (start pl_base) [.preprepare pl_pp1]).2 = [.accepted ⟨0, 1⟩ 1 [⟨⟨7, 1⟩, 5⟩] (some (1, 1, 5))] := by
  decide +kernel

/-- A batch of ledger 1 with a request of ledger 2. -/
def pl_foreign : PP (List Nat) :=
  { key := ⟨0, 1⟩, lid := 1, time := 5, reqs := [⟨7, 2⟩], discarded := some [], stateRoot := [], txnRoot := 0,
    auditRoot := some 16, subSeqNo := 0, final := true }

/-- **Finding.** A batch may hold a request of another ledger: it is accepted, and executing it commits nothing, so the
transaction stays uncommitted; reverting it raises. -/
theorem foreign_request_accepted :
    (run pl_E (start pl_base) [.preprepare pl_foreign, .order ⟨0, 1⟩, .execute]).2 =
      [.accepted ⟨0, 1⟩ 1 [⟨⟨7, 2⟩, 5⟩] (some (1, 1, 5)), .committed ⟨0, 1⟩ []] ∧
    ((run pl_E (start pl_base) [.preprepare pl_foreign, .order ⟨0, 1⟩, .execute]).1.db.led 2) = ⟨[], [⟨⟨7, 2⟩, 5⟩]⟩ ∧
    (run pl_E (start pl_base) [.preprepare pl_foreign, .viewChange]).2 =
      [.accepted ⟨0, 1⟩ 1 [⟨⟨7, 2⟩, 5⟩] (some (1, 1, 5)), .raised] := by
  decide +kernel

/-- The first batch without an audit root. -/
def pl_noAudit : PP (List Nat) := { pl_pp1 with auditRoot := none }

/-- **Finding.** A batch without an audit root is accepted, and when it is executed it is taken for one which is not
applied: its request is applied a second time, and the second transaction stays uncommitted. -/
theorem no_audit_applied_twice :
    (run pl_E (start pl_base) [.preprepare pl_noAudit, .order ⟨0, 1⟩, .execute]).2 =
      [.accepted ⟨0, 1⟩ 1 [⟨⟨7, 1⟩, 5⟩] none, .committed ⟨0, 1⟩ [⟨⟨7, 1⟩, 5⟩]] ∧
    ((run pl_E (start pl_base) [.preprepare pl_noAudit, .order ⟨0, 1⟩, .execute]).1.db.led 1) =
      ⟨[⟨⟨7, 1⟩, 5⟩], [⟨⟨7, 1⟩, 5⟩]⟩ := by
  decide +kernel

/-- An honest batch with two refused requests, and the same with one index twice. -/
def pl_pp3 : PP (List Nat) := makePp pl_E (start pl_base) 1 5 [⟨100, 1⟩, ⟨101, 1⟩, ⟨7, 1⟩]
def pl_twice : PP (List Nat) := { pl_pp3 with discarded := some [0, 0] }
def pl_next : PP (List Nat) :=
  makePp pl_E (run pl_E (start pl_base) [.create 1 5 [⟨100, 1⟩, ⟨101, 1⟩, ⟨7, 1⟩]]).1 1 6 [⟨8, 1⟩]

/-- **Finding.** Of the discarded requests only the number is checked: with one index given twice the number of
requests to commit is wrong, a transaction of the next batch is committed with this one, and the commit raises after
it has written. -/
theorem discarded_twice_raises :
    (run pl_E (start pl_base) [.preprepare pl_twice, .preprepare pl_next, .order ⟨0, 1⟩, .execute]).2 =
      [.accepted ⟨0, 1⟩ 1 [⟨⟨7, 1⟩, 5⟩] (some (1, 1, 5)), .accepted ⟨0, 2⟩ 1 [⟨⟨8, 1⟩, 6⟩] (some (2, 1, 6)), .raised] ∧
    (run pl_E (start pl_base) [.preprepare pl_pp3, .preprepare pl_next, .order ⟨0, 1⟩, .execute]).2 =
      [.accepted ⟨0, 1⟩ 1 [⟨⟨7, 1⟩, 5⟩] (some (1, 1, 5)), .accepted ⟨0, 2⟩ 1 [⟨⟨8, 1⟩, 6⟩] (some (2, 1, 6)),
        .committed ⟨0, 1⟩ [⟨⟨7, 1⟩, 5⟩]] := by
  decide +kernel

/-- **Finding.** A PRE-PREPARE whose discarded requests cannot be read raises after its requests were applied. -/
theorem discarded_unreadable_raises :
    (run pl_E (start pl_base) [.preprepare { pl_pp1 with discarded := none }]).2 = [.raised] ∧
    ((run pl_E (start pl_base) [.preprepare { pl_pp1 with discarded := none }]).1.db.led 1).unc = [⟨⟨7, 1⟩, 5⟩] := by
  decide +kernel

/-- **Finding.** A catchup reverts a batch but keeps its PRE-PREPARE: the next batch of the honest primary is refused,
while without the catchup it is accepted; the first one can still be ordered. -/
theorem catchup_refuses_honest :
    (run pl_E (start pl_base) [.preprepare pl_pp1, .preprepare pl_pp2]).2 =
      [.accepted ⟨0, 1⟩ 1 [⟨⟨7, 1⟩, 5⟩] (some (1, 1, 5)), .accepted ⟨0, 2⟩ 2 [⟨⟨8, 2⟩, 6⟩] (some (2, 2, 6))] ∧
    (run pl_E (start pl_base) [.preprepare pl_pp1, .catchup, .preprepare pl_pp1, .preprepare pl_pp2, .order ⟨0, 1⟩, .execute]).2 =
      [.accepted ⟨0, 1⟩ 1 [⟨⟨7, 1⟩, 5⟩] (some (1, 1, 5)), .reverted ⟨0, 1⟩, .refused ⟨0, 2⟩, .stale ⟨0, 1⟩,
        .committed ⟨0, 1⟩ [⟨⟨7, 1⟩, 5⟩]] := by
  decide +kernel

/-- **Finding.** An honest primary which starts a catchup gives the key of a batch it has sent to another batch: both
have view 0 and sequence number 1. -/
theorem primary_reuses_key :
    (run pl_E (start pl_base) [.create 1 5 [⟨7, 1⟩], .catchup, .create 1 6 [⟨8, 1⟩, ⟨7, 1⟩]]).2 =
      [.accepted ⟨0, 1⟩ 1 [⟨⟨7, 1⟩, 5⟩] (some (1, 1, 5)), .reverted ⟨0, 1⟩,
        .accepted ⟨0, 1⟩ 1 [⟨⟨8, 1⟩, 6⟩, ⟨⟨7, 1⟩, 6⟩] (some (1, 1, 6))] := by
  decide +kernel

/-- The hypotheses of `unfinished_leaves_trace` hold for the batch which is not final, and it does change the
databases. -/
example : (start pl_base).dead = false ∧ canProcess (start pl_base) pl_open1.key = true ∧ pl_open1.final = false ∧
    ((appliedDb pl_E pl_base pl_open1).led 1).unc ≠ (pl_base.led 1).unc := by
  decide +kernel

end Verif.Props
