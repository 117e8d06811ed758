import Verif.Proofs.Views
/-! The PRE-PREPAREs ordered have the digest of their requests. -/
namespace Verif.TPC

variable {cfg : Cfg}

/-- Batches may be ordered, from those stored above the last ordered one. -/
structure Pulls (r r' : Replica) : Prop where
  sent : r'.sentPP = r.sentPP
  recv : r'.recvPP = r.recvPP
  last : r.lastOrdered.2 ≤ r'.lastOrdered.2
  ord : ∀ o ∈ r'.ordLog, o ∈ r.ordLog ∨ ∃ k, r.getPP k = some o ∧ r.lastOrdered.2 < k.2

theorem Pulls.refl (r : Replica) : Pulls r r := ⟨rfl, rfl, Nat.le_refl _, fun _ h => .inl h⟩

theorem Pulls.trans {a b c : Replica} (h : Pulls a b) (g : Pulls b c) : Pulls a c := by
  refine ⟨g.1.trans h.1, g.2.trans h.2, Nat.le_trans h.3 g.3, fun o ho => ?_⟩
  rcases g.4 o ho with x | ⟨k, x, y⟩
  · exact h.4 o x
  · refine .inr ⟨k, ?_, Nat.lt_of_le_of_lt h.3 y⟩
    unfold Replica.getPP at x ⊢
    rwa [h.1, h.2] at x

theorem Pulls.after {a b c : Replica} (g : Pulls b c) (h : Pulls a b) : Pulls a c := h.trans g

theorem pulls_tryOrder (r : Replica) (c : Commit) : Pulls r (r.tryOrder cfg c).1 := by
  unfold Replica.tryOrder
  split
  · exact .refl _
  · split
    · exact .refl _
    · next h =>
      have h : r.lastOrdered.2 < c.seqNo := by
        exact Nat.not_le.1 (fun x => h (decide_eq_true x))
      split
      · exact ⟨rfl, rfl, Nat.le_refl _, fun _ h => .inl h⟩
      · show Pulls r (r.order c.key)
        unfold Replica.order
        split
        · exact .refl _
        · next pp hp =>
          refine ⟨rfl, rfl, Nat.le_of_lt h, fun o ho => ?_⟩
          rcases List.mem_append.1 ho with x | x
          · exact .inl x
          · rw [List.mem_singleton.1 x]; exact .inr ⟨_, hp, h⟩

theorem pulls_addToCommits (r : Replica) (c : Commit) (w : Node) : Pulls r (r.addToCommits cfg c w) := by
  unfold Replica.addToCommits
  exact Pulls.after (pulls_tryOrder _ _) ⟨rfl, rfl, Nat.le_refl _, fun _ h => .inl h⟩

theorem pulls_processCommit (r : Replica) (c : Commit) (w : Node) : Pulls r (r.processCommit cfg c w) := by
  unfold Replica.processCommit
  repeat' split
  all_goals first | exact .refl _ | exact pulls_addToCommits r c w | exact ⟨rfl, rfl, Nat.le_refl _, fun _ h => .inl h⟩

theorem pulls_dequeueCommits (r : Replica) (k : Key) : Pulls r (r.dequeueCommits cfg k) := by
  unfold Replica.dequeueCommits
  split
  · exact .refl _
  · next q hq =>
    split
    · exact .refl _
    · have hfold : ∀ (q : List (Commit × Node)) (r : Replica),
          Pulls r (q.foldl (fun r e => r.processCommit cfg e.1 e.2) r) := by
        intro q
        induction q with
        | nil => intro r; exact .refl _
        | cons e q ih => intro r; exact (pulls_processCommit r _ _).trans (ih _)
      have h1 := hfold q { r with commWait := r.commWait.set k [] }
      exact ⟨h1.1, h1.2, h1.3, h1.4⟩

theorem pulls_tryCommit (r : Replica) (k : Key) : Pulls r (r.tryCommit cfg k) := by
  unfold Replica.tryCommit
  split
  · exact .refl _
  · split
    · exact .refl _
    · unfold Replica.doCommit
      exact Pulls.after (pulls_addToCommits _ _ _) ⟨rfl, rfl, Nat.le_refl _, fun _ h => .inl h⟩

theorem pulls_addToPrepares (r : Replica) (p : Prepare) (w : Node) : Pulls r (r.addToPrepares cfg p w) := by
  unfold Replica.addToPrepares
  refine Pulls.after (pulls_tryCommit _ _) (Pulls.after (pulls_dequeueCommits _ _) ⟨rfl, rfl, Nat.le_refl _, fun _ h => .inl h⟩)

theorem pulls_processPrepare (r : Replica) (p : Prepare) (w : Node) : Pulls r (r.processPrepare cfg p w) := by
  have henq : Pulls r (r.enqueuePrepare p w) := ⟨rfl, rfl, Nat.le_refl _, fun _ h => .inl h⟩
  unfold Replica.processPrepare
  repeat' split
  all_goals first | exact .refl _ | exact henq | exact pulls_addToPrepares r p w

theorem pulls_dequeuePrepares (r : Replica) (k : Key) : Pulls r (r.dequeuePrepares cfg k) := by
  unfold Replica.dequeuePrepares
  split
  · exact .refl _
  · next q hq =>
    have hfold : ∀ (q : List (Prepare × Node)) (r : Replica),
        Pulls r (q.foldl (fun r e => r.processPrepare cfg e.1 e.2) r) := by
      intro q
      induction q with
      | nil => intro r; exact .refl _
      | cons e q ih => intro r; exact (pulls_processPrepare r _ _).trans (ih _)
    have h1 := hfold q { r with prepWait := r.prepWait.set k [] }
    exact ⟨h1.1, h1.2, h1.3, h1.4⟩

theorem pulls_tryPrepare (r : Replica) (pp : PrePrepare) : Pulls r (r.tryPrepare cfg pp) := by
  unfold Replica.tryPrepare
  split
  · exact .refl _
  · unfold Replica.doPrepare
    exact Pulls.after (pulls_addToPrepares _ _ _) ⟨rfl, rfl, Nat.le_refl _, fun _ h => .inl h⟩

theorem pulls_processOutOfOrder (r : Replica) : Pulls r (r.processOutOfOrder cfg) := by
  unfold Replica.processOutOfOrder
  split
  · exact .refl _
  · have hfold : ∀ (q : List (Key × Commit)) (s : Replica × Key × List Key),
        Pulls s.1 (q.foldl (Replica.orderStashed cfg) s).1 := by
      intro q
      induction q with
      | nil => intro s; exact .refl _
      | cons e q ih =>
        intro s
        rw [List.foldl_cons]
        refine Pulls.trans ?_ (ih _)
        obtain ⟨r, lo, del⟩ := s
        unfold Replica.orderStashed
        simp only
        repeat' split
        all_goals first | exact .refl _ | exact pulls_tryOrder _ _
    have h1 := hfold r.outOfOrder (r, r.lastOrdered, [])
    exact ⟨h1.1, h1.2, h1.3, h1.4⟩

/-- The digest is that of the requests, the view and the time. -/
def Right (dg : List Nat → Nat → Nat → Nat) (pp : PrePrepare) : Prop := dg pp.reqs pp.origView pp.time = pp.content.digest

structure Dig (dg : List Nat → Nat → Nat → Nat) (r : Replica) : Prop where
  sto : ∀ k pp, r.sentPP.get? k = some pp ∨ r.recvPP.get? k = some pp → k.2 ≤ r.lastOrdered.2 ∨ Right dg pp
  ord : ∀ o ∈ r.ordLog, Right dg o

variable {dg : List Nat → Nat → Nat → Nat}

theorem Dig.pulls {r r' : Replica} (h : Dig dg r) (p : Pulls r r') : Dig dg r' := by
  refine ⟨fun k pp hp => ?_, fun o ho => ?_⟩
  · rw [p.1, p.2] at hp
    exact (h.1 k pp hp).imp (fun x => Nat.le_trans x p.3) id
  · rcases p.4 o ho with x | ⟨k, x, y⟩
    · exact h.2 o x
    · have : r.sentPP.get? k = some o ∨ r.recvPP.get? k = some o := by
        unfold Replica.getPP at x
        split at x
        · next q hq => cases x; exact .inl hq
        · exact .inr x
      exact (h.1 k o this).resolve_left (Nat.not_le.2 y)

/-- The stored ones become fewer. -/
theorem Dig.fewer {r r' : Replica} (h : Dig dg r) (h1 : ∀ k pp, r'.sentPP.get? k = some pp → r.sentPP.get? k = some pp)
    (h2 : ∀ k pp, r'.recvPP.get? k = some pp → r.recvPP.get? k = some pp) (h3 : r'.lastOrdered = r.lastOrdered)
    (h4 : r'.ordLog = r.ordLog) : Dig dg r' :=
  ⟨fun k pp hp => by rw [h3]; exact h.1 k pp (hp.imp (h1 k pp) (h2 k pp)), by rw [h4]; exact h.2⟩

theorem get?_set_cases {β : Type} {d : Dict Key β} {k j : Key} {b c : β} (h : (d.set k b).get? j = some c) :
    (j = k ∧ c = b) ∨ d.get? j = some c := by
  rw [Dict.get?_set] at h
  split at h
  · next e => exact .inl ⟨e.symm, (Option.some.inj h).symm⟩
  · exact .inr h

theorem get?_filter_some {β : Type} {d : Dict Key β} {p : Key → Bool} {j : Key} {c : β}
    (h : Dict.get? (d.filter (fun e => p e.1)) j = some c) : d.get? j = some c := by
  rw [Dict.get?_filter] at h
  split at h
  · exact h
  · exact absurd h (by simp)

theorem Dig.processPrePrepare {r : Replica} (h : Dig cfg.digest r) (pp : PrePrepare) (w : Node) (env : PPEnv) :
    Dig cfg.digest (r.processPrePrepare cfg pp w env) := by
  unfold Replica.processPrePrepare
  split
  · exact h
  · split
    · exact h
    · next hc =>
      have hc : pp.seqNo ≤ r.lastOrdered.2 ∨ Right cfg.digest pp := by
        by_cases hd : cfg.digest pp.reqs pp.origView pp.time = pp.content.digest
        · exact .inr hd
        · refine .inl ?_
          unfold Replica.canProcessPP at hc
          by_cases ha : r.alreadyOrdered pp.seqNo = true
          · exact of_decide_eq_true ha
          · simp [ha, hd] at hc
      unfold Replica.processValidPP
      split
      · exact h
      · simp only
        refine Dig.pulls ?_ (pulls_dequeueCommits _ _)
        refine Dig.pulls ?_ (pulls_dequeuePrepares _ _)
        generalize hr0 : (if r.alreadyOrdered pp.seqNo then r
            else { r with batches := (r.batches.filter (fun k => ¬ k = pp.key)) ++ [pp.key] }) = r0
        have h0 : Dig cfg.digest r0 ∧ r0.lastOrdered = r.lastOrdered := by
          subst hr0; split <;> exact ⟨⟨h.1, h.2⟩, rfl⟩
        obtain ⟨h0, e0⟩ := h0
        rw [← e0] at hc
        split
        · refine ⟨fun k q hq => ?_, h0.2⟩
          rcases hq with hq | hq
          · rcases get?_set_cases hq with ⟨rfl, rfl⟩ | hq
            · exact hc
            · exact h0.1 k q (.inl hq)
          · exact h0.1 k q (.inr hq)
        · unfold Replica.addToPrePrepares
          refine Dig.pulls ?_ (pulls_tryPrepare _ _)
          refine ⟨fun k q hq => ?_, h0.2⟩
          rcases hq with hq | hq
          · exact h0.1 k q (.inl hq)
          · rcases get?_set_cases hq with ⟨rfl, rfl⟩ | hq
            · exact hc
            · exact h0.1 k q (.inr hq)

theorem Dig.step {r : Replica} (h : Dig cfg.digest r) (e : Event) (he : ∀ k l, e ≠ .caughtUp k l) :
    Dig cfg.digest (r.step cfg e) := by
  cases e with
  | deliver m w env =>
    cases m with
    | prePrepare pp => exact h.processPrePrepare pp w env
    | prepare p => exact h.pulls (pulls_processPrepare r p w)
    | commit c => exact h.pulls (pulls_processCommit r c w)
  | createBatch b =>
    show Dig cfg.digest (r.createBatch cfg b)
    unfold Replica.createBatch
    split
    · exact h
    · refine ⟨fun k q hq => ?_, h.2⟩
      rcases hq with hq | hq
      · rcases get?_set_cases hq with ⟨rfl, rfl⟩ | hq
        · exact .inr rfl
        · exact h.1 k q (.inl hq)
      · exact h.1 k q (.inr hq)
  | orderStashed => exact h.pulls (pulls_processOutOfOrder r)
  | stabilize till =>
    show Dig cfg.digest (if r.stable ≤ till ∧ till ≤ r.lastOrdered.2 then { r.gc till with stable := till } else r)
    split
    · refine h.fewer (fun k pp hp => ?_) (fun k pp hp => ?_) rfl rfl
      · exact get?_filter_some (p := fun j => !(decide (j.2 ≤ till) && (r.getPP j).isSome)) hp
      · exact get?_filter_some (p := fun j => !(decide (j.2 ≤ till) && (r.getPP j).isSome)) hp
    · exact h
  | watermarks a b => exact ⟨h.1, h.2⟩
  | startCatchup =>
    show Dig cfg.digest (r.startCatchup cfg)
    unfold Replica.startCatchup
    split
    · exact h
    · exact ⟨h.1, h.2⟩
  | caughtUp k l => exact absurd rfl (he k l)
  | startViewChange v =>
    show Dig cfg.digest (r.startViewChange v)
    unfold Replica.startViewChange
    split
    · exact h
    · exact ⟨fun k pp hp => by simp [Dict.get?] at hp, h.2⟩
  | acceptNewView =>
    show Dig cfg.digest (r.acceptNewView cfg)
    unfold Replica.acceptNewView
    split
    · exact ⟨h.1, h.2⟩
    · exact h
  | oldViewPP pp env =>
    show Dig cfg.digest (r.oldViewPP cfg pp env)
    unfold Replica.oldViewPP
    split
    · exact h.processPrePrepare _ _ env
    · exact h

end Verif.TPC

namespace Verif.Views

/-- What a node has ordered, in any view, has the digest of its requests. -/
theorem ordered_right (C : Cfg) (σ : Schedule) (w : Node) : ∀ o ∈ (node C σ w).tpc.ordLog, TPC.Right C.digest o := by
  have hcl : Closed C w (fun s => TPC.Dig C.digest s.tpc) := {
    order := by
      intro s evs hp h
      have key : ∀ (cfg : TPC.Cfg) (evs : List TPC.Event) (r : TPC.Replica), Plain evs → TPC.Dig cfg.digest r →
          TPC.Dig cfg.digest (evs.foldl (TPC.Replica.step cfg) r) := by
        intro cfg evs
        induction evs with
        | nil => intro r _ h; exact h
        | cons e evs ih =>
          intro r hp h
          exact ih _ ⟨fun h => hp.1 (List.mem_cons_of_mem _ h), fun k l h => hp.2 k l (List.mem_cons_of_mem _ h)⟩
            (h.step e (fun k l h => hp.2 k l (by rw [← h]; exact List.mem_cons_self)))
      exact key (tcfg C w s) evs s.tpc hp h
    serve := fun _ _ h => h
    rest := fun _ _ _ h => h }
  have : TPC.Dig C.digest (node C σ w).tpc := by
    refine prefix_induction (σ := σ) (P := fun _ s => TPC.Dig C.digest s.tpc) ?_ ?_ (fun _ _ _ _ _ h => h) σ []
      (List.append_nil _).symm
    · exact ⟨fun k pp hp => by simp [Dict.get?] at hp, fun o ho => by simp at ho⟩
    · intro pre e post _ h; exact hcl.step h e
  exact this.2

end Verif.Views
