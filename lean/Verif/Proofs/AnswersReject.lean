import Verif.Proofs.AnswersCount
/-!
# Answers: who is told that a request is rejected, and that it is true
-/
namespace Verif.Answers
open Verif.Propagator (Key Req Sender)

variable (cfg : Cfg)

/-- The client that first brings a request, and is acknowledged, is known as its sender as long as nothing disturbs. -/
theorem known_after (es fs : List Ev) (r : Req) (c : Client) (hk : cfg.kind r = .write)
    (hnew : ∀ e ∈ es, e.brings cfg (cfg.prop.digest r) = false)
    (hack : .client c (.ack r) ∈ ((State.run cfg {} es).1.step cfg (.came r c)).2)
    (hf : ∀ e ∈ fs, e.forgets cfg (cfg.prop.digest r) = false)
    (hend : ∀ o ∈ (((State.run cfg {} es).1.step cfg (.came r c)).1.run cfg fs).2, o.ends cfg (cfg.prop.digest r) = false) :
    (State.run cfg {} (es ++ .came r c :: fs)).1.sender.get? (cfg.prop.digest r) = some (some c) := by
  have h0 : (State.run cfg {} es).1.sender.get? (cfg.prop.digest r) = none := sender_brought cfg es _ hnew
  generalize hs : (State.run cfg {} es).1 = s at h0 hack hend
  have h1 : (s.step cfg (.came r c)).1.sender.get? (cfg.prop.digest r) = some (some c) := by
    replace hack : .client c (.ack r) ∈ (s.came cfg r c).2 := hack
    show (s.came cfg r c).1.sender.get? _ = _
    unfold State.came at hack ⊢
    split at hack
    · have := List.mem_singleton.mp hack; cases this
    · rename_i hv
      rw [if_neg hv]
      rw [hk] at hack ⊢
      dsimp only at hack ⊢
      split at hack
      · exact (nomatch hack)
      · rename_i hvc
        rw [if_neg hvc]
        unfold State.write at hack ⊢
        dsimp only at hack ⊢
        split at hack
        · rename_i a ha
          have := List.mem_singleton.mp hack
          cases this
          rcases fromLedger_cases cfg ha with h | ⟨_, _, _, h, _⟩ <;> cases h
        · have hno : ¬ s.sender.has (cfg.prop.digest r) = true := by simp [has_eq, h0]
          rw [if_neg hno] at hack ⊢
          split at hack
          · rename_i hfo
            rw [if_pos hfo, record_sender, start_get?, if_pos rfl]
          · have := List.mem_singleton.mp hack; cases this
  have h2 := keeps_run cfg h1 hf hend
  have hrun : (State.run cfg {} (es ++ .came r c :: fs)).1 = ((s.step cfg (.came r c)).1.run cfg fs).1 := by
    rw [run_append, hs]; rfl
  rw [hrun]
  exact h2

theorem applyReqs_verdict {s : State} {rs cur : List Req} {v v1 v2 : List (Req × Bool)} {r : Req} {ok : Bool}
    (h : s.applyReqs cfg cur rs = some v) (hv : v = v1 ++ (r, ok) :: v2) :
    ok = cfg.valid (s.history ++ s.uncommitted ++ (cur ++ (v1.filter Prod.snd).map Prod.fst)) r := by
  induction rs generalizing cur v v1 with
  | nil =>
    rw [State.applyReqs] at h
    cases h
    cases v1 <;> cases hv
  | cons q rs ih =>
    rw [State.applyReqs] at h
    split at h
    · obtain ⟨w, hw, e⟩ := Option.map_eq_some_iff.mp h
      subst e
      cases v1 with
      | nil =>
        simp only [List.nil_append, List.cons.injEq, Prod.mk.injEq] at hv
        obtain ⟨⟨rfl, rfl⟩, _⟩ := hv
        simp
      | cons x v1 =>
        simp only [List.cons_append, List.cons.injEq] at hv
        obtain ⟨rfl, hv⟩ := hv
        have := ih hw hv
        rw [this]
        generalize cfg.valid (s.history ++ s.uncommitted ++ cur) q = b
        cases b <;> simp
    · cases h

/-- What applying a batch does, if it is not refused. -/
theorem apply_cases (s : State) (l : Nat) (ks : List Key) :
    s.apply cfg l ks = (s, []) ∨
    ∃ rs v, s.recordsOf ks = some rs ∧ (∀ r ∈ rs, cfg.ledgerOf r = l) ∧ s.applyReqs cfg [] rs = some v ∧
      s.apply cfg l ks = State.rejectAll cfg { s with pending := s.pending ++ [Batch.mk l v] }
        ((v.filter (fun e => !e.2)).map Prod.fst) := by
  unfold State.apply
  cases hr : s.recordsOf ks with
  | none => exact .inl rfl
  | some rs =>
    dsimp only
    split
    · rename_i hl
      cases hv : s.applyReqs cfg [] rs with
      | none => exact .inl rfl
      | some v => exact .inr ⟨rs, v, rfl, by simpa using hl, hv, rfl⟩
    · exact .inl rfl

theorem applyReqs_reqs {s : State} {rs cur : List Req} {v : List (Req × Bool)} (h : s.applyReqs cfg cur rs = some v) :
    v.map Prod.fst = rs := by
  induction rs generalizing cur v with
  | nil => rw [State.applyReqs] at h; cases h; rfl
  | cons q rs ih =>
    rw [State.applyReqs] at h
    split at h
    · obtain ⟨w, hw, e⟩ := Option.map_eq_some_iff.mp h
      subst e
      rw [List.map_cons, ih hw]
    · cases h

theorem recordsOf_digest {s : State} {ks : List Key} {rs : List Req} (h : s.recordsOf ks = some rs) :
    ks.map (fun k => (s.prop.requests.get? k).map (·.request)) = rs.map some := by
  induction ks generalizing rs with
  | nil => rw [State.recordsOf] at h; cases h; rfl
  | cons k ks ih =>
    rw [State.recordsOf] at h
    split at h
    · rename_i st rs' hs hr
      cases h
      rw [List.map_cons, List.map_cons, ih hr, hs]
      rfl
    · cases h

theorem pending_ne (l : List Batch) (b : Batch) (h : l = l ++ [b]) : False := by
  have := congrArg List.length h
  simp at this

/-- A batch was applied: its requests are those of the records, each with the verdict on what is before it. -/
theorem apply_batch {s : State} {l : Nat} {ks : List Key} {b : Batch}
    (h : (s.apply cfg l ks).1.pending = s.pending ++ [b]) :
    b.ledger = l ∧ ks.map (fun k => (s.prop.requests.get? k).map (·.request)) = b.reqs.map (fun x => some x.1) ∧
    ∀ v1 r ok v2, b.reqs = v1 ++ (r, ok) :: v2 →
      ok = cfg.valid (s.history ++ s.uncommitted ++ (v1.filter Prod.snd).map Prod.fst) r := by
  rcases apply_cases cfg s l ks with e | ⟨rs, v, hr, hl, hv, e⟩
  · rw [e] at h
    exact (pending_ne _ _ h).elim
  · rw [e, (same_rejectAll cfg _ _).pending] at h
    have := List.append_cancel_left h
    cases this
    refine ⟨rfl, ?_, ?_⟩
    · rw [recordsOf_digest hr, ← applyReqs_reqs cfg hv, List.map_map]; rfl
    · intro v1 r ok v2 hb
      have := applyReqs_verdict cfg hv hb
      simpa using this

/-- The client of a request found invalid is told. -/
theorem apply_told {s : State} {l : Nat} {ks : List Key} {b : Batch} {k : Key} {c : Client} {t : Req}
    (h : (s.apply cfg l ks).1.pending = s.pending ++ [b]) (hs : s.sender.get? k = some (some c))
    (ht : (t, false) ∈ b.reqs) (hd : cfg.prop.digest t = k) :
    ∃ r, cfg.prop.digest r = k ∧ .client c (.reject r) ∈ (s.apply cfg l ks).2 := by
  rcases apply_cases cfg s l ks with e | ⟨rs, v, hr, hl, hv, e⟩
  · rw [e] at h
    exact (pending_ne _ _ h).elim
  · rw [e, (same_rejectAll cfg _ _).pending] at h
    have := List.append_cancel_left h
    cases this
    rw [e]
    refine rejectAll_told cfg hs ?_
    simp only [List.any_eq_true, List.mem_map, List.mem_filter, decide_eq_true_eq]
    exact ⟨t, ⟨(t, false), ⟨ht, rfl⟩, rfl⟩, hd⟩

/-- A REJECT that is not the answer to an action is sent when a batch is applied in which the request is invalid. -/
theorem apply_reject {s : State} {l : Nat} {ks : List Key} {c : Client} {r : Req}
    (h : .client c (.reject r) ∈ (s.apply cfg l ks).2) :
    s.sender.get? (cfg.prop.digest r) = some (some c) ∧
    ∃ b, (s.apply cfg l ks).1.pending = s.pending ++ [b] ∧ (r, false) ∈ b.reqs := by
  rcases apply_cases cfg s l ks with e | ⟨rs, v, hr, hl, hv, e⟩
  · rw [e] at h; exact (nomatch h)
  · rw [e] at h ⊢
    obtain ⟨q, hq, d, ho, hs⟩ := rejectAll_out cfg h
    cases ho
    refine ⟨hs, Batch.mk l v, by rw [(same_rejectAll cfg _ _).pending], ?_⟩
    simp only [List.mem_map, List.mem_filter] at hq
    obtain ⟨⟨q', ok⟩, ⟨hm, hok⟩, rfl⟩ := hq
    cases ok
    · exact hm
    · cases hok

theorem step_reject {s : State} {e : Ev} {c : Client} {r : Req} (h : .client c (.reject r) ∈ (s.step cfg e).2)
    (hk : cfg.kind r ≠ .action) : ∃ l ks, e = .apply l ks := by
  cases e with
  | came q d =>
    replace h : .client c (.reject r) ∈ (s.came cfg q d).2 := h
    unfold State.came at h
    split at h
    · have := List.mem_singleton.mp h; cases this
    · split at h
      · rename_i ha
        unfold action at h
        split at h <;> simp at h
        exact absurd (h.2 ▸ ha) hk
      · unfold query at h
        split at h <;> simp at h
      · split at h
        · exact (nomatch h)
        · unfold State.write at h
          dsimp only at h
          split at h
          · rename_i a ha
            cases List.mem_singleton.mp h
            rcases fromLedger_cases cfg ha with h | ⟨_, _, _, h, _⟩ <;> cases h
          · split at h
            · rcases List.mem_append.mp h with h | h
              · have := propagated_out cfg h; cases this
              · have := List.mem_singleton.mp h; cases this
            · split at h
              · rcases List.mem_append.mp h with h | h
                · have := propagated_out cfg h; cases this
                · have := List.mem_singleton.mp h; cases this
              · have := List.mem_singleton.mp h; cases this
  | propagate r f d =>
    replace h : _ ∈ (if cfg.prop.authentic r then s.processPropagate cfg r f d else (s, [])).2 := h
    split at h
    · rcases processPropagate_out cfg h with h | ⟨_, _, h⟩ <;> cases h
    · exact (nomatch h)
  | propRep r f d =>
    rcases processPropagate_out cfg h with h | ⟨_, _, h⟩ <;> cases h
  | apply j ks => exact ⟨j, ks, rfl⟩
  | order =>
    obtain ⟨l', m, t', c', h, hm, hs, hu⟩ := order_out cfg h
    cases h
  | revert n => exact (nomatch h)
  | caughtUp r => exact (nomatch h)
  | outdated k => exact (nomatch h)
  | ordered k => exact (nomatch h)
  | released i k => exact (nomatch h)
  | replicas n => exact (nomatch h)
  | viewChange b => exact (nomatch h)
  | restart => exact (nomatch h)

theorem run_reject (es : List Ev) {c : Client} {r : Req} (h : .client c (.reject r) ∈ (State.run cfg {} es).2)
    (hk : cfg.kind r ≠ .action) :
    ∃ pre l ks post, es = pre ++ .apply l ks :: post ∧
      .client c (.reject r) ∈ ((State.run cfg {} pre).1.apply cfg l ks).2 := by
  induction es using snoc_induction with
  | nil => exact (nomatch h)
  | snoc es e ih =>
    rw [run_snoc] at h
    dsimp only at h
    rcases List.mem_append.mp h with h | h
    · obtain ⟨pre, l, ks, post, rfl, hx⟩ := ih h
      exact ⟨pre, l, ks, post ++ [e], by simp, hx⟩
    · obtain ⟨l, ks, rfl⟩ := step_reject cfg h hk
      exact ⟨es, l, ks, [], rfl, h⟩

end Verif.Answers
