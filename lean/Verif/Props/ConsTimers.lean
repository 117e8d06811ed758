import Verif.Props.ConsAsk
/-!
# Repeated questions of a node that looks for a target of catchup (C106)
-/
namespace Verif.Props
open Verif.ConsAsk Verif.ConsAsk.Spec
open Verif.Catchup (Name)
open Verif.ConsProof (Proof Status Msg Key)

/-- None of the timers is set. -/
def noTimer (a : Ask) : Prop := a.statusTimer = false ∧ a.proofTimer = false ∧ a.cpTimer = false

theorem tryAsk_timers (a : Ask) : a.tryAsk.statusTimer = a.statusTimer ∧ a.tryAsk.proofTimer = a.proofTimer ∧
    a.tryAsk.cpTimer = a.cpTimer ∧ a.tryAsk.cp = a.cp := by
  unfold Ask.tryAsk
  split
  · exact ⟨rfl, rfl, rfl, rfl⟩
  · split
    · exact ⟨rfl, rfl, rfl, rfl⟩
    · split
      · exact ⟨rfl, rfl, rfl, rfl⟩
      · split <;> exact ⟨rfl, rfl, rfl, rfl⟩

/-- What a proof does to the timers. -/
theorem processProof_timers (a : Ask) (p : Proof) (x : Name) :
    a.processProof p x = a ∨
    ((a.processProof p x).cp.working = false ∧ noTimer (a.processProof p x)) ∨
    ((a.note p x).shouldSchedule = false ∧ (a.processProof p x).statusTimer = a.statusTimer ∧
      (a.processProof p x).proofTimer = a.proofTimer) ∨
    ((a.note p x).shouldSchedule = true ∧ p.seqStart ≤ a.cp.size ∧ p.seqStart < p.seqEnd ∧
      a.cp.working = true ∧ (a.processProof p x).cpTimer = true) := by
  unfold Ask.processProof
  by_cases h1 : ¬ a.cp.working
  · rw [if_pos h1]; exact .inl rfl
  · rw [if_neg h1]
    by_cases h2 : p.seqStart > a.cp.size
    · rw [if_pos h2]; exact .inl rfl
    · rw [if_neg h2]
      by_cases h3 : p.seqEnd ≤ p.seqStart
      · rw [if_pos h3]; exact .inl rfl
      · rw [if_neg h3]
        dsimp only
        split
        · exact .inr (.inl ⟨finishNo_working _, rfl, rfl, rfl⟩)
        · rw [show ({ a with cp := { a.cp with proofs := a.cp.proofs.set x (some p) } } : Ask) = a.note p x from rfl]
          obtain ⟨t1, t2, t3, t4⟩ := tryAsk_timers (a.note p x)
          have hsh : (a.note p x).tryAsk.shouldSchedule = (a.note p x).shouldSchedule := by
            unfold Ask.shouldSchedule; rw [t4]
          generalize (a.note p x).tryAsk = b at t1 t2 t3 t4 hsh ⊢
          split
          · cases hb : b.shouldSchedule with
            | true =>
              refine .inr (.inr (.inr ⟨by rw [← hsh]; exact hb, by omega, by omega, by simpa using h1, ?_⟩))
              rw [if_pos rfl]; rfl
            | false =>
              refine .inr (.inr (.inl ⟨by rw [← hsh]; exact hb, ?_, ?_⟩))
              · rw [if_neg (by simp)]; exact t1
              · rw [if_neg (by simp)]; exact t2
          · exact .inr (.inl ⟨rfl, rfl, rfl, rfl⟩)

/-- What a status does to the timers. -/
theorem processStatus_timers (a : Ask) (st : Status) (x : Name) :
    ((a.processStatus st x).cp.working = false ∧ (a.processStatus st x = a ∨ noTimer (a.processStatus st x))) ∨
    ((a.processStatus st x).cp.working = true ∧ (a.processStatus st x).statusTimer = a.statusTimer ∧
      (a.processStatus st x).cpTimer = a.cpTimer ∧
      (a.processStatus st x).proofTimer = (a.proofTimer || decide (a.cp.size < st.size))) := by
  unfold Ask.processStatus
  by_cases h1 : ¬ a.cp.working
  · rw [if_pos h1]; exact .inl ⟨by simpa using h1, .inl rfl⟩
  · rw [if_neg h1]
    by_cases h2 : a.cp.size < st.size
    · rw [if_pos h2]
      exact .inr ⟨by simpa using h1, rfl, rfl, by simp [h2]⟩
    · rw [if_neg h2]
      dsimp only
      split
      · rename_i hw
        exact .inr ⟨hw, rfl, rfl, by simp [h2]⟩
      · rename_i hw
        exact .inl ⟨by simpa using hw, .inr ⟨rfl, rfl, rfl⟩⟩

/-- What the last timer does to the timers. -/
theorem tickCp_timers (a : Ask) : a.tickCp.statusTimer = a.statusTimer ∧ a.tickCp.proofTimer = a.proofTimer ∧
    a.tickCp.cpTimer = false := by
  unfold Ask.tickCp
  split
  · rename_i h; exact ⟨rfl, rfl, by simpa using h⟩
  · dsimp only
    split
    · exact ⟨rfl, rfl, rfl⟩
    · split
      · exact ⟨rfl, rfl, rfl⟩
      · split
        · exact ⟨rfl, rfl, rfl⟩
        · split
          · exact ⟨rfl, rfl, rfl⟩
          · split
            · exact ⟨rfl, rfl, rfl⟩
            · split <;> exact ⟨rfl, rfl, rfl⟩

theorem tickStatus_keep (a : Ask) : a.tickStatus.statusTimer = a.statusTimer ∧ a.tickStatus.proofTimer = a.proofTimer ∧
    a.tickStatus.cpTimer = a.cpTimer ∧ a.tickStatus.cp = a.cp := by
  unfold Ask.tickStatus; split <;> exact ⟨rfl, rfl, rfl, rfl⟩

theorem tickProof_keep (a : Ask) : a.tickProof.statusTimer = a.statusTimer ∧ a.tickProof.proofTimer = a.proofTimer ∧
    a.tickProof.cpTimer = a.cpTimer ∧ a.tickProof.cp = a.cp := by
  unfold Ask.tickProof; split <;> exact ⟨rfl, rfl, rfl, rfl⟩

theorem noTimer_step (a : Ask) (e : Ev) (h : a.cp.working = false → noTimer a) :
    (a.step e).cp.working = false → noTimer (a.step e) := by
  intro hw
  cases e with
  | msg x m =>
    cases m with
    | status st =>
      have e : a.step (.msg x (.status st)) = a.processStatus st x := rfl
      rw [e] at hw ⊢
      rcases processStatus_timers a st x with ⟨_, h' | h'⟩ | ⟨h', _⟩
      · rw [h'] at hw ⊢; exact h hw
      · exact h'
      · rw [hw] at h'; cases h'
    | proof p =>
      have e : a.step (.msg x (.proof p)) = a.processProof p x := rfl
      rw [e] at hw ⊢
      cases hw0 : a.cp.working with
      | false =>
        have : a.processProof p x = a := by unfold Ask.processProof; rw [if_pos (by simp [hw0])]
        rw [this]; exact h hw0
      | true =>
        -- it has just finished
        unfold Ask.processProof at hw ⊢
        rw [if_neg (by simp [hw0])] at hw ⊢
        by_cases h2 : p.seqStart > a.cp.size
        · rw [if_pos h2, hw0] at hw; cases hw
        · rw [if_neg h2] at hw ⊢
          by_cases h3 : p.seqEnd ≤ p.seqStart
          · rw [if_pos h3, hw0] at hw; cases hw
          · rw [if_neg h3] at hw ⊢
            dsimp only at hw ⊢
            split at hw
            · rename_i hc; rw [if_pos hc]; exact ⟨rfl, rfl, rfl⟩
            · rename_i hc
              rw [if_neg hc]
              split at hw
              · rw [sched_cp, tryAsk_cp] at hw
                change a.cp.working = false at hw
                rw [hw0] at hw; cases hw
              · exact ⟨rfl, rfl, rfl⟩
  | tickStatus =>
    have e : a.step .tickStatus = a.tickStatus := rfl
    rw [e] at hw ⊢
    obtain ⟨t1, t2, t3, t4⟩ := tickStatus_keep a
    rw [t4] at hw
    exact ⟨by rw [t1]; exact (h hw).1, by rw [t2]; exact (h hw).2.1, by rw [t3]; exact (h hw).2.2⟩
  | tickProof =>
    have e : a.step .tickProof = a.tickProof := rfl
    rw [e] at hw ⊢
    obtain ⟨t1, t2, t3, t4⟩ := tickProof_keep a
    rw [t4] at hw
    exact ⟨by rw [t1]; exact (h hw).1, by rw [t2]; exact (h hw).2.1, by rw [t3]; exact (h hw).2.2⟩
  | tickCp =>
    have e : a.step .tickCp = a.tickCp := rfl
    rw [e] at hw ⊢
    obtain ⟨t1, t2, t3⟩ := tickCp_timers a
    rw [tickCp_cp] at hw
    exact ⟨by rw [t1]; exact (h hw).1, by rw [t2]; exact (h hw).2.1, t3⟩

theorem done_noTimer (a0 : Ask) (request : Bool) (n size root : Nat) (evs : List Ev) :
    ((looking a0 request n size root).run evs).cp.working = false →
    noTimer ((looking a0 request n size root).run evs) := by
  induction evs using snoc_induction with
  | nil => intro h; cases h
  | snoc evs e ih => rw [ConsAsk.run_snoc]; exact noTimer_step _ e ih

/-- **C106** (it is silent when it has decided). Once the node does not look for a target any more it sends
nothing more, whatever messages come and timers are due. -/
theorem C106_silent (a0 : Ask) (request : Bool) (n size root : Nat) (evs later : List Ev)
    (h : ((looking a0 request n size root).run evs).cp.working = false) :
    ((looking a0 request n size root).run (evs ++ later)).sent = ((looking a0 request n size root).run evs).sent := by
  have hrun : ∀ (l : List Ev) (a : Ask), a.cp.working = false → noTimer a → a.run l = a := by
    intro l
    induction l with
    | nil => intro a _ _; rfl
    | cons e l ih =>
      intro a hw ht
      have hstep : a.step e = a := by
        cases e with
        | msg x m =>
          cases m with
          | status st => show a.processStatus st x = a; unfold Ask.processStatus; rw [if_pos (by simp [hw])]
          | proof p => show a.processProof p x = a; unfold Ask.processProof; rw [if_pos (by simp [hw])]
        | tickStatus => show a.tickStatus = a; unfold Ask.tickStatus; rw [if_pos (by simp [ht.1])]
        | tickProof => show a.tickProof = a; unfold Ask.tickProof; rw [if_pos (by simp [ht.2.1])]
        | tickCp => show a.tickCp = a; unfold Ask.tickCp; rw [if_pos (by simp [ht.2.2])]
      have : a.run (e :: l) = (a.step e).run l := rfl
      rw [this, hstep]
      exact ih a hw ht
  have : (looking a0 request n size root).run (evs ++ later) = ((looking a0 request n size root).run evs).run later := by
    simp [Ask.run]
  rw [this, hrun later _ h (done_noTimer a0 request n size root evs h)]

/-! ### The questions go on -/

/-- At some moment `f+1` nodes have claimed last to have more than they were thought to have. -/
def manyProofs (n size : Nat) (evs : List Ev) : Prop :=
  ∃ evs1 evs2, evs = evs1 ++ evs2 ∧ ∃ X : List Name, X.Nodup ∧ X.length = getMaxFailures n + 1 ∧
    ∀ x ∈ X, ∃ p, lastSaid size (msgs evs1) x = some (some p)

theorem manyProofs.snoc {n size : Nat} {evs : List Ev} (h : manyProofs n size evs) (e : Ev) :
    manyProofs n size (evs ++ [e]) := by
  obtain ⟨e1, e2, rfl, h⟩ := h
  exact ⟨e1, e2 ++ [e], by simp, h⟩

theorem manyProofs_of_schedule {a0 : Ask} {request : Bool} {n size root : Nat} {evs : List Ev} {x : Name} {p : Proof}
    (hw : ((looking a0 request n size root).run evs).cp.working = true)
    (hs : ((((looking a0 request n size root).run evs)).note p x).shouldSchedule = true)
    (hp : p.seqStart ≤ size ∧ p.seqStart < p.seqEnd) : manyProofs n size (evs ++ [.msg x (.proof p)]) := by
  obtain ⟨hsz, hn⟩ := looking_size a0 request n size root evs
  have hcp := looking_cp a0 request n size root evs
  generalize (looking a0 request n size root).run evs = a at *
  have hnoted : Noted n size (msgs evs) a.cp := by
    rw [hcp] at hw ⊢; exact Noted.run a0.cp n size root _ hw
  have hsay : says size (.proof p) = some (some p) := by
    simp only [says]; rw [if_pos hp]
  have hk := Dict.nodup_keys_set hnoted.keys x (some p)
  refine ⟨evs ++ [.msg x (.proof p)], [], by simp, ((a.cp.proofs.set x (some p)).filter (fun e => e.2.isSome)).map Prod.fst,
    hk.sublist ((List.filter_sublist).map _), ?_, ?_⟩
  · rw [List.length_map]
    unfold Ask.shouldSchedule at hs
    have := of_decide_eq_true hs
    have hf : (a.note p x).cp.q.f = getMaxFailures n := by
      show (Quorums.ofN a.cp.n).f = _
      rw [hn]; rfl
    rw [hf] at this
    exact this
  · intro y hy
    obtain ⟨⟨z, o⟩, hz, rfl⟩ := List.mem_map.1 hy
    obtain ⟨hz, hc⟩ := List.mem_filter.1 hz
    cases o with
    | none => cases hc
    | some q =>
      refine ⟨q, ?_⟩
      rw [msgs_snoc_msg, ← hnoted.set hsay z]
      exact Dict.get?_of_mem hk hz

/-- **C106** (it goes on asking, partial). As long as the node looks for a target and there was no moment
at which `f+1` nodes claimed to have more, it goes on asking for ledger statuses: its timer is set.

Partial: after such a moment it may not ask any more: `C106_stuck`. -/
theorem C106_goes_on_partial (a0 : Ask) (request : Bool) (n size root : Nat) (evs : List Ev)
    (hw : ((looking a0 request n size root).run evs).cp.working = true) (hm : ¬ manyProofs n size evs) :
    ((looking a0 request n size root).run evs).statusTimer = true := by
  induction evs using snoc_induction with
  | nil => rfl
  | snoc evs e ih =>
    have hm0 : ¬ manyProofs n size evs := fun h => hm (h.snoc e)
    have ih := fun h => ih h hm0
    have hsz := (looking_size a0 request n size root evs).1
    rw [ConsAsk.run_snoc] at hw ⊢
    cases e with
    | msg x m =>
      cases m with
      | status st =>
        have hw0 : ((looking a0 request n size root).run evs).cp.working = true := by
          cases h : ((looking a0 request n size root).run evs).cp.working with
          | true => rfl
          | false =>
            have e : Ask.step ((looking a0 request n size root).run evs) (.msg x (.status st)) = (looking a0 request n size root).run evs := by
              show Ask.processStatus _ st x = _
              unfold Ask.processStatus; rw [if_pos (by simp [h])]
            rw [e, h] at hw; cases hw
        have e : Ask.step ((looking a0 request n size root).run evs) (.msg x (.status st)) = Ask.processStatus ((looking a0 request n size root).run evs) st x := rfl
        rw [e] at hw ⊢
        rcases processStatus_timers ((looking a0 request n size root).run evs) st x with ⟨h, _⟩ | ⟨_, h, _⟩
        · rw [hw] at h; cases h
        · rw [h]; exact ih hw0
      | proof p =>
        have hw0 : ((looking a0 request n size root).run evs).cp.working = true := by
          cases h : ((looking a0 request n size root).run evs).cp.working with
          | true => rfl
          | false =>
            have e : Ask.step ((looking a0 request n size root).run evs) (.msg x (.proof p)) = (looking a0 request n size root).run evs := by
              show Ask.processProof _ p x = _
              unfold Ask.processProof; rw [if_pos (by simp [h])]
            rw [e, h] at hw; cases hw
        have e : Ask.step ((looking a0 request n size root).run evs) (.msg x (.proof p)) = Ask.processProof ((looking a0 request n size root).run evs) p x := rfl
        rw [e] at hw ⊢
        rcases processProof_timers ((looking a0 request n size root).run evs) p x with h | ⟨h, _⟩ | ⟨_, h, _⟩ | ⟨h1, h2, h3, _, _⟩
        · rw [h]; exact ih hw0
        · rw [hw] at h; cases h
        · rw [h]; exact ih hw0
        · exact absurd (manyProofs_of_schedule hw0 h1 ⟨by omega, h3⟩) hm
    | tickStatus =>
      obtain ⟨t1, t2, t3, t4⟩ := tickStatus_keep ((looking a0 request n size root).run evs)
      have e : Ask.step ((looking a0 request n size root).run evs) .tickStatus = Ask.tickStatus _ := rfl
      rw [e] at hw ⊢
      rw [t1]; rw [t4] at hw; exact ih hw
    | tickProof =>
      obtain ⟨t1, t2, t3, t4⟩ := tickProof_keep ((looking a0 request n size root).run evs)
      have e : Ask.step ((looking a0 request n size root).run evs) .tickProof = Ask.tickProof _ := rfl
      rw [e] at hw ⊢
      rw [t1]; rw [t4] at hw; exact ih hw
    | tickCp =>
      obtain ⟨t1, t2, t3⟩ := tickCp_timers ((looking a0 request n size root).run evs)
      have e : Ask.step ((looking a0 request n size root).run evs) .tickCp = Ask.tickCp _ := rfl
      rw [e] at hw ⊢
      rw [t1]; rw [tickCp_cp] at hw; exact ih hw

/-! ### Who is asked -/

theorem same_iff (s0 : ConsProof.State) (n size root : Nat) (ms : List (Name × Msg)) :
    ((s0.start n size root).run ms).working = true →
    ∀ x, x ∈ ((s0.start n size root).run ms).same ↔ ∃ st, (x, Msg.status st) ∈ ms ∧ st.size ≤ size := by
  induction ms using snoc_induction with
  | nil => intro _ x; simp [ConsProof.State.run, ConsProof.State.start]
  | snoc ms m ih =>
    obtain ⟨y, m⟩ := m
    have e : (s0.start n size root).run (ms ++ [(y, m)]) = ((s0.start n size root).run ms).step (y, m) := by
      simp [ConsProof.State.run]
    rw [e]
    intro hw
    have hinv := (RoundInv.run s0 n size root ms).inv.sz
    generalize (s0.start n size root).run ms = s at *
    have hw0 : s.working = true := by
      cases h : s.working with
      | true => rfl
      | false => rw [step_stopped _ _ h, h] at hw; cases hw
    have ih := ih hw0
    have hsame : (s.step (y, m)).same = s.same →
        (∀ st, m = .status st → size < st.size) →
        ∀ x, x ∈ (s.step (y, m)).same ↔ ∃ st, (x, Msg.status st) ∈ ms ++ [(y, m)] ∧ st.size ≤ size := by
      intro h1 h2 x
      rw [h1, ih x]
      constructor
      · rintro ⟨st, a, b⟩; exact ⟨st, List.mem_append_left _ a, b⟩
      · rintro ⟨st, a, b⟩
        rcases List.mem_append.1 a with a | a
        · exact ⟨st, a, b⟩
        · simp only [List.mem_singleton, Prod.mk.injEq] at a
          have := h2 st a.2.symm
          omega
    cases m with
    | status st =>
      have e : s.step (y, .status st) = s.processStatus st y := rfl
      by_cases h2 : s.size < st.size
      · apply hsame
        · rw [e]; unfold ConsProof.State.processStatus; rw [if_neg (by simp [hw0]), if_pos h2]
        · intro st' h; injection h with h; subst h; omega
      · rw [e] at hw ⊢
        have hres : (s.processStatus st y).same = if y ∈ s.same then s.same else s.same ++ [y] := by
          unfold ConsProof.State.processStatus at hw ⊢
          rw [if_neg (by simp [hw0]), if_neg h2] at hw ⊢
          dsimp only at hw ⊢
          generalize (if y ∈ s.same then s.same else s.same ++ [y]) = sm at hw ⊢
          by_cases h3 : s.size = st.size
          · rw [if_pos h3] at hw ⊢
            split at hw
            · rename_i hc; rw [if_pos hc]
            · rw [finishNo_working] at hw; cases hw
          · rw [if_neg h3] at hw ⊢
            split at hw
            · rename_i hc; rw [if_pos hc]
            · rw [finishNo_working] at hw; cases hw
        intro x
        rw [hres]
        have hx : (x ∈ if y ∈ s.same then s.same else s.same ++ [y]) ↔ x ∈ s.same ∨ x = y := by
          split
          · rename_i hy
            exact ⟨.inl, fun h => h.elim id (fun h => h ▸ hy)⟩
          · simp
        rw [hx, ih x]
        constructor
        · rintro (⟨st', a, b⟩ | rfl)
          · exact ⟨st', List.mem_append_left _ a, b⟩
          · exact ⟨st, by simp, by omega⟩
        · rintro ⟨st', a, b⟩
          rcases List.mem_append.1 a with a | a
          · exact .inl ⟨st', a, b⟩
          · simp only [List.mem_singleton, Prod.mk.injEq] at a
            exact .inr a.1
    | proof p =>
      apply hsame
      · have e : s.step (y, .proof p) = s.processProof p y := rfl
        rw [e] at hw ⊢
        unfold ConsProof.State.processProof at hw ⊢
        rw [if_neg (by simp [hw0])] at hw ⊢
        by_cases h2 : p.seqStart > s.size
        · rw [if_pos h2]
        · rw [if_neg h2] at hw ⊢
          by_cases h3 : p.seqEnd ≤ p.seqStart
          · rw [if_pos h3]
          · rw [if_neg h3] at hw ⊢
            dsimp only at hw ⊢
            split at hw
            · rw [finishNo_working] at hw; cases hw
            · rename_i hc
              rw [if_neg hc]
              split at hw
              · rfl
              · cases hw
      · intro st h; cases h

/-- **C106** (who is asked again). When the timer for ledger statuses fires, exactly the other nodes are asked
that have not yet said that they have no more. When the timer for the last proof fires, the node sends its own
status to exactly those from which nothing that counts has come. When it gets a status that says more, it
sends its own status back. -/
theorem C106_asked_again (a0 : Ask) (request : Bool) (n size root : Nat) (evs : List Ev)
    (hw : ((looking a0 request n size root).run evs).cp.working = true) :
    let a := (looking a0 request n size root).run evs
    (a.statusTimer = true → ∃ to, (a.step .tickStatus).sent = a.sent ++ [.askStatus (some to)] ∧
      ∀ x, x ∈ to ↔ x ∈ a.others ∧ ¬ ∃ st, (x, Msg.status st) ∈ msgs evs ∧ st.size ≤ size) ∧
    (a.proofTimer = true → ∃ to, (a.step .tickProof).sent = a.sent ++ [.ownStatus to] ∧
      ∀ x, x ∈ to ↔ x ∈ a.others ∧ lastSaid size (msgs evs) x = none) ∧
    (∀ x st, size < st.size → (a.step (.msg x (.status st))).sent = a.sent ++ [.ownStatus [x]] ∧
      (a.step (.msg x (.status st))).proofTimer = true) := by
  dsimp only
  have hsz := (looking_size a0 request n size root evs).1
  have hcp := looking_cp a0 request n size root evs
  generalize (looking a0 request n size root).run evs = a at *
  have hnoted : Noted n size (msgs evs) a.cp := by
    rw [hcp] at hw ⊢; exact Noted.run a0.cp n size root _ hw
  have hsame : ∀ x, x ∈ a.cp.same ↔ ∃ st, (x, Msg.status st) ∈ msgs evs ∧ st.size ≤ size := by
    rw [hcp] at hw ⊢; exact same_iff a0.cp n size root _ hw
  refine ⟨?_, ?_, ?_⟩
  · intro ht
    refine ⟨a.others.filter (· ∉ a.cp.same), ?_, ?_⟩
    · show (Ask.tickStatus a).sent = _
      unfold Ask.tickStatus; rw [if_neg (by simp [ht])]
    · intro x
      rw [List.mem_filter, ← hsame x]; simp
  · intro ht
    refine ⟨a.others.filter (fun x => ¬ a.cp.proofs.has x), ?_, ?_⟩
    · show (Ask.tickProof a).sent = _
      unfold Ask.tickProof; rw [if_neg (by simp [ht])]
    · intro x
      rw [List.mem_filter, ← hnoted.said x]
      cases hg : a.cp.proofs.get? x with
      | none =>
        have : a.cp.proofs.has x = false := (Dict.has_false_iff _ _).2 hg
        simp [this]
      | some v =>
        have : a.cp.proofs.has x = true := (Dict.has_iff _ _).2 ⟨v, hg⟩
        simp [this]
  · intro x st hlt
    have e : a.step (.msg x (.status st)) = a.processStatus st x := rfl
    rw [e]
    unfold Ask.processStatus
    rw [if_neg (by simp [hw]), if_pos (by omega)]
    exact ⟨rfl, rfl⟩

/-! ### What is asked for at the timeout -/

theorem mem_insertGroup {e y : (Nat × Nat) × Dict Key Nat} : ∀ {l}, y ∈ insertBy e l → y = e ∨ y ∈ l
  | [], h => by simpa [insertBy] using h
  | z :: l, h => by
    unfold insertBy at h
    split at h
    · simpa using h
    · rcases List.mem_cons.1 h with rfl | h
      · exact .inr List.mem_cons_self
      · exact (mem_insertGroup h).imp id (List.mem_cons_of_mem _)

theorem mem_sortGroups {y : (Nat × Nat) × Dict Key Nat} : ∀ {l}, y ∈ sortBy l → y ∈ l
  | [], h => h
  | e :: l, h => by
    rcases mem_insertGroup h with rfl | h
    · exact List.mem_cons_self
    · exact List.mem_cons_of_mem _ (mem_sortGroups h)

theorem mem_foldl_groupAdd (ps : List Proof) : ∀ (g : Dict (Nat × Nat) (Dict Key Nat)) (e),
    e ∈ ps.foldl ConsProof.groupAdd g → (∃ e' ∈ g, e'.1 = e.1) ∨ ∃ p ∈ ps, (p.seqStart, p.seqEnd) = e.1 := by
  induction ps with
  | nil => intro g e h; exact .inl ⟨e, h, rfl⟩
  | cons p ps ih =>
    intro g e h
    rcases ih _ e h with ⟨e', h1, h2⟩ | ⟨q, h1, h2⟩
    · unfold ConsProof.groupAdd at h1
      rcases Dict.mem_set h1 with h1 | h1
      · exact .inl ⟨e', h1, h2⟩
      · subst h1; exact .inr ⟨p, List.mem_cons_self, h2⟩
    · exact .inr ⟨q, List.mem_cons_of_mem _ h1, h2⟩

/-- **C106** (what is asked for at the timeout, partial). It is growth from the node's size to a size that
some node claims last to have.

Partial: it may be a single dishonest node, see `C106_stuck`. -/
theorem C106_timeout_size_partial (a0 : Ask) (request : Bool) (n size root : Nat) (evs : List Ev) (st en : Nat)
    (h : (((looking a0 request n size root).run evs).step .tickCp).sent =
      ((looking a0 request n size root).run evs).sent ++ [.askProof st en]) :
    st = size ∧ ∃ x p, lastSaid size (msgs evs) x = some (some p) ∧ p.seqEnd = en := by
  have hsz := (looking_size a0 request n size root evs).1
  have hcp := looking_cp a0 request n size root evs
  generalize (looking a0 request n size root).run evs = a at *
  have hne : a.sent ≠ a.sent ++ [Req.askProof st en] := by
    intro h; have := congrArg List.length h; simp at this
  have e : a.step .tickCp = a.tickCp := rfl
  rw [e] at h
  unfold Ask.tickCp at h
  split at h
  · exact absurd h hne
  · dsimp only at h
    split at h
    · exact absurd h hne
    · rename_i hw
      split at h
      · exact absurd h hne
      · split at h
        · exact absurd h hne
        · split at h
          · exact absurd h hne
          · split at h
            · exact absurd h hne
            · split at h
              · exact absurd h hne
              · rename_i final hfin
                have hreq := List.append_cancel_left h
                simp only [List.cons.injEq, Req.askProof.injEq, and_true] at hreq
                obtain ⟨q1, q2⟩ := hreq
                subst q2
                refine ⟨by rw [← q1, hsz], ?_⟩
                have hw : a.cp.working = true := by simpa using hw
                have hnoted : Noted n size (msgs evs) a.cp := by
                  rw [hcp] at hw ⊢; exact Noted.run a0.cp n size root _ hw
                unfold requestEnd at hfin
                obtain ⟨g, hg, hge⟩ := Option.map_eq_some_iff.1 hfin
                have hmem := mem_sortGroups (List.mem_of_getElem? hg)
                rcases mem_foldl_groupAdd _ _ _ hmem with ⟨e', h', _⟩ | ⟨p, hp, hpe⟩
                · cases h'
                · obtain ⟨⟨x, o⟩, hx, ho⟩ := List.mem_filterMap.1 hp
                  change o = some p at ho
                  subst ho
                  refine ⟨x, p, ?_, ?_⟩
                  · rw [← hnoted.said x]; exact Dict.get?_of_mem hnoted.keys hx
                  · rw [← hge, ← hpe]

/-- Four of seven nodes say they have 10, 12, 12 and 11 transactions, the last two after it has asked
for what three claimed. At the timeout the size is taken whose number of nodes is the median. -/
example :
    let evs : List Ev := [.msg 1 (.proof (growth 10)), .msg 2 (.proof (growth 12)), .msg 3 (.proof (growth 12)),
       .msg 4 (.status ⟨11, none, none, 7⟩), .tickProof, .msg 4 (.proof (growth 11)), .tickCp, .tickCp]
    ((looking { others := [1, 2, 3, 4, 5, 6] } false 7 3 77).run evs).sent =
      [.ownStatus [4], .ownStatus [4, 5, 6], .askProof 3 11, .askProof 3 11] := by
  decide +kernel

/-- Two of four nodes have no more. The first is not asked again. -/
example :
    let a := (looking { others := [1, 2, 3] } false 4 3 77).run [.msg 1 (.status ⟨3, none, none, 77⟩), .tickStatus]
    a.cp.working = true ∧ a.statusTimer = true ∧ a.sent = [.askStatus (some [2, 3])] ∧
    (let b := a.run [.msg 3 (.status ⟨2, none, none, 7⟩)]
     b.cp.working = false ∧ b.run [.tickStatus, .tickProof, .tickCp] = b) :=
  ⟨by decide +kernel, by decide +kernel, by decide +kernel, by decide +kernel, rfl⟩

/-- No moment with two claims: the hypothesis of `C106_goes_on_partial` is met when nothing has come. -/
example : ¬ manyProofs 4 3 [.tickStatus, .tickStatus] := by
  rintro ⟨e1, e2, he, X, hX, hl, hx⟩
  cases X with
  | nil => cases hl
  | cons x X =>
    obtain ⟨p, hp⟩ := hx x List.mem_cons_self
    have : msgs e1 = [] := by
      have h1 : msgs e1 ++ msgs e2 = msgs (e1 ++ e2) := by simp [msgs, List.filterMap_append]
      rw [← he] at h1
      exact (List.append_eq_nil_iff.1 (h1.trans rfl)).1
    rw [this] at hp
    cases hp

end Verif.Props
