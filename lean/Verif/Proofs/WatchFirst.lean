import Verif.Proofs.WatchHistory
/-!
# The first vote against a primary
-/
namespace Verif.Watch

variable (cfg : Cfg)

/-- A part that neither votes nor starts voting. -/
structure Mute (s t : State) : Prop where
  votes : t.votes = s.votes
  proposing : t.proposing = true → s.proposing = true
  running : t.running = s.running

theorem Mute.refl (s : State) : Mute s s := ⟨rfl, id, rfl⟩

theorem Mute.trans {s t u : State} (h : Mute s t) (g : Mute t u) : Mute s u :=
  ⟨g.votes.trans h.votes, fun x => h.proposing (g.proposing x), g.running.trans h.running⟩

theorem mute_stopProposing (s : State) : Mute s s.stopProposing := by
  unfold State.stopProposing
  split
  · exact ⟨rfl, fun h => (nomatch h), rfl⟩
  · exact .refl s

theorem mute_stopResending (s : State) : Mute s s.stopResending := by
  unfold State.stopResending
  split <;> exact ⟨rfl, id, rfl⟩

theorem mute_startResending (s : State) : Mute s (s.startResending cfg) := by
  unfold State.startResending
  split <;> exact ⟨rfl, id, rfl⟩

theorem mute_scheduleCheck (s : State) : Mute s (s.scheduleCheck cfg) := ⟨rfl, id, rfl⟩

theorem mute_primaryConnected (s : State) : Mute s s.primaryConnected :=
  Mute.trans (t := { s with disc := none, timer := s.timer.cancel checkCb }) ⟨rfl, id, rfl⟩ (mute_stopProposing _)

theorem mute_primaryDisconnected (s : State) : Mute s (s.primaryDisconnected cfg) := ⟨rfl, id, rfl⟩

theorem mute_processConnected (s : State) (n : Node) : Mute s (s.processConnected n) := by
  unfold State.processConnected
  split
  · exact mute_primaryConnected s
  · exact .refl s

theorem mute_processDisconnected (s : State) (n : Node) : Mute s (s.processDisconnected cfg n) := by
  unfold State.processDisconnected
  split
  · exact mute_primaryDisconnected cfg s
  · exact .refl s

theorem mute_foldl {f : State → Node → State} (h : ∀ s n, Mute s (f s n)) (l : List Node) (s : State) :
    Mute s (l.foldl f s) := by
  induction l generalizing s with
  | nil => exact .refl s
  | cons n l ih => exact (h s n).trans (ih _)

theorem mute_updateConnecteds (s : State) (l : List Node) : Mute s (s.updateConnecteds cfg l) := by
  unfold State.updateConnecteds
  dsimp only
  refine Mute.trans (t := { s with connected := l }) ⟨rfl, id, rfl⟩ ?_
  exact (mute_foldl mute_processConnected _ _).trans (mute_foldl (mute_processDisconnected cfg) _ _)

theorem mute_primarySelected (s : State) : Mute s (s.primarySelected cfg) := by
  unfold State.primarySelected
  split
  · exact mute_primaryConnected s
  · exact mute_primaryDisconnected cfg s

/-- No vote said that the primary is gone. -/
def Unvoted (s : State) : Prop := ∀ x ∈ s.votes, x.2 ≠ .disconnected

/-- The repeated votes begin with a first one. -/
def Begun (s : State) : Prop := Unvoted s → s.proposing = false ∧ s.running ≠ some checkCb

theorem Begun.mute {s t : State} (h : Begun s) (c : Mute s t) : Begun t := by
  intro hu
  have := h (by intro x hx; exact hu x (by rw [c.votes]; exact hx))
  refine ⟨?_, by rw [c.running]; exact this.2⟩
  cases ht : t.proposing with
  | false => rfl
  | true => rw [c.proposing ht] at this; exact (nomatch this.1)

/-- A turn of the timer. If nothing was voted before and something is, the node is ready and caught up. -/
theorem turn_begun {s : State} (h : Begun s) :
    Begun (s.turn cfg) ∧ (Unvoted s → ¬ Unvoted (s.turn cfg) → s.ready = true ∧ s.synced = true) := by
  have stay : ∀ t : State, Mute s t → Begun t ∧ (Unvoted s → ¬ Unvoted t → s.ready = true ∧ s.synced = true) := by
    intro t c
    refine ⟨h.mute c, fun hu hn => (hn ?_).elim⟩
    intro x hx; exact hu x (by rw [← c.votes]; exact hx)
  unfold State.turn
  split
  · exact stay s (.refl s)
  · rename_i e _
    dsimp only
    split
    · unfold State.check
      split
      · exact stay _ ⟨rfl, id, rfl⟩
      · split
        · exact stay _ ⟨rfl, id, rfl⟩
        · rename_i _ hr
          refine ⟨fun hu => ?_, fun _ _ => ?_⟩
          · exact (hu (s.timer.turn.now, .disconnected) (List.mem_append_right _ List.mem_cons_self) rfl).elim
          · revert hr
            cases hr1 : s.ready <;> cases hr2 : s.synced <;> simp
    · split
      · split
        · rename_i hp
          have hp' : s.proposing = true := hp
          have nv : ¬ Unvoted s := fun hu => by rw [(h hu).1] at hp'; exact nomatch hp'
          refine ⟨fun hu => (nv ?_).elim, fun hu => (nv hu).elim⟩
          intro x hx
          refine hu x ?_
          unfold State.propose
          dsimp only
          split
          · exact List.mem_append_left _ hx
          · exact hx
        · exact stay _ ⟨rfl, id, rfl⟩
      · split
        · split
          · have sub : Unvoted { ({ s with timer := s.timer.turn } : State).vote .timeout with running := some resendCb } → Unvoted s :=
              fun hu x hx => hu x (List.mem_append_left _ hx)
            refine ⟨fun hu => ⟨(h (sub hu)).1, show some resendCb ≠ some checkCb by decide⟩, fun hu hn => (hn ?_).elim⟩
            intro x hx
            rcases List.mem_append.mp hx with hx | hx
            · exact hu x hx
            · rw [List.mem_singleton.mp hx]; exact fun e => nomatch e
          · exact stay _ ⟨rfl, id, rfl⟩
        · exact stay _ ⟨rfl, id, rfl⟩

theorem step_begun {s : State} (h : Begun s) (e : Ev) :
    Begun (s.step cfg e) ∧
    (Unvoted s → ¬ Unvoted (s.step cfg e) → e = .turn ∧ s.ready = true ∧ s.synced = true) := by
  have stay : ∀ t : State, Mute s t → Begun t ∧ (Unvoted s → ¬ Unvoted t → e = .turn ∧ s.ready = true ∧ s.synced = true) := by
    intro t c
    refine ⟨h.mute c, fun hu hn => (hn ?_).elim⟩
    intro x hx; exact hu x (by rw [← c.votes]; exact hx)
  cases e with
  | tick d =>
    refine stay _ ?_
    show Mute s (if s.running.isSome then s else { s with timer := { s.timer with now := s.timer.now + d } })
    split
    · exact .refl s
    · exact ⟨rfl, id, rfl⟩
  | turn =>
    show Begun (if s.running.isSome then s else s.turn cfg : State) ∧
      (Unvoted s → ¬ Unvoted (if s.running.isSome then s else s.turn cfg : State) → _)
    split
    · exact stay s (.refl s)
    · exact ⟨(turn_begun cfg h).1, fun a b => ⟨rfl, (turn_begun cfg h).2 a b⟩⟩
  | callbackEnd =>
    show Begun (s.callbackEnd cfg) ∧ (Unvoted s → ¬ Unvoted (s.callbackEnd cfg) → _)
    unfold State.callbackEnd
    split
    · exact stay s (.refl s)
    · rename_i cb hr
      dsimp only
      split
      · rename_i hcb
        have nv : ¬ Unvoted s := fun hu => (h hu).2 (by rw [hr, hcb])
        refine ⟨fun hu => (nv ?_).elim, fun hu => (nv hu).elim⟩
        intro x hx
        refine hu x ?_
        unfold State.startProposing
        split <;> exact hx
      · exact ⟨fun hu => ⟨(h hu).1, fun e => nomatch e⟩, fun hu hn => (hn hu).elim⟩
  | conns l => exact stay _ (mute_updateConnecteds cfg s l)
  | needViewChange p =>
    show Begun (s.needViewChange cfg p) ∧ (Unvoted s → ¬ Unvoted (s.needViewChange cfg p) → _)
    unfold State.needViewChange
    dsimp only
    split
    · have c := (mute_stopResending (({ s with waiting := true, primary := some p } : State).vote .samePrimary)).trans
        (mute_startResending cfg _)
      have hv : Unvoted s → Unvoted (({ s with waiting := true, primary := some p } : State).vote .samePrimary) := by
        intro hu x hx
        rcases List.mem_append.mp hx with hx | hx
        · exact hu x hx
        · rw [List.mem_singleton.mp hx]; exact fun e => nomatch e
      have hb : Begun (({ s with waiting := true, primary := some p } : State).vote .samePrimary) := by
        intro hu
        exact h (fun x hx => hu x (List.mem_append_left _ hx))
      refine ⟨hb.mute c, fun hu hn => (hn ?_).elim⟩
      intro x hx
      exact hv hu x (by rw [← c.votes]; exact hx)
    · exact stay _ (Mute.trans (t := { s with waiting := true, primary := some p }) ⟨rfl, id, rfl⟩
        ((mute_stopResending _).trans (mute_startResending cfg _)))
  | newView p =>
    exact stay _ (Mute.trans (t := { s with waiting := false, primary := p.or s.primary }) ⟨rfl, id, rfl⟩
      ((mute_stopResending _).trans (mute_primarySelected cfg _)))
  | caughtUp p =>
    exact stay _ (Mute.trans (t := { s with primary := some p }) ⟨rfl, id, rfl⟩ (mute_primarySelected cfg _))
  | hungry =>
    refine stay _ ?_
    show Mute s (s.hungry cfg)
    unfold State.hungry
    dsimp only
    split <;> exact ⟨rfl, id, rfl⟩
  | setReady b => exact stay _ ⟨rfl, id, rfl⟩
  | setSynced b => exact stay _ ⟨rfl, id, rfl⟩
  | setValidators l => exact stay _ ⟨rfl, id, rfl⟩
  | schedule d cb =>
    refine stay _ ?_
    show Mute s (if cb ≤ 2 then s else { s with timer := s.timer.schedule d cb })
    split
    · exact .refl s
    · exact ⟨rfl, id, rfl⟩
  | cancel cb =>
    refine stay _ ?_
    show Mute s (if cb ≤ 2 then s else { s with timer := s.timer.cancel cb })
    split
    · exact .refl s
    · exact ⟨rfl, id, rfl⟩

theorem begun_run (es : List Ev) : Begun (run cfg es) := by
  induction es using snoc_induction with
  | nil => exact fun _ => ⟨rfl, fun e => nomatch e⟩
  | snoc es e ih => rw [run_snoc']; exact (step_begun cfg ih e).1

theorem first_vote (es : List Ev) (h : ¬ Unvoted (run cfg es)) :
    ∃ pre post, es = pre ++ .turn :: post ∧ Unvoted (run cfg pre) ∧ ¬ Unvoted (run cfg (pre ++ [.turn])) ∧
      (run cfg pre).ready = true ∧ (run cfg pre).synced = true := by
  induction es using snoc_induction with
  | nil => exact (h (fun x hx => nomatch hx)).elim
  | snoc es e ih =>
    by_cases hu : Unvoted (run cfg es)
    · have h' := h
      rw [run_snoc'] at h'
      obtain ⟨he, hr⟩ := (step_begun cfg (begun_run cfg es) e).2 hu h'
      subst he
      exact ⟨es, [], rfl, hu, h, hr⟩
    · obtain ⟨pre, post, rfl, hp⟩ := ih hu
      exact ⟨pre, post ++ [e], by simp, hp⟩

end Verif.Watch
