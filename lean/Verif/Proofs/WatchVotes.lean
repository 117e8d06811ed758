import Verif.Proofs.Watch
import Verif.Spec.Watch
/-!
# Watching the primary: votes are sent in time
-/
namespace Verif.Watch
open Verif.Timer (Callback)

variable (cfg : Cfg)

/-! ## What each part does to votes, primary, connections and the clock -/

theorem primaryConnected_frame (s : State) : s.primaryConnected.votes = s.votes ∧ s.primaryConnected.primary = s.primary ∧
    s.primaryConnected.connected = s.connected ∧ s.primaryConnected.timer.now = s.timer.now ∧
    s.primaryConnected.disc = none ∧ s.primaryConnected.validators = s.validators ∧ s.primaryConnected.waiting = s.waiting := by
  obtain ⟨t, e, hn, _⟩ := primaryConnected_eq s
  rw [e]
  exact ⟨rfl, rfl, rfl, hn, rfl, rfl, rfl⟩

theorem stopResending_frame (s : State) : s.stopResending.votes = s.votes ∧ s.stopResending.primary = s.primary ∧
    s.stopResending.connected = s.connected ∧ s.stopResending.timer.now = s.timer.now ∧
    s.stopResending.disc = s.disc ∧ s.stopResending.validators = s.validators ∧ s.stopResending.proposing = s.proposing ∧
    s.stopResending.running = s.running ∧ s.stopResending.waiting = s.waiting := by
  unfold State.stopResending
  split <;> exact ⟨rfl, rfl, rfl, rfl, rfl, rfl, rfl, rfl, rfl⟩

theorem selected_frame (s : State) : (s.primarySelected cfg).votes = s.votes ∧ (s.primarySelected cfg).primary = s.primary ∧
    (s.primarySelected cfg).connected = s.connected ∧ (s.primarySelected cfg).timer.now = s.timer.now ∧
    ((s.primarySelected cfg).disc = none ↔ s.isPrimaryConnected cfg = true) ∧ (s.primarySelected cfg).waiting = s.waiting := by
  unfold State.primarySelected
  split
  · rename_i h
    obtain ⟨h1, h2, h3, h4, h5, _, h6⟩ := primaryConnected_frame s
    exact ⟨h1, h2, h3, h4, by rw [h5, h]; simp, h6⟩
  · rename_i h
    exact ⟨rfl, rfl, rfl, rfl, ⟨fun x => (nomatch x), fun x => absurd x h⟩, rfl⟩

theorem fold_connected_not (u : State) (js : List Node) (h : ∀ p ∈ js, u.primary ≠ some p) : js.foldl State.processConnected u = u := by
  induction js with
  | nil => rfl
  | cons j js ih =>
    rw [List.foldl_cons]
    unfold State.processConnected
    rw [if_neg (h j (List.mem_cons_self ..))]
    exact ih (fun p hp => h p (List.mem_cons_of_mem _ hp))

theorem fold_connected_frame (u : State) (js : List Node) : (js.foldl State.processConnected u).votes = u.votes ∧
    (js.foldl State.processConnected u).primary = u.primary ∧ (js.foldl State.processConnected u).connected = u.connected ∧
    (js.foldl State.processConnected u).timer.now = u.timer.now ∧
    ((js.foldl State.processConnected u).disc = none ↔ u.disc = none ∨ ∃ p ∈ js, u.primary = some p) ∧
    (js.foldl State.processConnected u).waiting = u.waiting := by
  induction js generalizing u with
  | nil => exact ⟨rfl, rfl, rfl, rfl, by simp, rfl⟩
  | cons j js ih =>
    rw [List.foldl_cons]
    obtain ⟨i1, i2, i3, i4, i5, i6⟩ := ih (u.processConnected j)
    rw [i1, i2, i3, i4, i5, i6]
    unfold State.processConnected
    split
    · rename_i hp
      obtain ⟨h1, h2, h3, h4, h5, _, h6⟩ := primaryConnected_frame u
      refine ⟨h1, h2, h3, h4, ?_, h6⟩
      rw [h5]
      exact ⟨fun _ => .inr ⟨j, List.mem_cons_self .., hp⟩, fun _ => .inl rfl⟩
    · rename_i hp
      refine ⟨rfl, rfl, rfl, rfl, ?_, rfl⟩
      constructor
      · rintro (h | ⟨p, hm, h⟩)
        · exact .inl h
        · exact .inr ⟨p, List.mem_cons_of_mem _ hm, h⟩
      · rintro (h | ⟨p, hm, h⟩)
        · exact .inl h
        · rcases List.mem_cons.mp hm with rfl | hm
          · exact absurd h hp
          · exact .inr ⟨p, hm, h⟩

theorem fold_disconnected_frame (u : State) (js : List Node) : (js.foldl (State.processDisconnected cfg) u).votes = u.votes ∧
    (js.foldl (State.processDisconnected cfg) u).primary = u.primary ∧
    (js.foldl (State.processDisconnected cfg) u).connected = u.connected ∧
    (js.foldl (State.processDisconnected cfg) u).timer.now = u.timer.now ∧
    ((js.foldl (State.processDisconnected cfg) u).disc = none ↔ u.disc = none ∧ ∀ p ∈ js, u.primary ≠ some p) ∧
    (js.foldl (State.processDisconnected cfg) u).waiting = u.waiting := by
  induction js generalizing u with
  | nil => exact ⟨rfl, rfl, rfl, rfl, by simp, rfl⟩
  | cons j js ih =>
    rw [List.foldl_cons]
    obtain ⟨i1, i2, i3, i4, i5, i6⟩ := ih (u.processDisconnected cfg j)
    rw [i1, i2, i3, i4, i5, i6]
    unfold State.processDisconnected
    split
    · rename_i hp
      refine ⟨rfl, rfl, rfl, rfl, ?_, rfl⟩
      constructor
      · rintro ⟨h, _⟩; cases h
      · rintro ⟨_, h⟩; exact absurd hp (h j (List.mem_cons_self ..))
    · rename_i hp
      refine ⟨rfl, rfl, rfl, rfl, ?_, rfl⟩
      simp [hp]

theorem conns_frame (s : State) (l : List Node) : (s.updateConnecteds cfg l).votes = s.votes ∧
    (s.updateConnecteds cfg l).primary = s.primary ∧ (s.updateConnecteds cfg l).connected = l ∧
    (s.updateConnecteds cfg l).timer.now = s.timer.now ∧
    ((s.updateConnecteds cfg l).disc = none ↔
      (s.disc = none ∨ ∃ p, s.primary = some p ∧ p ∈ l ∧ p ∉ s.connected) ∧ ¬ ∃ p, s.primary = some p ∧ p ∈ s.connected ∧ p ∉ l) ∧
    (s.updateConnecteds cfg l).waiting = s.waiting := by
  unfold State.updateConnecteds
  dsimp only
  obtain ⟨i1, i2, i3, i4, i5, i6⟩ := fold_disconnected_frame cfg
    ((l.filter (· ∉ s.connected)).foldl State.processConnected { s with connected := l }) (s.connected.filter (· ∉ l))
  obtain ⟨j1, j2, j3, j4, j5, j6⟩ := fold_connected_frame { s with connected := l } (l.filter (· ∉ s.connected))
  refine ⟨i1.trans j1, i2.trans j2, i3.trans j3, i4.trans j4, ?_, i6.trans j6⟩
  rw [i5, j5, j2]
  simp only [List.mem_filter, decide_not, Bool.not_eq_true', decide_eq_false_iff_not, ne_eq, not_exists, not_and, and_imp]
  constructor
  · rintro ⟨h, h'⟩
    refine ⟨h.imp id (fun ⟨p, hm, hp⟩ => ⟨p, hp, hm.1, hm.2⟩), fun p hp hc hl => h' p hc hl hp⟩
  · rintro ⟨h, h'⟩
    refine ⟨h.imp id (fun ⟨p, hp, h1, h2⟩ => ⟨p, ⟨h1, h2⟩, hp⟩), fun p hc hl hp => h' p hp hc hl⟩

theorem step_votes (s : State) (e : Ev) : ∃ l, (s.step cfg e).votes = s.votes ++ l ∧ ∀ x ∈ l, x.1 = s.timer.now := by
  have nil : ∀ u : State, u.votes = s.votes → ∃ l, u.votes = s.votes ++ l ∧ ∀ x ∈ l, x.1 = s.timer.now :=
    fun u h => ⟨[], by simp [h], fun x hx => (nomatch hx)⟩
  cases e with
  | tick d =>
    show ∃ l, (if s.running.isSome then s else { s with timer := { s.timer with now := s.timer.now + d } } : State).votes = _ ∧ _
    split <;> exact nil _ rfl
  | turn =>
    show ∃ l, (if s.running.isSome then s else s.turn cfg : State).votes = _ ∧ _
    split
    · exact nil _ rfl
    · unfold State.turn
      split
      · exact nil _ rfl
      · dsimp only
        have hn := turn_now s.timer
        split
        · unfold State.check
          split
          · exact nil _ rfl
          · split
            · exact nil _ rfl
            · exact ⟨[(s.timer.turn.now, .disconnected)], rfl, fun x hx => by rw [List.mem_singleton.mp hx]; exact hn⟩
        · split
          · split
            · unfold State.propose
              dsimp only
              split
              · exact ⟨[(s.timer.turn.now, .disconnected)], rfl, fun x hx => by rw [List.mem_singleton.mp hx]; exact hn⟩
              · exact nil _ rfl
            · exact nil _ rfl
          · split
            · split
              · exact ⟨[(s.timer.turn.now, .timeout)], rfl, fun x hx => by rw [List.mem_singleton.mp hx]; exact hn⟩
              · exact nil _ rfl
            · exact nil _ rfl
  | callbackEnd =>
    refine nil _ ?_
    show (s.callbackEnd cfg).votes = _
    unfold State.callbackEnd
    split
    · rfl
    · dsimp only
      split
      · unfold State.startProposing; split <;> rfl
      · rfl
  | conns l => exact nil _ (conns_frame cfg s l).1
  | needViewChange p =>
    show ∃ l, (s.needViewChange cfg p).votes = _ ∧ _
    unfold State.needViewChange
    dsimp only
    split
    · obtain ⟨t, e, _⟩ := restart_eq cfg (State.vote { s with waiting := true, primary := some p } .samePrimary)
      rw [e]
      exact ⟨[(s.timer.now, .samePrimary)], rfl, fun x hx => by rw [List.mem_singleton.mp hx]⟩
    · obtain ⟨t, e, _⟩ := restart_eq cfg { s with waiting := true, primary := some p }
      rw [e]
      exact nil _ rfl
  | newView p =>
    refine nil _ ?_
    show (s.newView cfg p).votes = _
    unfold State.newView
    rw [(selected_frame cfg _).1, (stopResending_frame _).1]
  | caughtUp p => exact nil _ (selected_frame cfg _).1
  | hungry =>
    refine nil _ ?_
    show (s.hungry cfg).votes = _
    unfold State.hungry
    dsimp only
    split <;> rfl
  | setReady b => exact nil _ rfl
  | setSynced b => exact nil _ rfl
  | setValidators l => exact nil _ rfl
  | schedule d cb =>
    show ∃ l, (if cb ≤ 2 then s else { s with timer := s.timer.schedule d cb } : State).votes = _ ∧ _
    split <;> exact nil _ rfl
  | cancel cb =>
    show ∃ l, (if cb ≤ 2 then s else { s with timer := s.timer.cancel cb } : State).votes = _ ∧ _
    split <;> exact nil _ rfl

theorem step_now (s : State) (e : Ev) : s.timer.now ≤ (s.step cfg e).timer.now := by
  cases e with
  | tick d =>
    show _ ≤ (if s.running.isSome then s else { s with timer := { s.timer with now := s.timer.now + d } } : State).timer.now
    split
    · exact Int.le_refl _
    · dsimp only; omega
  | turn =>
    show _ ≤ (if s.running.isSome then s else s.turn cfg : State).timer.now
    refine Int.le_of_eq ?_
    split
    · rfl
    · have hn := turn_now s.timer
      unfold State.turn
      split
      · rfl
      · dsimp only
        split
        · unfold State.check
          split
          · exact hn.symm
          · split <;> exact hn.symm
        · split
          · split
            · unfold State.propose; dsimp only; split <;> exact hn.symm
            · exact hn.symm
          · split
            · split <;> exact hn.symm
            · exact hn.symm
  | callbackEnd =>
    refine Int.le_of_eq ?_
    show _ = (s.callbackEnd cfg).timer.now
    unfold State.callbackEnd
    split
    · rfl
    · dsimp only
      split
      · unfold State.startProposing; split <;> rfl
      · rfl
  | conns l => exact Int.le_of_eq (conns_frame cfg s l).2.2.2.1.symm
  | needViewChange p =>
    refine Int.le_of_eq ?_
    show _ = (s.needViewChange cfg p).timer.now
    unfold State.needViewChange
    dsimp only
    split
    · obtain ⟨t, e, hn, _⟩ := restart_eq cfg (State.vote { s with waiting := true, primary := some p } .samePrimary)
      rw [e]; exact hn.symm
    · obtain ⟨t, e, hn, _⟩ := restart_eq cfg { s with waiting := true, primary := some p }
      rw [e]; exact hn.symm
  | newView p =>
    refine Int.le_of_eq ?_
    show _ = (s.newView cfg p).timer.now
    unfold State.newView
    rw [(selected_frame cfg _).2.2.2.1, (stopResending_frame _).2.2.2.1]
  | caughtUp p =>
    refine Int.le_of_eq ?_
    show _ = (s.caughtUp cfg p).timer.now
    unfold State.caughtUp
    rw [(selected_frame cfg _).2.2.2.1]
  | hungry =>
    refine Int.le_of_eq ?_
    show _ = (s.hungry cfg).timer.now
    unfold State.hungry
    dsimp only
    split <;> rfl
  | setReady b => exact Int.le_refl _
  | setSynced b => exact Int.le_refl _
  | setValidators l => exact Int.le_refl _
  | schedule d cb =>
    show _ ≤ (if cb ≤ 2 then s else { s with timer := s.timer.schedule d cb } : State).timer.now
    split <;> exact Int.le_refl _
  | cancel cb =>
    show _ ≤ (if cb ≤ 2 then s else { s with timer := s.timer.cancel cb } : State).timer.now
    split <;> exact Int.le_refl _

/-- Votes are only added, with the time. -/
theorem run_votes (s : State) (es : List Ev) : s.timer.now ≤ (s.run cfg es).timer.now ∧
    ∃ l, (s.run cfg es).votes = s.votes ++ l ∧ ∀ x ∈ l, s.timer.now ≤ x.1 ∧ x.1 ≤ (s.run cfg es).timer.now := by
  induction es generalizing s with
  | nil => exact ⟨Int.le_refl _, [], by simp [State.run], fun x hx => (nomatch hx)⟩
  | cons e es ih =>
    rw [run_cons]
    obtain ⟨i1, l, hl, h⟩ := ih (s.step cfg e)
    obtain ⟨l', hl', h'⟩ := step_votes cfg s e
    have hn := step_now cfg s e
    refine ⟨by omega, l' ++ l, by rw [hl, hl', List.append_assoc], fun x hx => ?_⟩
    rcases List.mem_append.mp hx with hx | hx
    · have := h' x hx; omega
    · have := h x hx; omega

/-! ## A vote against the primary -/

/-- The timers for it are as before, at least. -/
theorem Pend.ext {s u : State} {T : Int} (h : Pend cfg s T)
    (ht : ∀ cb T, cb ≠ resendCb → Has s.timer cb T → Has u.timer cb T) (hp : u.proposing = s.proposing)
    (hr : u.running = s.running) (hn : u.timer.now = s.timer.now) : Pend cfg u T := by
  rcases h with x | ⟨a, x⟩ | ⟨a, x⟩ | ⟨a, b, x⟩
  · exact .inl (ht _ _ (by decide) x)
  · exact .inr (.inl ⟨by rw [hp]; exact a, ht _ _ (by decide) x⟩)
  · exact .inr (.inr (.inl ⟨by rw [hr]; exact a, by rw [hn]; exact x⟩))
  · exact .inr (.inr (.inr ⟨by rw [hr]; exact a, by rw [hp]; exact b, by rw [hn]; exact x⟩))

theorem Pend.disconnected {s : State} {T : Int} (h : Pend cfg s T) : Pend cfg (s.primaryDisconnected cfg) T :=
  h.ext cfg (fun _ _ _ x => has_schedule.mpr (.inr x)) rfl rfl rfl

theorem Pend.selected {s : State} {T : Int} (h : Pend cfg s T) (hd : (s.primarySelected cfg).disc.isSome = true) :
    Pend cfg (s.primarySelected cfg) T := by
  unfold State.primarySelected at hd ⊢
  split at hd
  · rw [(primaryConnected_frame s).2.2.2.2.1] at hd; cases hd
  · rename_i hc
    rw [if_neg hc]
    exact h.disconnected

theorem Pend.conns {s : State} {T : Int} (h : Pend cfg s T) (l : List Node) (hd : (s.updateConnecteds cfg l).disc.isSome = true)
    (hs : s.disc.isSome = true) : Pend cfg (s.updateConnecteds cfg l) T := by
  have hn : (s.updateConnecteds cfg l).disc ≠ none := by intro x; rw [x] at hd; cases hd
  have hns : s.disc ≠ none := by intro x; rw [x] at hs; cases hs
  rw [ne_eq, (conns_frame cfg s l).2.2.2.2.1] at hn
  unfold State.updateConnecteds
  dsimp only
  have hj : (l.filter (· ∉ s.connected)).foldl State.processConnected { s with connected := l } = { s with connected := l } := by
    refine fold_connected_not _ _ (fun p hp he => ?_)
    have hp' : p ∈ l ∧ p ∉ s.connected := by simpa using hp
    refine hn ⟨.inr ⟨p, he, hp'⟩, ?_⟩
    rintro ⟨q, hq, hqc, hql⟩
    rw [show s.primary = some p from he] at hq
    cases hq
    exact hql hp'.1
  rw [hj]
  generalize s.connected.filter (· ∉ l) = js
  have h0 : Pend cfg { s with connected := l } T := h
  revert h0
  generalize ({ s with connected := l } : State) = u
  induction js generalizing u with
  | nil => exact id
  | cons j js ih =>
    intro h0
    rw [List.foldl_cons]
    refine ih _ ?_
    unfold State.processDisconnected
    split
    · exact h0.disconnected
    · exact h0

/-- One step: the vote stays due, or it is sent. -/
theorem Pend.step {s : State} {T : Int} (i : Inv cfg s) (h : Pend cfg s T) (hd : s.disc.isSome = true) (hr : s.ready = true)
    (hy : s.synced = true) (e : Ev) (hd' : (s.step cfg e).disc.isSome = true) :
    Pend cfg (s.step cfg e) T ∨ (s.step cfg e).votes = s.votes ++ [(s.timer.now, .disconnected)] := by
  cases e with
  | tick d =>
    refine .inl ?_
    show Pend cfg (if s.running.isSome then s else { s with timer := { s.timer with now := s.timer.now + d } }) T
    split
    · exact h
    · rename_i hrn
      have hr' : s.running = none := by simpa using hrn
      rcases h with x | ⟨a, x⟩ | ⟨a, x⟩ | ⟨a, b, x⟩
      · exact .inl x
      · exact .inr (.inl ⟨a, x⟩)
      · rw [hr'] at a; cases a
      · rw [hr'] at a; cases a
  | turn =>
    show Pend cfg (if s.running.isSome then s else s.turn cfg) T ∨
      (if s.running.isSome then s else s.turn cfg : State).votes = s.votes ++ [(s.timer.now, .disconnected)]
    split
    · exact .inl h
    · rename_i hrn
      have hr' : s.running = none := by simpa using hrn
      unfold State.turn
      cases hdu : s.timer.due with
      | none => exact .inl h
      | some e =>
        dsimp only
        have hn := turn_now s.timer
        split
        · refine .inr ?_
          unfold State.check
          dsimp only
          rw [if_neg (by rw [← Option.not_isSome, hd]; simp), if_neg (by simp [hr, hy])]
          show s.votes ++ [(s.timer.turn.now, .disconnected)] = _
          rw [hn]
        · rename_i hc1
          split
          · rename_i hc2
            split
            · refine .inr ?_
              unfold State.propose
              dsimp only
              rw [if_pos hd]
              show s.votes ++ [(s.timer.turn.now, .disconnected)] = _
              rw [hn]
            · rename_i hp
              refine .inl ?_
              rcases h with x | ⟨a, x⟩ | ⟨a, x⟩ | ⟨a, b, x⟩
              · exact .inl (has_turn hdu hc1 x)
              · exact absurd a hp
              · rw [hr'] at a; cases a
              · rw [hr'] at a; cases a
          · rename_i hc2
            have key : Pend cfg { s with timer := s.timer.turn } T := by
              rcases h with x | ⟨a, x⟩ | ⟨a, x⟩ | ⟨a, b, x⟩
              · exact .inl (has_turn hdu hc1 x)
              · exact .inr (.inl ⟨a, has_turn hdu hc2 x⟩)
              · rw [hr'] at a; cases a
              · rw [hr'] at a; cases a
            refine .inl ?_
            split
            · split
              · rcases key with x | ⟨a, x⟩ | ⟨a, x⟩ | ⟨a, b, x⟩
                · exact .inl x
                · exact .inr (.inl ⟨a, x⟩)
                · rw [show s.running = some checkCb from a] at hr'; cases hr'
                · rw [show s.running = some proposeCb from a] at hr'; cases hr'
              · exact key
            · exact key
  | callbackEnd =>
    refine .inl ?_
    show Pend cfg (s.callbackEnd cfg) T
    unfold State.callbackEnd
    split
    · exact h
    · rename_i cb hrun
      dsimp only
      split
      · rename_i hc
        subst hc
        unfold State.startProposing
        dsimp only
        split
        · rename_i hp
          have hh := (i.prop hp).resolve_right (by rw [hrun]; decide)
          rcases h with x | ⟨a, x⟩ | ⟨a, x⟩ | ⟨a, b, x⟩
          · exact .inl x
          · exact .inr (.inl ⟨a, x⟩)
          · exact .inr (.inl ⟨hp, hh.mono x⟩)
          · rw [hrun] at a; cases a
        · rename_i hp
          rcases h with x | ⟨a, x⟩ | ⟨a, x⟩ | ⟨a, b, x⟩
          · exact .inl (has_schedule.mpr (.inr x))
          · exact absurd a hp
          · exact .inr (.inl ⟨rfl, has_schedule.mpr (.inl ⟨rfl, x⟩)⟩)
          · rw [hrun] at a; cases a
      · rename_i hc
        rcases h with x | ⟨a, x⟩ | ⟨a, x⟩ | ⟨a, b, x⟩
        · exact .inl (has_schedule.mpr (.inr x))
        · exact .inr (.inl ⟨a, has_schedule.mpr (.inr x)⟩)
        · rw [hrun] at a; cases a; exact absurd rfl hc
        · rw [hrun] at a; cases a
          exact .inr (.inl ⟨b, has_schedule.mpr (.inl ⟨rfl, x⟩)⟩)
  | conns l => exact .inl (h.conns cfg l hd' hd)
  | needViewChange p =>
    refine .inl ?_
    show Pend cfg (s.needViewChange cfg p) T
    unfold State.needViewChange
    dsimp only
    split
    · obtain ⟨t, e, hn, _, _, ho⟩ := restart_eq cfg (State.vote { s with waiting := true, primary := some p } .samePrimary)
      rw [e]
      exact h.ext cfg (fun cb T hc x => (ho cb T hc).mpr x) rfl rfl hn
    · obtain ⟨t, e, hn, _, _, ho⟩ := restart_eq cfg { s with waiting := true, primary := some p }
      rw [e]
      exact h.ext cfg (fun cb T hc x => (ho cb T hc).mpr x) rfl rfl hn
  | newView p =>
    refine .inl (Pend.selected cfg ?_ hd')
    obtain ⟨_, _, _, h4, _, _, h7, h8, _⟩ := stopResending_frame { s with waiting := false, primary := p.or s.primary }
    refine h.ext cfg (fun cb T hc x => ?_) h7 h8 h4
    unfold State.stopResending
    split
    · exact has_cancel.mpr ⟨fun e => hc e.symm, x⟩
    · exact x
  | caughtUp p =>
    refine .inl (Pend.selected cfg ?_ hd')
    exact h
  | hungry =>
    refine .inl ?_
    show Pend cfg (s.hungry cfg) T
    unfold State.hungry
    dsimp only
    split
    · exact h.ext cfg (fun _ _ _ x => has_schedule.mpr (.inr x)) rfl rfl rfl
    · exact h
  | setReady b => exact .inl h
  | setSynced b => exact .inl h
  | setValidators l => exact .inl h
  | schedule d cb =>
    refine .inl ?_
    show Pend cfg (if cb ≤ 2 then s else { s with timer := s.timer.schedule d cb }) T
    split
    · exact h
    · exact h.ext cfg (fun _ _ _ x => has_schedule.mpr (.inr x)) rfl rfl rfl
  | cancel cb =>
    refine .inl ?_
    show Pend cfg (if cb ≤ 2 then s else { s with timer := s.timer.cancel cb }) T
    split
    · exact h
    · rename_i hc
      rcases h with x | ⟨a, x⟩ | x | x
      · exact .inl (has_cancel.mpr ⟨fun e => hc (by rw [e]; decide), x⟩)
      · exact .inr (.inl ⟨a, has_cancel.mpr ⟨fun e => hc (by rw [e]; decide), x⟩⟩)
      · exact .inr (.inr (.inl x))
      · exact .inr (.inr (.inr x))

/-- The node is not in a callback, and has done all that was due. -/
theorem Pend.over {s : State} {T : Int} (i : Inv cfg s) (h : Pend cfg s T) (hi : s.idle = true) : s.timer.now < T := by
  have hi' : s.running = none ∧ s.timer.due = none := by
    unfold State.idle at hi
    simpa using hi
  rcases h with x | ⟨_, x⟩ | ⟨a, _⟩ | ⟨a, _⟩
  · exact due_none i.sorted hi'.2 x
  · exact due_none i.sorted hi'.2 x
  · rw [hi'.1] at a; cases a
  · rw [hi'.1] at a; cases a

theorem voted {s : State} {T : Int} (i : Inv cfg s) (h : Pend cfg s T) (es : List Ev)
    (hs : ∀ pre post, es = pre ++ post → (s.run cfg pre).disc.isSome = true ∧ (s.run cfg pre).ready = true ∧
      (s.run cfg pre).synced = true)
    (hi : (s.run cfg es).idle = true) (hT : T ≤ (s.run cfg es).timer.now) :
    ∃ l x, (s.run cfg es).votes = s.votes ++ l ∧ x ∈ l ∧ x.2 = .disconnected ∧ s.timer.now ≤ x.1 ∧
      x.1 ≤ (s.run cfg es).timer.now := by
  induction es generalizing s with
  | nil =>
    have := h.over cfg i hi
    exact absurd hT (by show ¬ T ≤ s.timer.now; omega)
  | cons e es ih =>
    obtain ⟨hd, hr, hy⟩ := hs [] (e :: es) rfl
    obtain ⟨hd', _, _⟩ := hs [e] es rfl
    have hn := step_now cfg s e
    rcases h.step cfg i hd hr hy e hd' with h' | hv
    · obtain ⟨l, x, hl, hx, hw, h1, h2⟩ := ih (i.step cfg e) h' (fun pre post hp => by
        have := hs (e :: pre) post (by rw [hp]; rfl)
        exact this) hi hT
      obtain ⟨l', hl', _⟩ := step_votes cfg s e
      refine ⟨l' ++ l, x, ?_, List.mem_append_right _ hx, hw, by omega, h2⟩
      rw [run_cons, hl, hl', List.append_assoc]
    · obtain ⟨h1, l, hl, hx⟩ := run_votes cfg (s.step cfg e) es
      refine ⟨(s.timer.now, .disconnected) :: l, _, ?_, List.mem_cons_self .., rfl, Int.le_refl _, ?_⟩
      · rw [run_cons, hl, hv]; simp
      · rw [run_cons]; exact Int.le_trans hn h1

/-! ## A view change that takes too long -/

/-- The vote for the next view will be sent, at `T` or before. -/
def Late (s : State) (T : Int) : Prop :=
  s.resending = true ∧ (Has s.timer resendCb T ∨ (s.running = some resendCb ∧ s.timer.now + cfg.timeout ≤ T))

theorem primaryConnected_resend (s : State) : s.primaryConnected.resending = s.resending ∧
    s.primaryConnected.running = s.running ∧ (∀ T, Has s.timer resendCb T → Has s.primaryConnected.timer resendCb T) := by
  obtain ⟨t, e, hn, _, h, _⟩ := primaryConnected_eq s
  rw [e]
  exact ⟨rfl, rfl, h⟩

theorem Late.ext {s u : State} {T : Int} (h : Late cfg s T) (ht : ∀ T, Has s.timer resendCb T → Has u.timer resendCb T)
    (hp : u.resending = s.resending) (hr : u.running = s.running) (hn : u.timer.now = s.timer.now) : Late cfg u T := by
  obtain ⟨a, x⟩ := h
  refine ⟨hp.trans a, x.imp (ht T) (fun ⟨b, c⟩ => ⟨hr.trans b, by rw [hn]; exact c⟩)⟩

theorem Late.connected {s : State} {T : Int} (h : Late cfg s T) : Late cfg s.primaryConnected T := by
  obtain ⟨a, b, c⟩ := primaryConnected_resend s
  exact h.ext cfg c a b (primaryConnected_frame s).2.2.2.1

theorem Late.disconnected {s : State} {T : Int} (h : Late cfg s T) : Late cfg (s.primaryDisconnected cfg) T :=
  h.ext cfg (fun _ x => has_schedule.mpr (.inr x)) rfl rfl rfl

theorem Late.selected {s : State} {T : Int} (h : Late cfg s T) : Late cfg (s.primarySelected cfg) T := by
  unfold State.primarySelected
  split
  · exact h.connected
  · exact h.disconnected

theorem Late.conns {s : State} {T : Int} (h : Late cfg s T) (l : List Node) : Late cfg (s.updateConnecteds cfg l) T := by
  unfold State.updateConnecteds
  dsimp only
  have h1 : ∀ (js : List Node) (u : State), Late cfg u T → Late cfg (js.foldl State.processConnected u) T := by
    intro js
    induction js with
    | nil => intro u hu; exact hu
    | cons j js ih =>
      intro u hu
      rw [List.foldl_cons]
      refine ih _ ?_
      unfold State.processConnected
      split
      · exact hu.connected
      · exact hu
  have h2 : ∀ (js : List Node) (u : State), Late cfg u T → Late cfg (js.foldl (State.processDisconnected cfg) u) T := by
    intro js
    induction js with
    | nil => intro u hu; exact hu
    | cons j js ih =>
      intro u hu
      rw [List.foldl_cons]
      refine ih _ ?_
      unfold State.processDisconnected
      split
      · exact hu.disconnected
      · exact hu
  exact h2 _ _ (h1 _ _ h)

theorem Late.step {s : State} {T : Int} (h : Late cfg s T) (e : Ev) (h1 : ∀ p, e ≠ .needViewChange p) (h2 : ∀ p, e ≠ .newView p) :
    Late cfg (s.step cfg e) T ∨ (s.step cfg e).votes = s.votes ++ [(s.timer.now, .timeout)] := by
  cases e with
  | tick d =>
    refine .inl ?_
    show Late cfg (if s.running.isSome then s else { s with timer := { s.timer with now := s.timer.now + d } }) T
    split
    · exact h
    · rename_i hrn
      have hr' : s.running = none := by simpa using hrn
      obtain ⟨a, x | ⟨b, x⟩⟩ := h
      · exact ⟨a, .inl x⟩
      · rw [hr'] at b; cases b
  | turn =>
    show Late cfg (if s.running.isSome then s else s.turn cfg) T ∨
      (if s.running.isSome then s else s.turn cfg : State).votes = s.votes ++ [(s.timer.now, .timeout)]
    split
    · exact .inl h
    · rename_i hrn
      have hr' : s.running = none := by simpa using hrn
      obtain ⟨a, x⟩ := h
      have hh := x.resolve_right (by rw [hr']; rintro ⟨b, _⟩; cases b)
      unfold State.turn
      cases hdu : s.timer.due with
      | none => exact .inl ⟨a, .inl hh⟩
      | some e =>
        dsimp only
        have hn := turn_now s.timer
        split
        · rename_i hc
          have h' := has_turn hdu (by rw [hc]; decide) hh
          refine .inl ?_
          unfold State.check
          split
          · exact ⟨a, .inl h'⟩
          · split
            · exact ⟨a, .inl (has_schedule.mpr (.inr h'))⟩
            · exact ⟨a, .inl h'⟩
        · split
          · rename_i hc
            have h' := has_turn hdu (by rw [hc]; decide) hh
            refine .inl ?_
            split
            · unfold State.propose
              dsimp only
              split <;> exact ⟨a, .inl h'⟩
            · exact ⟨a, .inl h'⟩
          · split
            · refine .inr ?_
              try rw [if_pos a]
              show s.votes ++ [(s.timer.turn.now, .timeout)] = _
              rw [hn]
            · rename_i hc
              exact .inl ⟨a, .inl (has_turn hdu hc hh)⟩
  | callbackEnd =>
    refine .inl ?_
    show Late cfg (s.callbackEnd cfg) T
    unfold State.callbackEnd
    split
    · exact h
    · rename_i cb hrun
      dsimp only
      obtain ⟨a, x⟩ := h
      split
      · rename_i hc
        have hh := x.resolve_right (by rw [hrun, hc]; rintro ⟨b, _⟩; cases b)
        unfold State.startProposing
        dsimp only
        split
        · exact ⟨a, .inl hh⟩
        · exact ⟨a, .inl (has_schedule.mpr (.inr hh))⟩
      · rcases x with x | ⟨b, x⟩
        · exact ⟨a, .inl (has_schedule.mpr (.inr x))⟩
        · rw [hrun] at b; cases b
          exact ⟨a, .inl (has_schedule.mpr (.inl ⟨rfl, x⟩))⟩
  | conns l => exact .inl (h.conns cfg l)
  | needViewChange p => exact absurd rfl (h1 p)
  | newView p => exact absurd rfl (h2 p)
  | caughtUp p =>
    refine .inl (Late.selected cfg ?_)
    exact h
  | hungry =>
    refine .inl ?_
    show Late cfg (s.hungry cfg) T
    unfold State.hungry
    dsimp only
    split
    · exact h.ext cfg (fun _ x => has_schedule.mpr (.inr x)) rfl rfl rfl
    · exact h
  | setReady b => exact .inl h
  | setSynced b => exact .inl h
  | setValidators l => exact .inl h
  | schedule d cb =>
    refine .inl ?_
    show Late cfg (if cb ≤ 2 then s else { s with timer := s.timer.schedule d cb }) T
    split
    · exact h
    · exact h.ext cfg (fun _ x => has_schedule.mpr (.inr x)) rfl rfl rfl
  | cancel cb =>
    refine .inl ?_
    show Late cfg (if cb ≤ 2 then s else { s with timer := s.timer.cancel cb }) T
    split
    · exact h
    · rename_i hc
      exact h.ext cfg (fun _ x => has_cancel.mpr ⟨fun e => hc (by rw [e]; decide), x⟩) rfl rfl rfl

theorem voted_late {s : State} {T : Int} (i : Inv cfg s) (h : Late cfg s T) (es : List Ev)
    (h1 : ∀ p, Ev.needViewChange p ∉ es) (h2 : ∀ p, Ev.newView p ∉ es)
    (hi : (s.run cfg es).idle = true) (hT : T ≤ (s.run cfg es).timer.now) :
    ∃ l x, (s.run cfg es).votes = s.votes ++ l ∧ x ∈ l ∧ x.2 = .timeout ∧ s.timer.now ≤ x.1 ∧
      x.1 ≤ (s.run cfg es).timer.now := by
  induction es generalizing s with
  | nil =>
    have hi' : s.running = none ∧ s.timer.due = none := by
      unfold State.idle State.run at hi
      simpa using hi
    obtain ⟨_, x⟩ := h
    have := due_none i.sorted hi'.2 (x.resolve_right (by rw [hi'.1]; rintro ⟨b, _⟩; cases b))
    exact absurd hT (by show ¬ T ≤ s.timer.now; omega)
  | cons e es ih =>
    have hn := step_now cfg s e
    rcases h.step cfg e (fun p hp => h1 p (hp ▸ List.mem_cons_self ..)) (fun p hp => h2 p (hp ▸ List.mem_cons_self ..)) with h' | hv
    · obtain ⟨l, x, hl, hx, hw, h1, h2⟩ := ih (i.step cfg e) h' (fun p hp => h1 p (List.mem_cons_of_mem _ hp))
        (fun p hp => h2 p (List.mem_cons_of_mem _ hp)) hi hT
      obtain ⟨l', hl', _⟩ := step_votes cfg s e
      refine ⟨l' ++ l, x, ?_, List.mem_append_right _ hx, hw, by omega, h2⟩
      rw [run_cons, hl, hl', List.append_assoc]
    · obtain ⟨h1, l, hl, hx⟩ := run_votes cfg (s.step cfg e) es
      refine ⟨(s.timer.now, .timeout) :: l, _, ?_, List.mem_cons_self .., rfl, Int.le_refl _, ?_⟩
      · rw [run_cons, hl, hv]; simp
      · rw [run_cons]; exact Int.le_trans hn h1

end Verif.Watch
