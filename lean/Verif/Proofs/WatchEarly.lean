import Verif.Proofs.WatchVotes
/-!
# Watching the primary: no vote is early
-/
namespace Verif.Watch
open Verif.Timer (Callback)

variable (cfg : Cfg)

/-! ## Who is held for gone -/

theorem step_disc (s : State) (e : Ev) (h : e.mayConnect = false) : (s.step cfg e).disc = s.disc := by
  cases e with
  | tick d =>
    show (if s.running.isSome then s else { s with timer := { s.timer with now := s.timer.now + d } } : State).disc = _
    split <;> rfl
  | turn =>
    show (if s.running.isSome then s else s.turn cfg : State).disc = _
    split
    · rfl
    · unfold State.turn
      split
      · rfl
      · dsimp only
        split
        · unfold State.check
          split
          · rfl
          · split <;> rfl
        · split
          · split
            · unfold State.propose; dsimp only; split <;> rfl
            · rfl
          · split
            · split <;> rfl
            · rfl
  | callbackEnd =>
    show (s.callbackEnd cfg).disc = _
    unfold State.callbackEnd
    split
    · rfl
    · dsimp only
      split
      · unfold State.startProposing; split <;> rfl
      · rfl
  | conns l => cases h
  | needViewChange p =>
    show (s.needViewChange cfg p).disc = _
    unfold State.needViewChange
    dsimp only
    split
    · obtain ⟨t, e, _⟩ := restart_eq cfg (State.vote { s with waiting := true, primary := some p } .samePrimary)
      rw [e]; rfl
    · obtain ⟨t, e, _⟩ := restart_eq cfg { s with waiting := true, primary := some p }
      rw [e]
  | newView p => cases h
  | caughtUp p => cases h
  | hungry =>
    show (s.hungry cfg).disc = _
    unfold State.hungry
    dsimp only
    split <;> rfl
  | setReady b => rfl
  | setSynced b => rfl
  | setValidators l => rfl
  | schedule d cb =>
    show (if cb ≤ 2 then s else { s with timer := s.timer.schedule d cb } : State).disc = _
    split <;> rfl
  | cancel cb =>
    show (if cb ≤ 2 then s else { s with timer := s.timer.cancel cb } : State).disc = _
    split <;> rfl

theorem step_primary (s : State) (e : Ev) (h : e.changesPrimary = false) : (s.step cfg e).primary = s.primary ∧
    ((s.step cfg e).connected = s.connected ∨ ∃ l, e = .conns l) := by
  cases e with
  | tick d =>
    show (if s.running.isSome then s else { s with timer := { s.timer with now := s.timer.now + d } } : State).primary = _ ∧
      ((if s.running.isSome then s else { s with timer := { s.timer with now := s.timer.now + d } } : State).connected = _ ∨ _)
    split <;> exact ⟨rfl, .inl rfl⟩
  | turn =>
    show (if s.running.isSome then s else s.turn cfg : State).primary = _ ∧
      ((if s.running.isSome then s else s.turn cfg : State).connected = _ ∨ _)
    split
    · exact ⟨rfl, .inl rfl⟩
    · unfold State.turn
      split
      · exact ⟨rfl, .inl rfl⟩
      · dsimp only
        split
        · unfold State.check
          split
          · exact ⟨rfl, .inl rfl⟩
          · split <;> exact ⟨rfl, .inl rfl⟩
        · split
          · split
            · unfold State.propose; dsimp only; split <;> exact ⟨rfl, .inl rfl⟩
            · exact ⟨rfl, .inl rfl⟩
          · split
            · split <;> exact ⟨rfl, .inl rfl⟩
            · exact ⟨rfl, .inl rfl⟩
  | callbackEnd =>
    show (s.callbackEnd cfg).primary = _ ∧ ((s.callbackEnd cfg).connected = _ ∨ _)
    unfold State.callbackEnd
    split
    · exact ⟨rfl, .inl rfl⟩
    · dsimp only
      split
      · unfold State.startProposing; split <;> exact ⟨rfl, .inl rfl⟩
      · exact ⟨rfl, .inl rfl⟩
  | conns l => exact ⟨(conns_frame cfg s l).2.1, .inr ⟨l, rfl⟩⟩
  | needViewChange p => cases h
  | newView p => cases h
  | caughtUp p => cases h
  | hungry =>
    show (s.hungry cfg).primary = _ ∧ ((s.hungry cfg).connected = _ ∨ _)
    unfold State.hungry
    dsimp only
    split <;> exact ⟨rfl, .inl rfl⟩
  | setReady b => exact ⟨rfl, .inl rfl⟩
  | setSynced b => exact ⟨rfl, .inl rfl⟩
  | setValidators l => exact ⟨rfl, .inl rfl⟩
  | schedule d cb =>
    show (if cb ≤ 2 then s else { s with timer := s.timer.schedule d cb } : State).primary = _ ∧
      ((if cb ≤ 2 then s else { s with timer := s.timer.schedule d cb } : State).connected = _ ∨ _)
    split <;> exact ⟨rfl, .inl rfl⟩
  | cancel cb =>
    show (if cb ≤ 2 then s else { s with timer := s.timer.cancel cb } : State).primary = _ ∧
      ((if cb ≤ 2 then s else { s with timer := s.timer.cancel cb } : State).connected = _ ∨ _)
    split <;> exact ⟨rfl, .inl rfl⟩

/-- The primary is `p`, and is held for gone when it is. -/
structure Knows (s : State) (p : Node) : Prop where
  primary : s.primary = some p
  notMe : cfg.me ∉ s.connected
  gone : s.disc = none ↔ p = cfg.me ∨ p ∈ s.connected

theorem Knows.step {s : State} {p : Node} (k : Knows cfg s p) (e : Ev) (h : e.changesPrimary = false)
    (hm : ∀ l, e = .conns l → cfg.me ∉ l) : Knows cfg (s.step cfg e) p := by
  by_cases hc : ∃ l, e = .conns l
  · obtain ⟨l, rfl⟩ := hc
    obtain ⟨_, h2, h3, _, h5, _⟩ := conns_frame cfg s l
    have hml := hm l rfl
    refine ⟨h2.trans k.primary, by show cfg.me ∉ (s.updateConnecteds cfg l).connected; rw [h3]; exact hml, ?_⟩
    show (s.updateConnecteds cfg l).disc = none ↔ p = cfg.me ∨ p ∈ (s.updateConnecteds cfg l).connected
    rw [h3, h5, k.gone, k.primary]
    have hms := k.notMe
    by_cases hp : p = cfg.me
    · subst hp
      simp [hml, hms]
    · by_cases h1 : p ∈ s.connected <;> by_cases h2 : p ∈ l <;> simp [hp, h1, h2]
  · obtain ⟨h1, h2⟩ := step_primary cfg s e h
    have h2 := h2.resolve_right hc
    refine ⟨h1.trans k.primary, by rw [h2]; exact k.notMe, ?_⟩
    rw [step_disc cfg s e ?_, h2]
    · exact k.gone
    · cases e <;> first | rfl | (exact absurd ⟨_, rfl⟩ hc) | cases h

theorem Knows.run {s : State} {p : Node} (k : Knows cfg s p) (es : List Ev) (h : ∀ e ∈ es, e.changesPrimary = false)
    (hm : ∀ l, Ev.conns l ∈ es → cfg.me ∉ l) : Knows cfg (s.run cfg es) p := by
  induction es generalizing s with
  | nil => exact k
  | cons e es ih =>
    rw [run_cons]
    exact ih (k.step cfg e (h e (List.mem_cons_self ..)) (fun l hl => hm l (hl ▸ List.mem_cons_self ..)))
      (fun e' he => h e' (List.mem_cons_of_mem _ he)) (fun l hl => hm l (List.mem_cons_of_mem _ hl))

theorem knows_caughtUp (s : State) (p : Node) (hv : p ∈ s.validators) (hm : cfg.me ∉ s.connected) : Knows cfg (s.caughtUp cfg p) p := by
  unfold State.caughtUp
  obtain ⟨_, h2, h3, _, h5, _⟩ := selected_frame cfg { s with primary := some p }
  refine ⟨h2, by rw [h3]; exact hm, ?_⟩
  rw [h5, h3]
  simp [State.isPrimaryConnected, hv]

theorem knows_newView (s : State) (p : Node) (p' : Option Node) (hp : p'.or s.primary = some p) (hv : p ∈ s.validators)
    (hm : cfg.me ∉ s.connected) : Knows cfg (s.newView cfg p') p := by
  unfold State.newView
  dsimp only
  obtain ⟨_, i2, i3, _, _, i6, _⟩ := stopResending_frame { s with waiting := false, primary := p'.or s.primary }
  obtain ⟨_, h2, h3, _, h5, _⟩ := selected_frame cfg (State.stopResending { s with waiting := false, primary := p'.or s.primary })
  refine ⟨h2.trans (i2.trans hp), by rw [h3, i3]; exact hm, ?_⟩
  rw [h5, h3, i3]
  unfold State.isPrimaryConnected
  rw [i2, i3, i6]
  dsimp only
  rw [hp]
  simp [hv]

/-! ## Votes are only against one held for gone -/

theorem step_votes_disc (s : State) (e : Ev) (h : s.disc = none) :
    ∃ l, (s.step cfg e).votes = s.votes ++ l ∧ ∀ x ∈ l, x.2 ≠ .disconnected := by
  have nil : ∀ u : State, u.votes = s.votes → ∃ l, u.votes = s.votes ++ l ∧ ∀ x ∈ l, x.2 ≠ .disconnected :=
    fun u h => ⟨[], by simp [h], fun x hx => (nomatch hx)⟩
  by_cases he : e = .turn
  · subst he
    show ∃ l, (if s.running.isSome then s else s.turn cfg : State).votes = _ ∧ _
    split
    · exact nil _ rfl
    · unfold State.turn
      split
      · exact nil _ rfl
      · dsimp only
        split
        · unfold State.check
          rw [if_pos (by simp [h])]
          exact nil _ rfl
        · split
          · split
            · unfold State.propose
              dsimp only
              rw [if_neg (by simp [h])]
              exact nil _ rfl
            · exact nil _ rfl
          · split
            · split
              · exact ⟨[(s.timer.turn.now, .timeout)], rfl, fun x hx => by rw [List.mem_singleton.mp hx]; exact Why.noConfusion⟩
              · exact nil _ rfl
            · exact nil _ rfl
  · cases e with
    | needViewChange p =>
      show ∃ l, (s.needViewChange cfg p).votes = _ ∧ _
      unfold State.needViewChange
      dsimp only
      split
      · obtain ⟨t, e, _⟩ := restart_eq cfg (State.vote { s with waiting := true, primary := some p } .samePrimary)
        rw [e]
        exact ⟨[(s.timer.now, .samePrimary)], rfl, fun x hx => by rw [List.mem_singleton.mp hx]; exact Why.noConfusion⟩
      · obtain ⟨t, e, _⟩ := restart_eq cfg { s with waiting := true, primary := some p }
        rw [e]
        exact nil _ rfl
    | turn => exact absurd rfl he
    | tick d =>
      show ∃ l, (if s.running.isSome then s else { s with timer := { s.timer with now := s.timer.now + d } } : State).votes = _ ∧ _
      split <;> exact nil _ rfl
    | callbackEnd =>
      refine nil _ ?_
      show (s.callbackEnd cfg).votes = _
      unfold State.callbackEnd
      split
      · rfl
      · dsimp only
        split
        · unfold State.startProposing; split <;> rfl
        · rfl
    | conns l => exact nil _ (conns_frame cfg s l).1
    | newView p =>
      refine nil _ ?_
      show (s.newView cfg p).votes = _
      unfold State.newView
      rw [(selected_frame cfg _).1, (stopResending_frame _).1]
    | caughtUp p => exact nil _ (selected_frame cfg _).1
    | hungry =>
      refine nil _ ?_
      show (s.hungry cfg).votes = _
      unfold State.hungry
      dsimp only
      split <;> rfl
    | setReady b => exact nil _ rfl
    | setSynced b => exact nil _ rfl
    | setValidators l => exact nil _ rfl
    | schedule d cb =>
      show ∃ l, (if cb ≤ 2 then s else { s with timer := s.timer.schedule d cb } : State).votes = _ ∧ _
      split <;> exact nil _ rfl
    | cancel cb =>
      show ∃ l, (if cb ≤ 2 then s else { s with timer := s.timer.cancel cb } : State).votes = _ ∧ _
      split <;> exact nil _ rfl

theorem run_votes_disc (s : State) (es : List Ev) (h : ∀ a b, es = a ++ b → (s.run cfg a).disc = none) :
    ∃ l, (s.run cfg es).votes = s.votes ++ l ∧ ∀ x ∈ l, x.2 ≠ .disconnected := by
  induction es generalizing s with
  | nil => exact ⟨[], by simp [State.run], fun x hx => (nomatch hx)⟩
  | cons e es ih =>
    obtain ⟨l, hl, hx⟩ := step_votes_disc cfg s e (h [] _ rfl)
    obtain ⟨l', hl', hx'⟩ := ih (s.step cfg e) (fun a b hab => h (e :: a) b (by rw [hab]; rfl))
    refine ⟨l ++ l', by rw [run_cons, hl', hl, List.append_assoc], fun x hm => ?_⟩
    exact (List.mem_append.mp hm).elim (hx x) (hx' x)

/-! ## The check -/

/-- Nothing is in motion against a primary which is held for connected. -/
def Calm (s : State) : Prop :=
  s.disc = none → (∀ T, ¬ Has s.timer checkCb T) ∧ s.proposing = false ∧ s.running ≠ some checkCb

theorem calm_init : Calm (init cfg) := fun h => by cases h

theorem Calm.connected {s : State} (hr : s.running ≠ some checkCb) : Calm s.primaryConnected := by
  intro _
  obtain ⟨t, e, _, _, _, hc, _⟩ := primaryConnected_eq s
  rw [e]
  exact ⟨hc, rfl, hr⟩

theorem Calm.disconnected (s : State) : Calm (s.primaryDisconnected cfg) := fun h => by cases h

theorem Calm.selected {s : State} (hr : s.running ≠ some checkCb) : Calm (s.primarySelected cfg) := by
  unfold State.primarySelected
  split
  · exact Calm.connected hr
  · exact Calm.disconnected cfg s

theorem primaryConnected_running (s : State) : s.primaryConnected.running = s.running := by
  obtain ⟨t, e, _⟩ := primaryConnected_eq s
  rw [e]

theorem Calm.conns {s : State} (h : Calm s) (hr : s.running ≠ some checkCb) (l : List Node) : Calm (s.updateConnecteds cfg l) := by
  unfold State.updateConnecteds
  dsimp only
  have h1 : ∀ (js : List Node) (u : State), Calm u → u.running ≠ some checkCb → Calm (js.foldl State.processConnected u) := by
    intro js
    induction js with
    | nil => intro u hu _; exact hu
    | cons j js ih =>
      intro u hu hru
      rw [List.foldl_cons]
      unfold State.processConnected
      split
      · exact ih _ (Calm.connected hru) (by rw [primaryConnected_running]; exact hru)
      · exact ih _ hu hru
  have h2 : ∀ (js : List Node) (u : State), Calm u → Calm (js.foldl (State.processDisconnected cfg) u) := by
    intro js
    induction js with
    | nil => intro u hu; exact hu
    | cons j js ih =>
      intro u hu
      rw [List.foldl_cons]
      refine ih _ ?_
      unfold State.processDisconnected
      split
      · exact Calm.disconnected cfg u
      · exact hu
  exact h2 _ _ (h1 _ _ h hr)

/-- What a step adds against the primary. -/
theorem step_check (s : State) (e : Ev) :
    (∀ T, Has (s.step cfg e).timer checkCb T → Has s.timer checkCb T ∨ s.timer.now + cfg.tolerate ≤ T) ∧
    ((s.step cfg e).proposing = true ∨ (s.step cfg e).running = some checkCb →
      s.proposing = true ∨ s.running = some checkCb ∨ (Has s.timer checkCb s.timer.now ∧ s.disc.isSome = true)) := by
  have conn : ∀ u : State, (∀ T, Has u.timer checkCb T → Has s.timer checkCb T ∨ s.timer.now + cfg.tolerate ≤ T) →
      (u.proposing = true ∨ u.running = some checkCb → s.proposing = true ∨ s.running = some checkCb) →
      (∀ T, Has u.primaryConnected.timer checkCb T → Has s.timer checkCb T ∨ s.timer.now + cfg.tolerate ≤ T) ∧
      (u.primaryConnected.proposing = true ∨ u.primaryConnected.running = some checkCb →
        s.proposing = true ∨ s.running = some checkCb) := by
    intro u h1 h2
    obtain ⟨t, e, _, _, _, hc, _⟩ := primaryConnected_eq u
    rw [e]
    exact ⟨fun T hT => absurd hT (hc T), fun h => h2 (h.elim (fun x => (nomatch x)) .inr)⟩
  have disc : ∀ u : State, (∀ T, Has u.timer checkCb T → Has s.timer checkCb T ∨ s.timer.now + cfg.tolerate ≤ T) →
      (u.proposing = true ∨ u.running = some checkCb → s.proposing = true ∨ s.running = some checkCb) →
      u.timer.now = s.timer.now →
      (∀ T, Has (u.primaryDisconnected cfg).timer checkCb T → Has s.timer checkCb T ∨ s.timer.now + cfg.tolerate ≤ T) ∧
      ((u.primaryDisconnected cfg).proposing = true ∨ (u.primaryDisconnected cfg).running = some checkCb →
        s.proposing = true ∨ s.running = some checkCb) := by
    intro u h1 h2 h3
    refine ⟨fun T hT => ?_, h2⟩
    rcases has_schedule.mp hT with ⟨_, hT⟩ | hT
    · exact .inr (by rw [← h3]; exact hT)
    · exact h1 T hT
  have sel : ∀ u : State, (∀ T, Has u.timer checkCb T → Has s.timer checkCb T ∨ s.timer.now + cfg.tolerate ≤ T) →
      (u.proposing = true ∨ u.running = some checkCb → s.proposing = true ∨ s.running = some checkCb) →
      u.timer.now = s.timer.now →
      (∀ T, Has (u.primarySelected cfg).timer checkCb T → Has s.timer checkCb T ∨ s.timer.now + cfg.tolerate ≤ T) ∧
      ((u.primarySelected cfg).proposing = true ∨ (u.primarySelected cfg).running = some checkCb →
        s.proposing = true ∨ s.running = some checkCb) := by
    intro u h1 h2 h3
    unfold State.primarySelected
    split
    · exact conn u h1 h2
    · exact disc u h1 h2 h3
  have weak : ∀ {A B C D : Prop}, (A ∨ B → C ∨ D) → (A ∨ B → C ∨ D ∨ (Has s.timer checkCb s.timer.now ∧ s.disc.isSome = true)) :=
    fun h x => (h x).imp id .inl
  cases e with
  | tick d =>
    show (∀ T, Has (if s.running.isSome then s else { s with timer := { s.timer with now := s.timer.now + d } } : State).timer checkCb T → _) ∧
      ((if s.running.isSome then s else { s with timer := { s.timer with now := s.timer.now + d } } : State).proposing = true ∨
       (if s.running.isSome then s else { s with timer := { s.timer with now := s.timer.now + d } } : State).running = some checkCb → _)
    split <;> exact ⟨fun _ => .inl, weak id⟩
  | turn =>
    show (∀ T, Has (if s.running.isSome then s else s.turn cfg : State).timer checkCb T → _) ∧
      ((if s.running.isSome then s else s.turn cfg : State).proposing = true ∨
       (if s.running.isSome then s else s.turn cfg : State).running = some checkCb → _)
    split
    · exact ⟨fun _ => .inl, weak id⟩
    · unfold State.turn
      cases hd : s.timer.due with
      | none => exact ⟨fun _ => .inl, weak id⟩
      | some e =>
        obtain ⟨l, hl, hle, _, hn⟩ := due_events hd
        dsimp only
        have sub : ∀ T, Has s.timer.turn checkCb T → Has s.timer checkCb T ∨ s.timer.now + cfg.tolerate ≤ T :=
          fun T h => .inl (has_turn_sub h)
        split
        · rename_i hc
          unfold State.check
          split
          · exact ⟨sub, weak id⟩
          · rename_i hdn
            split
            · refine ⟨fun T hT => ?_, weak id⟩
              rcases has_schedule.mp hT with ⟨_, hT⟩ | hT
              · exact .inr (by rw [← hn]; exact hT)
              · exact sub T hT
            · refine ⟨sub, fun _ => .inr (.inr ⟨⟨e, by rw [hl]; exact List.mem_cons_self .., hc, hle⟩, ?_⟩)⟩
              show s.disc.isSome = true
              simpa [Option.isSome_iff_ne_none] using hdn
        · split
          · split
            · rename_i hp
              unfold State.propose
              dsimp only
              split <;> exact ⟨sub, fun _ => .inl hp⟩
            · exact ⟨sub, weak id⟩
          · split
            · split
              · exact ⟨sub, weak (fun h => h.elim .inl (fun x => (nomatch x)))⟩
              · exact ⟨sub, weak id⟩
            · exact ⟨sub, weak id⟩
  | callbackEnd =>
    show (∀ T, Has (s.callbackEnd cfg).timer checkCb T → _) ∧
      ((s.callbackEnd cfg).proposing = true ∨ (s.callbackEnd cfg).running = some checkCb → _)
    unfold State.callbackEnd
    split
    · exact ⟨fun _ => .inl, weak id⟩
    · rename_i cb hrun
      dsimp only
      split
      · rename_i hc
        subst hc
        unfold State.startProposing
        dsimp only
        split
        · exact ⟨fun _ => .inl, fun _ => .inr (.inl hrun)⟩
        · refine ⟨fun T hT => .inl ?_, fun _ => .inr (.inl hrun)⟩
          exact (has_schedule.mp hT).resolve_left (fun h => absurd h.1 (by decide))
      · rename_i hc
        refine ⟨fun T hT => .inl ?_, weak (fun h => h.elim .inl (fun x => (nomatch x)))⟩
        exact (has_schedule.mp hT).resolve_left (fun h => hc h.1)
  | conns l =>
    show (∀ T, Has (s.updateConnecteds cfg l).timer checkCb T → _) ∧
      ((s.updateConnecteds cfg l).proposing = true ∨ (s.updateConnecteds cfg l).running = some checkCb → _)
    unfold State.updateConnecteds
    dsimp only
    have f1 : ∀ (js : List Node) (u : State),
        (∀ T, Has u.timer checkCb T → Has s.timer checkCb T ∨ s.timer.now + cfg.tolerate ≤ T) →
        (u.proposing = true ∨ u.running = some checkCb → s.proposing = true ∨ s.running = some checkCb) →
        (∀ T, Has (js.foldl State.processConnected u).timer checkCb T → Has s.timer checkCb T ∨ s.timer.now + cfg.tolerate ≤ T) ∧
        ((js.foldl State.processConnected u).proposing = true ∨ (js.foldl State.processConnected u).running = some checkCb →
          s.proposing = true ∨ s.running = some checkCb) := by
      intro js
      induction js with
      | nil => exact fun u h1 h2 => ⟨h1, h2⟩
      | cons j js ih =>
        intro u h1 h2
        rw [List.foldl_cons]
        unfold State.processConnected
        split
        · obtain ⟨a, b⟩ := conn u h1 h2
          exact ih _ a b
        · exact ih _ h1 h2
    have f2 : ∀ (js : List Node) (u : State),
        (∀ T, Has u.timer checkCb T → Has s.timer checkCb T ∨ s.timer.now + cfg.tolerate ≤ T) →
        (u.proposing = true ∨ u.running = some checkCb → s.proposing = true ∨ s.running = some checkCb) →
        u.timer.now = s.timer.now →
        (∀ T, Has (js.foldl (State.processDisconnected cfg) u).timer checkCb T →
          Has s.timer checkCb T ∨ s.timer.now + cfg.tolerate ≤ T) ∧
        ((js.foldl (State.processDisconnected cfg) u).proposing = true ∨
          (js.foldl (State.processDisconnected cfg) u).running = some checkCb → s.proposing = true ∨ s.running = some checkCb) := by
      intro js
      induction js with
      | nil => exact fun u h1 h2 _ => ⟨h1, h2⟩
      | cons j js ih =>
        intro u h1 h2 h3
        rw [List.foldl_cons]
        unfold State.processDisconnected
        split
        · obtain ⟨a, b⟩ := disc u h1 h2 h3
          exact ih _ a b h3
        · exact ih _ h1 h2 h3
    obtain ⟨a, b⟩ := f1 (l.filter (· ∉ s.connected)) { s with connected := l } (fun _ => .inl) id
    obtain ⟨c, d⟩ := f2 (s.connected.filter (· ∉ l)) _ a b (fold_connected_frame { s with connected := l } _).2.2.2.1
    exact ⟨c, weak d⟩
  | needViewChange p =>
    show (∀ T, Has (s.needViewChange cfg p).timer checkCb T → _) ∧
      ((s.needViewChange cfg p).proposing = true ∨ (s.needViewChange cfg p).running = some checkCb → _)
    unfold State.needViewChange
    dsimp only
    split
    · obtain ⟨t, e, hn, _, _, ho⟩ := restart_eq cfg (State.vote { s with waiting := true, primary := some p } .samePrimary)
      rw [e]
      exact ⟨fun T h => .inl ((ho _ T (by decide)).mp h), weak id⟩
    · obtain ⟨t, e, hn, _, _, ho⟩ := restart_eq cfg { s with waiting := true, primary := some p }
      rw [e]
      exact ⟨fun T h => .inl ((ho _ T (by decide)).mp h), weak id⟩
  | newView p =>
    obtain ⟨_, _, _, h4, _, _, h7, h8, _⟩ := stopResending_frame { s with waiting := false, primary := p.or s.primary }
    have := sel (State.stopResending { s with waiting := false, primary := p.or s.primary }) ?_ ?_ h4
    · exact ⟨this.1, weak this.2⟩
    · unfold State.stopResending
      split
      · exact fun T h => .inl (has_cancel.mp h).2
      · exact fun T h => .inl h
    · rw [h7, h8]; exact id
  | caughtUp p =>
    have := sel { s with primary := some p } (fun _ => .inl) id rfl
    exact ⟨this.1, weak this.2⟩
  | hungry =>
    show (∀ T, Has (s.hungry cfg).timer checkCb T → _) ∧
      ((s.hungry cfg).proposing = true ∨ (s.hungry cfg).running = some checkCb → _)
    unfold State.hungry
    dsimp only
    split
    · refine ⟨fun T hT => ?_, weak id⟩
      rcases has_schedule.mp hT with ⟨_, hT⟩ | hT
      · exact .inr hT
      · exact .inl hT
    · exact ⟨fun _ => .inl, weak id⟩
  | setReady b => exact ⟨fun _ => .inl, weak id⟩
  | setSynced b => exact ⟨fun _ => .inl, weak id⟩
  | setValidators l => exact ⟨fun _ => .inl, weak id⟩
  | schedule d cb =>
    show (∀ T, Has (if cb ≤ 2 then s else { s with timer := s.timer.schedule d cb } : State).timer checkCb T → _) ∧
      ((if cb ≤ 2 then s else { s with timer := s.timer.schedule d cb } : State).proposing = true ∨
       (if cb ≤ 2 then s else { s with timer := s.timer.schedule d cb } : State).running = some checkCb → _)
    split
    · exact ⟨fun _ => .inl, weak id⟩
    · rename_i hc
      exact ⟨fun T hT => .inl ((has_schedule.mp hT).resolve_left (fun h => hc (by rw [h.1]; decide))), weak id⟩
  | cancel cb =>
    show (∀ T, Has (if cb ≤ 2 then s else { s with timer := s.timer.cancel cb } : State).timer checkCb T → _) ∧
      ((if cb ≤ 2 then s else { s with timer := s.timer.cancel cb } : State).proposing = true ∨
       (if cb ≤ 2 then s else { s with timer := s.timer.cancel cb } : State).running = some checkCb → _)
    split
    · exact ⟨fun _ => .inl, weak id⟩
    · exact ⟨fun T hT => .inl (has_cancel.mp hT).2, weak id⟩

theorem Calm.step {s : State} (h : Calm s) (e : Ev) (hr : s.running = some checkCb → e.mayConnect = false) : Calm (s.step cfg e) := by
  by_cases hm : e.mayConnect = true
  · have hr' : s.running ≠ some checkCb := fun x => by rw [hr x] at hm; cases hm
    cases e with
    | conns l => exact h.conns cfg hr' l
    | newView p =>
      refine Calm.selected cfg ?_
      rw [(stopResending_frame _).2.2.2.2.2.2.2.1]
      exact hr'
    | caughtUp p => exact Calm.selected cfg hr'
    | _ => cases hm
  · have hm' : e.mayConnect = false := by simpa using hm
    intro hd
    rw [step_disc cfg s e hm'] at hd
    obtain ⟨h1, h2, h3⟩ := h hd
    obtain ⟨c1, c2⟩ := step_check cfg s e
    have hno : ¬ ((s.step cfg e).proposing = true ∨ (s.step cfg e).running = some checkCb) := by
      intro x
      rcases c2 x with x | x | ⟨_, x⟩
      · rw [h2] at x; cases x
      · exact h3 x
      · rw [hd] at x; cases x
    refine ⟨fun T hT => ?_, by simpa using fun x => hno (.inl x), fun x => hno (.inr x)⟩
    -- a check is only scheduled when the primary is held for gone
    cases e with
    | tick d =>
      refine h1 T ?_
      revert hT
      show Has (if s.running.isSome then s else { s with timer := { s.timer with now := s.timer.now + d } } : State).timer checkCb T → _
      split <;> exact id
    | turn =>
      refine h1 T ?_
      revert hT
      show Has (if s.running.isSome then s else s.turn cfg : State).timer checkCb T → _
      split
      · exact id
      · unfold State.turn
        split
        · exact id
        · dsimp only
          split
          · unfold State.check
            rw [if_pos (by simp [hd])]
            exact has_turn_sub
          · split
            · split
              · unfold State.propose
                dsimp only
                split <;> exact has_turn_sub
              · exact has_turn_sub
            · split
              · split <;> exact has_turn_sub
              · exact has_turn_sub
    | callbackEnd =>
      refine h1 T ?_
      revert hT
      show Has (s.callbackEnd cfg).timer checkCb T → _
      unfold State.callbackEnd
      split
      · exact id
      · rename_i cb hrun
        dsimp only
        split
        · rename_i hc
          exact absurd (hc ▸ hrun) h3
        · rename_i hc
          exact fun hT => (has_schedule.mp hT).resolve_left (fun h => hc h.1)
    | conns l => cases hm'
    | newView p => cases hm'
    | caughtUp p => cases hm'
    | needViewChange p =>
      refine h1 T ?_
      revert hT
      show Has (s.needViewChange cfg p).timer checkCb T → _
      unfold State.needViewChange
      dsimp only
      split
      · obtain ⟨t, e, hn, _, _, ho⟩ := restart_eq cfg (State.vote { s with waiting := true, primary := some p } .samePrimary)
        rw [e]
        exact (ho _ T (by decide)).mp
      · obtain ⟨t, e, hn, _, _, ho⟩ := restart_eq cfg { s with waiting := true, primary := some p }
        rw [e]
        exact (ho _ T (by decide)).mp
    | hungry =>
      refine h1 T ?_
      revert hT
      show Has (s.hungry cfg).timer checkCb T → _
      unfold State.hungry
      dsimp only
      rw [if_neg (by simp [hd])]
      exact id
    | setReady b => exact h1 T hT
    | setSynced b => exact h1 T hT
    | setValidators l => exact h1 T hT
    | schedule d cb =>
      refine h1 T ?_
      revert hT
      show Has (if cb ≤ 2 then s else { s with timer := s.timer.schedule d cb } : State).timer checkCb T → _
      split
      · exact id
      · rename_i hc
        exact fun hT => (has_schedule.mp hT).resolve_left (fun h => hc (by rw [h.1]; decide))
    | cancel cb =>
      refine h1 T ?_
      revert hT
      show Has (if cb ≤ 2 then s else { s with timer := s.timer.cancel cb } : State).timer checkCb T → _
      split
      · exact id
      · exact fun hT => (has_cancel.mp hT).2

end Verif.Watch
