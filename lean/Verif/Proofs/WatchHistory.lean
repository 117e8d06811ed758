import Verif.Proofs.WatchEarly
import Verif.Proofs.Count
/-!
# Watching the primary: what has been, when a vote is sent
-/
namespace Verif.Watch
open Verif.Timer (Callback)

variable (cfg : Cfg)

theorem run_snoc' (es : List Ev) (e : Ev) : run cfg (es ++ [e]) = (run cfg es).step cfg e := run_snoc cfg (init cfg) es e

theorem now_prefix (a b : List Ev) : (run cfg a).timer.now ≤ (run cfg (a ++ b)).timer.now := by
  unfold run
  rw [run_append]
  exact (run_votes cfg _ b).1

/-- A property of all later states, one event on. -/
theorem After.snoc {es : List Ev} {e : Ev} {u : Int} {P P' : State → List Ev → Prop} (h : After cfg es u P)
    (hp : ∀ a b, es = a ++ b → P (run cfg a) b → P' (run cfg a) (b ++ [e]))
    (hn : P' (run cfg (es ++ [e])) []) : After cfg (es ++ [e]) u P' := by
  intro a b hab hu
  rcases List.eq_nil_or_concat b with rfl | ⟨b', x, rfl⟩
  · rw [List.append_nil] at hab
    subst hab
    exact hn
  · rw [List.concat_eq_append, ← List.append_assoc] at hab
    obtain ⟨h1, h2⟩ := List.append_inj' hab rfl
    cases h2
    rw [List.concat_eq_append]
    exact hp a b' h1 (h a b' h1 hu)

theorem After.mono {es : List Ev} {u v : Int} {P : State → List Ev → Prop} (h : After cfg es u P) (huv : u ≤ v) : After cfg es v P :=
  fun a b hab hv => h a b hab (by omega)

/-- Nothing is later than now. -/
theorem After.now {es : List Ev} {u : Int} {P : State → List Ev → Prop} (hu : (run cfg es).timer.now ≤ u) : After cfg es u P := by
  intro a b hab hv
  have := now_prefix cfg a b
  rw [← hab] at this
  omega

theorem Along.pre {P : State → Ev → Prop} {s : State} {es : List Ev} {e : Ev} (h : Along cfg P s (es ++ [e])) : Along cfg P s es := by
  intro a x b hab
  exact h a x (b ++ [e]) (by rw [hab]; simp)

theorem Along.last {P : State → Ev → Prop} {s : State} {es : List Ev} {e : Ev} (h : Along cfg P s (es ++ [e])) : P (s.run cfg es) e :=
  h es e [] rfl

/-- The time after which a vote may follow. -/
def Cfg.patience (cfg : Cfg) : Nat := min cfg.tolerate cfg.initial

def Quiet (s : State) (e : Ev) : Prop := s.running = some checkCb → e.mayConnect = false

structure Hist (es : List Ev) : Prop where
  calm : Calm (run cfg es)
  check : ∀ T, Has (run cfg es).timer checkCb T → After cfg es (T - cfg.patience) (fun s _ => s.disc.isSome = true)
  prop : (run cfg es).proposing = true ∨ (run cfg es).running = some checkCb →
    After cfg es ((run cfg es).timer.now - cfg.patience) (fun s _ => s.disc.isSome = true)

theorem hist (es : List Ev) (h : Along cfg Quiet (init cfg) es) : Hist cfg es := by
  induction es using snoc_induction with
  | nil =>
    have : ∀ u, After cfg [] u (fun s _ => s.disc.isSome = true) := by
      intro u a b hab _
      obtain ⟨rfl, rfl⟩ := List.append_eq_nil_iff.mp hab.symm
      rfl
    exact ⟨calm_init cfg, fun T _ => this _, fun _ => this _⟩
  | snoc es e ih =>
    have i := ih (h.pre cfg)
    have hq : Quiet (run cfg es) e := h.last cfg
    have hc : Calm (run cfg (es ++ [e])) := by rw [run_snoc']; exact i.calm.step cfg e hq
    cases hd : (run cfg (es ++ [e])).disc with
    | none =>
      obtain ⟨h1, h2, h3⟩ := hc hd
      refine ⟨hc, fun T hT => absurd hT (h1 T), fun x => ?_⟩
      rcases x with x | x
      · rw [h2] at x; cases x
      · exact absurd x h3
    | some v =>
      have next : ∀ u, After cfg es u (fun s _ => s.disc.isSome = true) → After cfg (es ++ [e]) u (fun s _ => s.disc.isSome = true) :=
        fun u hu => hu.snoc cfg (fun _ _ _ x => x) (by rw [hd]; rfl)
      obtain ⟨c1, c2⟩ := step_check cfg (run cfg es) e
      have hn := step_now cfg (run cfg es) e
      rw [← run_snoc'] at c1 c2 hn
      have hp : cfg.patience ≤ cfg.tolerate := Nat.min_le_left ..
      refine ⟨hc, fun T hT => next _ ?_, fun x => next _ ?_⟩
      · rcases c1 T hT with hT | hT
        · exact i.check T hT
        · exact After.now cfg (by omega)
      · rcases c2 x with x | x | ⟨x, _⟩
        · exact (i.prop (.inl x)).mono cfg (by omega)
        · exact (i.prop (.inr x)).mono cfg (by omega)
        · exact (i.check _ x).mono cfg (by omega)

/-- A vote against the primary comes from a turn of the timer. -/
theorem step_votes_why (s : State) (e : Ev) {l : List (Int × Why)} (hl : (s.step cfg e).votes = s.votes ++ l) :
    ∀ x ∈ l, (x.2 = .disconnected → s.disc.isSome = true ∧ (Has s.timer checkCb s.timer.now ∨ s.proposing = true)) ∧
      (x.2 = .timeout → s.resending = true ∧ Has s.timer resendCb s.timer.now) := by
  have nil : ∀ u : State, u.votes = s.votes → u.votes = s.votes ++ l → l = [] := by
    intro u h1 h2
    rw [h1] at h2
    exact (List.self_eq_append_right.mp h2)
  have one : ∀ (u : State) (y : Int × Why), u.votes = s.votes ++ [y] → u.votes = s.votes ++ l → l = [y] := by
    intro u y h1 h2
    rw [h1] at h2
    exact (List.append_cancel_left h2).symm
  have none' : l = [] → ∀ x ∈ l, (x.2 = .disconnected → s.disc.isSome = true ∧ (Has s.timer checkCb s.timer.now ∨ s.proposing = true)) ∧
      (x.2 = .timeout → s.resending = true ∧ Has s.timer resendCb s.timer.now) := by
    intro h x hx; rw [h] at hx; exact (nomatch hx)
  by_cases he : e = .turn
  · subst he
    replace hl : (if s.running.isSome then s else s.turn cfg : State).votes = s.votes ++ l := hl
    split at hl
    · exact none' (nil s rfl hl)
    · unfold State.turn at hl
      cases hd : s.timer.due with
      | none =>
        rw [hd] at hl
        exact none' (nil s rfl hl)
      | some e =>
        obtain ⟨l', hl', hle, _, hn⟩ := due_events hd
        have hh : ∀ cb, e.callback = cb → Has s.timer cb s.timer.now :=
          fun cb hc => ⟨e, by rw [hl']; exact List.mem_cons_self .., hc, hle⟩
        rw [hd] at hl
        dsimp only at hl
        split at hl
        · rename_i hc
          unfold State.check at hl
          split at hl
          · exact none' (nil { s with timer := s.timer.turn } rfl hl)
          · rename_i hdn
            split at hl
            · exact none' (nil _ rfl hl)
            · have := one _ _ rfl hl
              subst this
              intro x hx
              rw [List.mem_singleton.mp hx]
              exact ⟨fun _ => ⟨by simpa [Option.isSome_iff_ne_none] using hdn, .inl (hh _ hc)⟩, fun h => (nomatch h)⟩
        · split at hl
          · rename_i hc
            split at hl
            · rename_i hp
              unfold State.propose at hl
              dsimp only at hl
              split at hl
              · rename_i hs
                have := one _ _ rfl hl
                subst this
                intro x hx
                rw [List.mem_singleton.mp hx]
                exact ⟨fun _ => ⟨hs, .inr hp⟩, fun h => (nomatch h)⟩
              · exact none' (nil { s with timer := s.timer.turn } rfl hl)
            · exact none' (nil { s with timer := s.timer.turn } rfl hl)
          · split at hl
            · rename_i hc
              split at hl
              · rename_i hr
                have := one _ _ rfl hl
                subst this
                intro x hx
                rw [List.mem_singleton.mp hx]
                exact ⟨fun h => (nomatch h), fun _ => ⟨hr, hh _ hc⟩⟩
              · exact none' (nil { s with timer := s.timer.turn } rfl hl)
            · exact none' (nil { s with timer := s.timer.turn } rfl hl)
  · cases e with
    | needViewChange p =>
      replace hl : (s.needViewChange cfg p).votes = s.votes ++ l := hl
      unfold State.needViewChange at hl
      dsimp only at hl
      split at hl
      · obtain ⟨t, e, _⟩ := restart_eq cfg (State.vote { s with waiting := true, primary := some p } .samePrimary)
        rw [e] at hl
        have := one _ (s.timer.now, .samePrimary) rfl hl
        subst this
        intro x hx
        rw [List.mem_singleton.mp hx]
        exact ⟨fun h => (nomatch h), fun h => (nomatch h)⟩
      · obtain ⟨t, e, _⟩ := restart_eq cfg { s with waiting := true, primary := some p }
        rw [e] at hl
        exact none' (nil _ rfl hl)
    | turn => exact absurd rfl he
    | tick d =>
      replace hl : (if s.running.isSome then s else { s with timer := { s.timer with now := s.timer.now + d } } : State).votes = _ := hl
      split at hl
      · exact none' (nil s rfl hl)
      · exact none' (nil _ rfl hl)
    | callbackEnd =>
      refine none' (nil _ ?_ hl)
      show (s.callbackEnd cfg).votes = _
      unfold State.callbackEnd
      split
      · rfl
      · dsimp only
        split
        · unfold State.startProposing; split <;> rfl
        · rfl
    | conns l => exact none' (nil _ (conns_frame cfg s l).1 hl)
    | newView p =>
      refine none' (nil _ ?_ hl)
      show (s.newView cfg p).votes = _
      unfold State.newView
      rw [(selected_frame cfg _).1, (stopResending_frame _).1]
    | caughtUp p => exact none' (nil _ (selected_frame cfg { s with primary := some p }).1 hl)
    | hungry =>
      refine none' (nil _ ?_ hl)
      show (s.hungry cfg).votes = _
      unfold State.hungry
      dsimp only
      split <;> rfl
    | setReady b => exact none' (nil _ rfl hl)
    | setSynced b => exact none' (nil _ rfl hl)
    | setValidators l => exact none' (nil _ rfl hl)
    | schedule d cb =>
      replace hl : (if cb ≤ 2 then s else { s with timer := s.timer.schedule d cb } : State).votes = _ := hl
      split at hl
      · exact none' (nil s rfl hl)
      · exact none' (nil _ rfl hl)
    | cancel cb =>
      replace hl : (if cb ≤ 2 then s else { s with timer := s.timer.cancel cb } : State).votes = _ := hl
      split at hl
      · exact none' (nil s rfl hl)
      · exact none' (nil _ rfl hl)

theorem not_early (es : List Ev) (e : Ev) (h : Along cfg Quiet (init cfg) es) {l : List (Int × Why)}
    (hl : (run cfg (es ++ [e])).votes = (run cfg es).votes ++ l) (x : Int × Why) (hx : x ∈ l) (hw : x.2 = .disconnected) :
    After cfg es ((run cfg es).timer.now - cfg.patience) (fun s _ => s.disc.isSome = true) := by
  have i := hist cfg es h
  rw [run_snoc'] at hl
  obtain ⟨_, hc⟩ := (step_votes_why cfg _ e hl x hx).1 hw
  rcases hc with hc | hc
  · exact i.check _ hc
  · exact i.prop (.inl hc)

/-! ## A view change which takes too long -/

theorem step_wait (s : State) (e : Ev) (h : e.viewChange = false) : (s.step cfg e).waiting = s.waiting ∧
    (s.step cfg e).resending = s.resending ∧
    ((s.step cfg e).running = some resendCb → s.running = some resendCb ∨ s.resending = true) ∧
    (∀ T, Has (s.step cfg e).timer resendCb T → Has s.timer resendCb T ∨
      (s.running = some resendCb ∧ s.timer.now + cfg.timeout ≤ T)) := by
  have conn : ∀ u : State, u.primaryConnected.waiting = u.waiting ∧ u.primaryConnected.resending = u.resending ∧
      u.primaryConnected.running = u.running ∧ (∀ T, Has u.primaryConnected.timer resendCb T → Has u.timer resendCb T) := by
    intro u
    obtain ⟨t, e, _, _, _, _, h⟩ := primaryConnected_eq u
    rw [e]
    exact ⟨rfl, rfl, rfl, fun T => h _ T⟩
  have disc : ∀ u : State, (∀ T, Has (u.primaryDisconnected cfg).timer resendCb T → Has u.timer resendCb T) := by
    intro u T hT
    exact (has_schedule.mp hT).resolve_left (fun h => absurd h.1 (by decide))
  have sel : ∀ u : State, (u.primarySelected cfg).waiting = u.waiting ∧ (u.primarySelected cfg).resending = u.resending ∧
      (u.primarySelected cfg).running = u.running ∧ (∀ T, Has (u.primarySelected cfg).timer resendCb T → Has u.timer resendCb T) := by
    intro u
    unfold State.primarySelected
    split
    · exact conn u
    · exact ⟨rfl, rfl, rfl, disc u⟩
  have weak : ∀ u : State, (u.waiting = s.waiting ∧ u.resending = s.resending ∧ u.running = s.running ∧
      (∀ T, Has u.timer resendCb T → Has s.timer resendCb T)) → (u.waiting = s.waiting ∧
    u.resending = s.resending ∧
    (u.running = some resendCb → s.running = some resendCb ∨ s.resending = true) ∧
    (∀ T, Has u.timer resendCb T → Has s.timer resendCb T ∨
      (s.running = some resendCb ∧ s.timer.now + cfg.timeout ≤ T))) :=
    fun u ⟨a, b, c, d⟩ => ⟨a, b, fun x => .inl (c ▸ x), fun T hT => .inl (d T hT)⟩
  cases e with
  | tick d =>
    apply weak
    show (if s.running.isSome then s else { s with timer := { s.timer with now := s.timer.now + d } } : State).waiting = _ ∧
      (if s.running.isSome then s else { s with timer := { s.timer with now := s.timer.now + d } } : State).resending = _ ∧
      (if s.running.isSome then s else { s with timer := { s.timer with now := s.timer.now + d } } : State).running = _ ∧
      ∀ T, Has (if s.running.isSome then s else { s with timer := { s.timer with now := s.timer.now + d } } : State).timer resendCb T → _
    split <;> exact ⟨rfl, rfl, rfl, fun _ => id⟩
  | turn =>
    show (if s.running.isSome then s else s.turn cfg : State).waiting = _ ∧
      (if s.running.isSome then s else s.turn cfg : State).resending = _ ∧
      ((if s.running.isSome then s else s.turn cfg : State).running = some resendCb → _) ∧
      ∀ T, Has (if s.running.isSome then s else s.turn cfg : State).timer resendCb T → _
    have sub : ∀ T, Has s.timer.turn resendCb T → Has s.timer resendCb T ∨
      (s.running = some resendCb ∧ s.timer.now + cfg.timeout ≤ T) := fun T h => .inl (has_turn_sub h)
    split
    · exact ⟨rfl, rfl, .inl, fun _ => .inl⟩
    · unfold State.turn
      split
      · exact ⟨rfl, rfl, .inl, fun _ => .inl⟩
      · dsimp only
        split
        · unfold State.check
          split
          · exact ⟨rfl, rfl, .inl, sub⟩
          · split
            · exact ⟨rfl, rfl, .inl, fun T hT => sub T ((has_schedule.mp hT).resolve_left (fun h => absurd h.1 (by decide)))⟩
            · exact ⟨rfl, rfl, fun x => (nomatch x), sub⟩
        · split
          · split
            · unfold State.propose
              dsimp only
              split <;> exact ⟨rfl, rfl, fun x => (nomatch x), sub⟩
            · exact ⟨rfl, rfl, .inl, sub⟩
          · split
            · split
              · rename_i hr
                exact ⟨rfl, rfl, fun _ => .inr hr, sub⟩
              · exact ⟨rfl, rfl, .inl, sub⟩
            · exact ⟨rfl, rfl, .inl, sub⟩
  | callbackEnd =>
    show (s.callbackEnd cfg).waiting = _ ∧ (s.callbackEnd cfg).resending = _ ∧ ((s.callbackEnd cfg).running = some resendCb → _) ∧
      ∀ T, Has (s.callbackEnd cfg).timer resendCb T → _
    unfold State.callbackEnd
    split
    · exact ⟨rfl, rfl, .inl, fun _ => .inl⟩
    · rename_i cb hrun
      dsimp only
      split
      · unfold State.startProposing
        dsimp only
        split
        · exact ⟨rfl, rfl, fun x => (nomatch x), fun _ => .inl⟩
        · exact ⟨rfl, rfl, fun x => (nomatch x), fun T hT =>
            .inl ((has_schedule.mp hT).resolve_left (fun h => absurd h.1 (by decide)))⟩
      · refine ⟨rfl, rfl, fun x => (nomatch x), fun T hT => ?_⟩
        rcases has_schedule.mp hT with ⟨hc, hT⟩ | hT
        · exact .inr ⟨by rw [hrun, hc], hT⟩
        · exact .inl hT
  | conns l =>
    apply weak
    show (s.updateConnecteds cfg l).waiting = _ ∧ (s.updateConnecteds cfg l).resending = _ ∧
      (s.updateConnecteds cfg l).running = _ ∧ ∀ T, Has (s.updateConnecteds cfg l).timer resendCb T → _
    unfold State.updateConnecteds
    dsimp only
    have f1 : ∀ (js : List Node) (u : State), (js.foldl State.processConnected u).waiting = u.waiting ∧
        (js.foldl State.processConnected u).resending = u.resending ∧ (js.foldl State.processConnected u).running = u.running ∧
        ∀ T, Has (js.foldl State.processConnected u).timer resendCb T → Has u.timer resendCb T := by
      intro js
      induction js with
      | nil => exact fun u => ⟨rfl, rfl, rfl, fun _ => id⟩
      | cons j js ih =>
        intro u
        rw [List.foldl_cons]
        unfold State.processConnected
        split
        · obtain ⟨a, b, c, d⟩ := ih u.primaryConnected
          obtain ⟨a', b', c', d'⟩ := conn u
          exact ⟨a.trans a', b.trans b', c.trans c', fun T hT => d' T (d T hT)⟩
        · exact ih u
    have f2 : ∀ (js : List Node) (u : State), (js.foldl (State.processDisconnected cfg) u).waiting = u.waiting ∧
        (js.foldl (State.processDisconnected cfg) u).resending = u.resending ∧
        (js.foldl (State.processDisconnected cfg) u).running = u.running ∧
        ∀ T, Has (js.foldl (State.processDisconnected cfg) u).timer resendCb T → Has u.timer resendCb T := by
      intro js
      induction js with
      | nil => exact fun u => ⟨rfl, rfl, rfl, fun _ => id⟩
      | cons j js ih =>
        intro u
        rw [List.foldl_cons]
        unfold State.processDisconnected
        split
        · obtain ⟨a, b, c, d⟩ := ih (u.primaryDisconnected cfg)
          exact ⟨a, b, c, fun T hT => disc u T (d T hT)⟩
        · exact ih u
    obtain ⟨a, b, c, d⟩ := f1 (l.filter (· ∉ s.connected)) { s with connected := l }
    obtain ⟨a', b', c', d'⟩ := f2 (s.connected.filter (· ∉ l)) ((l.filter (· ∉ s.connected)).foldl State.processConnected { s with connected := l })
    exact ⟨a'.trans a, b'.trans b, c'.trans c, fun T hT => d T (d' T hT)⟩
  | needViewChange p => cases h
  | newView p => cases h
  | caughtUp p => exact weak _ (sel { s with primary := some p })
  | hungry =>
    apply weak
    show (s.hungry cfg).waiting = _ ∧ (s.hungry cfg).resending = _ ∧ (s.hungry cfg).running = _ ∧
      ∀ T, Has (s.hungry cfg).timer resendCb T → _
    unfold State.hungry
    dsimp only
    split
    · exact ⟨rfl, rfl, rfl, fun T hT => (has_schedule.mp hT).resolve_left (fun h => absurd h.1 (by decide))⟩
    · exact ⟨rfl, rfl, rfl, fun _ => id⟩
  | setReady b => exact weak _ ⟨rfl, rfl, rfl, fun _ => id⟩
  | setSynced b => exact weak _ ⟨rfl, rfl, rfl, fun _ => id⟩
  | setValidators l => exact weak _ ⟨rfl, rfl, rfl, fun _ => id⟩
  | schedule d cb =>
    apply weak
    show (if cb ≤ 2 then s else { s with timer := s.timer.schedule d cb } : State).waiting = _ ∧
      (if cb ≤ 2 then s else { s with timer := s.timer.schedule d cb } : State).resending = _ ∧
      (if cb ≤ 2 then s else { s with timer := s.timer.schedule d cb } : State).running = _ ∧
      ∀ T, Has (if cb ≤ 2 then s else { s with timer := s.timer.schedule d cb } : State).timer resendCb T → _
    split
    · exact ⟨rfl, rfl, rfl, fun _ => id⟩
    · rename_i hc
      exact ⟨rfl, rfl, rfl, fun T hT => (has_schedule.mp hT).resolve_left (fun h => hc (by rw [h.1]; decide))⟩
  | cancel cb =>
    apply weak
    show (if cb ≤ 2 then s else { s with timer := s.timer.cancel cb } : State).waiting = _ ∧
      (if cb ≤ 2 then s else { s with timer := s.timer.cancel cb } : State).resending = _ ∧
      (if cb ≤ 2 then s else { s with timer := s.timer.cancel cb } : State).running = _ ∧
      ∀ T, Has (if cb ≤ 2 then s else { s with timer := s.timer.cancel cb } : State).timer resendCb T → _
    split
    · exact ⟨rfl, rfl, rfl, fun _ => id⟩
    · exact ⟨rfl, rfl, rfl, fun T hT => (has_cancel.mp hT).2⟩

def NoEnd (s : State) (e : Ev) : Prop := s.running = some resendCb → ∀ p, e ≠ .newView p

/-- There has been a view change, the same one. -/
def Same (s : State) (rest : List Ev) : Prop := s.waiting = true ∧ ∀ e ∈ rest, e.viewChange = false

structure HistW (es : List Ev) : Prop where
  eq : (run cfg es).waiting = (run cfg es).resending
  cb : (run cfg es).running = some resendCb → (run cfg es).resending = true
  has : ∀ T, Has (run cfg es).timer resendCb T → (run cfg es).resending = true ∧ After cfg es (T - cfg.timeout) Same

theorem histW (es : List Ev) (h : Along cfg NoEnd (init cfg) es) : HistW cfg es := by
  induction es using snoc_induction with
  | nil =>
    refine ⟨rfl, fun x => (nomatch x), fun T hT => ?_⟩
    obtain ⟨e, he, hc, _⟩ := hT
    rcases mem_insert.mp he with rfl | he
    · exact absurd hc (fun h => by cases h)
    · exact (nomatch he)
  | snoc es e ih =>
    have i := ih (h.pre cfg)
    have hq : NoEnd (run cfg es) e := h.last cfg
    by_cases hv : e.viewChange = false
    · obtain ⟨w1, w2, w3, w4⟩ := step_wait cfg (run cfg es) e hv
      have hn := step_now cfg (run cfg es) e
      rw [← run_snoc'] at w1 w2 w3 w4 hn
      have hw : ∀ T, Has (run cfg es).timer resendCb T ∨
          ((run cfg es).running = some resendCb ∧ (run cfg es).timer.now + cfg.timeout ≤ T) →
          (run cfg es).resending = true ∧ After cfg es (T - cfg.timeout) Same := by
        intro T hT
        rcases hT with hT | ⟨hr, hT⟩
        · exact i.has T hT
        · exact ⟨i.cb hr, After.now cfg (by omega)⟩
      refine ⟨by rw [w1, w2]; exact i.eq, fun x => ?_, fun T hT => ?_⟩
      · rw [w2]; exact (w3 x).elim i.cb id
      · obtain ⟨a, b⟩ := hw T (w4 T hT)
        refine ⟨by rw [w2]; exact a, b.snoc cfg ?_ ?_⟩
        · intro _ _ _ ⟨x, y⟩
          refine ⟨x, fun e' he' => ?_⟩
          rcases List.mem_append.mp he' with he' | he'
          · exact y e' he'
          · rw [List.mem_singleton.mp he']; exact hv
        · exact ⟨by rw [w1, i.eq]; exact a, fun e' he' => (nomatch he')⟩
    · cases e with
      | needViewChange p =>
        have key : ∃ t, (run cfg (es ++ [.needViewChange p])).timer = t ∧ (run cfg (es ++ [.needViewChange p])).waiting = true ∧
            (run cfg (es ++ [.needViewChange p])).resending = true ∧
            t.now = (run cfg es).timer.now ∧ ∀ T, Has t resendCb T → (run cfg es).timer.now + cfg.timeout ≤ T := by
          rw [run_snoc']
          refine ⟨_, rfl, ?_⟩
          show ((run cfg es).needViewChange cfg p).waiting = true ∧ ((run cfg es).needViewChange cfg p).resending = true ∧
            ((run cfg es).needViewChange cfg p).timer.now = _ ∧
            ∀ T, Has ((run cfg es).needViewChange cfg p).timer resendCb T → _
          have gen : ∀ u : State, u.waiting = true → u.timer = (run cfg es).timer → u.resending = (run cfg es).resending →
              (u.stopResending.startResending cfg).waiting = true ∧ (u.stopResending.startResending cfg).resending = true ∧
              (u.stopResending.startResending cfg).timer.now = (run cfg es).timer.now ∧
              ∀ T, Has (u.stopResending.startResending cfg).timer resendCb T → (run cfg es).timer.now + cfg.timeout ≤ T := by
            intro u h1 h2 h3
            unfold State.stopResending
            split
            · unfold State.startResending
              rw [if_neg (by simp)]
              refine ⟨h1, rfl, by show u.timer.now = _; rw [h2], fun T hT => ?_⟩
              rcases has_schedule.mp hT with ⟨_, hT⟩ | hT
              · rw [← h2]; exact hT
              · exact absurd rfl (has_cancel.mp hT).1
            · rename_i hr
              unfold State.startResending
              rw [if_neg hr]
              refine ⟨h1, rfl, by show u.timer.now = _; rw [h2], fun T hT => ?_⟩
              rcases has_schedule.mp hT with ⟨_, hT⟩ | hT
              · rw [← h2]; exact hT
              · rw [h2] at hT
                exact absurd (by rw [h3]; exact (i.has T hT).1) hr
          unfold State.needViewChange
          dsimp only
          split
          · exact gen _ rfl rfl rfl
          · exact gen _ rfl rfl rfl
        obtain ⟨t, ht, k1, k2, k3, k4⟩ := key
        refine ⟨by rw [k1, k2], fun _ => k2, fun T hT => ?_⟩
        rw [ht] at hT
        refine ⟨k2, After.now cfg ?_⟩
        have := k4 T hT
        rw [ht, k3]
        omega
      | newView p =>
        have key : (run cfg (es ++ [.newView p])).waiting = false ∧ (run cfg (es ++ [.newView p])).resending = false ∧
            (run cfg (es ++ [.newView p])).running = (run cfg es).running ∧
            ∀ T, ¬ Has (run cfg (es ++ [.newView p])).timer resendCb T := by
          rw [run_snoc']
          show ((run cfg es).newView cfg p).waiting = _ ∧ ((run cfg es).newView cfg p).resending = _ ∧
            ((run cfg es).newView cfg p).running = _ ∧ ∀ T, ¬ Has ((run cfg es).newView cfg p).timer resendCb T
          have sel : ∀ u : State, (u.primarySelected cfg).waiting = u.waiting ∧ (u.primarySelected cfg).resending = u.resending ∧
              (u.primarySelected cfg).running = u.running ∧
              (∀ T, Has (u.primarySelected cfg).timer resendCb T → Has u.timer resendCb T) := by
            intro u
            unfold State.primarySelected
            split
            · obtain ⟨t, e, _, _, _, _, h⟩ := primaryConnected_eq u
              rw [e]
              exact ⟨rfl, rfl, rfl, fun T => h _ T⟩
            · exact ⟨rfl, rfl, rfl, fun T hT => (has_schedule.mp hT).resolve_left (fun h => absurd h.1 (by decide))⟩
          unfold State.newView
          dsimp only
          obtain ⟨a, b, c, d⟩ := sel (State.stopResending { run cfg es with waiting := false, primary := p.or (run cfg es).primary })
          rw [a, b, c]
          refine ⟨(stopResending_frame _).2.2.2.2.2.2.2.2, ?_, (stopResending_frame _).2.2.2.2.2.2.2.1, fun T hT => ?_⟩
          · unfold State.stopResending
            split
            · rfl
            · rename_i hr; simpa using hr
          · have hT := d T hT
            revert hT
            unfold State.stopResending
            split
            · exact fun hT => absurd rfl (has_cancel.mp hT).1
            · rename_i hr
              exact fun hT => hr (i.has T hT).1
        obtain ⟨k1, k2, k3, k4⟩ := key
        exact ⟨by rw [k1, k2], fun x => absurd rfl (hq (k3 ▸ x) p), fun T hT => absurd hT (k4 T)⟩
      | _ => exact absurd rfl hv

theorem timeout_not_early (es : List Ev) (e : Ev) (h : Along cfg NoEnd (init cfg) es) {l : List (Int × Why)}
    (hl : (run cfg (es ++ [e])).votes = (run cfg es).votes ++ l) (x : Int × Why) (hx : x ∈ l) (hw : x.2 = .timeout) :
    (run cfg es).waiting = true ∧ After cfg es ((run cfg es).timer.now - cfg.timeout) Same := by
  have i := histW cfg es h
  rw [run_snoc'] at hl
  obtain ⟨hr, hc⟩ := (step_votes_why cfg _ e hl x hx).2 hw
  exact ⟨by rw [i.eq]; exact hr, (i.has _ hc).2⟩

end Verif.Watch
