import Verif.Model.Watch
/-!
# Watching the primary: the queue of the timer, and invariants
-/
namespace Verif.Watch
open Verif.Timer (Callback insertEv)

/-! ## The queue -/

/-- There is an event for a callback, at `T` or before. -/
def Has (t : Timer.State) (cb : Callback) (T : Int) : Prop := ∃ e ∈ t.events, e.callback = cb ∧ e.timestamp ≤ T

/-- Events are in the order of time. -/
def Sorted (t : Timer.State) : Prop := t.events.Pairwise (fun a b => a.timestamp ≤ b.timestamp)

theorem mem_insert {e x : Timer.Ev} {l : List Timer.Ev} : x ∈ insertEv e l ↔ x = e ∨ x ∈ l := by
  induction l with
  | nil => simp [insertEv]
  | cons y l ih =>
    rw [insertEv]
    split
    · rw [List.mem_cons, ih, List.mem_cons]; grind
    · rw [List.mem_cons]

theorem sorted_insert {e : Timer.Ev} {l : List Timer.Ev} (h : l.Pairwise (fun a b => a.timestamp ≤ b.timestamp)) :
    (insertEv e l).Pairwise (fun a b => a.timestamp ≤ b.timestamp) := by
  induction l with
  | nil => simp [insertEv]
  | cons y l ih =>
    rw [insertEv]
    rw [List.pairwise_cons] at h
    split
    · rename_i hy
      rw [List.pairwise_cons]
      refine ⟨fun x hx => ?_, ih h.2⟩
      rcases mem_insert.mp hx with rfl | hx
      · exact hy
      · exact h.1 x hx
    · rename_i hy
      rw [List.pairwise_cons]
      refine ⟨fun x hx => ?_, by rw [List.pairwise_cons]; exact h⟩
      rcases List.mem_cons.mp hx with rfl | hx
      · omega
      · have := h.1 x hx; omega

theorem sorted_schedule {t : Timer.State} (h : Sorted t) (d : Int) (cb : Callback) : Sorted (t.schedule d cb) :=
  sorted_insert h

theorem sorted_cancel {t : Timer.State} (h : Sorted t) (cb : Callback) : Sorted (t.cancel cb) :=
  List.Pairwise.filter _ h

theorem due_events {t : Timer.State} {e : Timer.Ev} (h : t.due = some e) :
    ∃ l, t.events = e :: l ∧ e.timestamp ≤ t.now ∧ t.turn.events = l ∧ t.turn.now = t.now := by
  unfold Timer.State.turn
  rw [h]
  unfold Timer.State.due at h
  split at h
  · cases h
  · rename_i x l hl
    split at h
    · cases h
      exact ⟨l, hl, by assumption, by rw [hl]; rfl, rfl⟩
    · cases h

theorem turn_none {t : Timer.State} (h : t.due = none) : t.turn = t := by
  unfold Timer.State.turn; rw [h]

theorem sorted_turn {t : Timer.State} (h : Sorted t) : Sorted t.turn := by
  cases hd : t.due with
  | none => rw [turn_none hd]; exact h
  | some e =>
    obtain ⟨l, hl, _, hl', _⟩ := due_events hd
    unfold Sorted at h ⊢
    rw [hl'] 
    rw [hl] at h
    exact (List.pairwise_cons.mp h).2

theorem turn_now (t : Timer.State) : t.turn.now = t.now := by
  unfold Timer.State.turn; split <;> rfl

/-- When nothing is due all events are in the future. -/
theorem due_none {t : Timer.State} (hs : Sorted t) (h : t.due = none) {cb : Callback} {T : Int} (hh : Has t cb T) : t.now < T := by
  obtain ⟨e, he, _, ht⟩ := hh
  unfold Timer.State.due at h
  split at h
  · rename_i hn; rw [hn] at he; exact (nomatch he)
  · rename_i x l hl
    unfold Sorted at hs
    rw [hl] at hs he
    split at h
    · cases h
    · rcases List.mem_cons.mp he with rfl | he
      · omega
      · have := (List.pairwise_cons.mp hs).1 e he
        omega

theorem has_schedule {t : Timer.State} {d : Int} {cb cb' : Callback} {T : Int} :
    Has (t.schedule d cb') cb T ↔ (cb' = cb ∧ t.now + d ≤ T) ∨ Has t cb T := by
  unfold Has Timer.State.schedule
  simp only [mem_insert]
  constructor
  · rintro ⟨e, rfl | he, hc, ht⟩
    · exact .inl ⟨hc, ht⟩
    · exact .inr ⟨e, he, hc, ht⟩
  · rintro (⟨hc, ht⟩ | ⟨e, he, hc, ht⟩)
    · exact ⟨_, .inl rfl, hc, ht⟩
    · exact ⟨e, .inr he, hc, ht⟩

theorem has_cancel {t : Timer.State} {cb cb' : Callback} {T : Int} :
    Has (t.cancel cb') cb T ↔ cb' ≠ cb ∧ Has t cb T := by
  unfold Has Timer.State.cancel
  simp only [List.mem_filter, decide_eq_true_eq]
  constructor
  · rintro ⟨e, ⟨he, hn⟩, hc, ht⟩
    exact ⟨fun h => hn (by rw [hc, h]), e, he, hc, ht⟩
  · rintro ⟨hn, e, he, hc, ht⟩
    exact ⟨e, ⟨he, by rw [hc]; exact fun h => hn h.symm⟩, hc, ht⟩

theorem has_turn {t : Timer.State} {e : Timer.Ev} (h : t.due = some e) {cb : Callback} {T : Int} (hne : e.callback ≠ cb)
    (hh : Has t cb T) : Has t.turn cb T := by
  obtain ⟨l, hl, _, hl', _⟩ := due_events h
  obtain ⟨x, hx, hc, ht⟩ := hh
  refine ⟨x, ?_, hc, ht⟩
  rw [hl'] 
  rw [hl] at hx
  rcases List.mem_cons.mp hx with rfl | hx
  · exact absurd hc hne
  · exact hx

theorem has_turn_sub {t : Timer.State} {cb : Callback} {T : Int} (hh : Has t.turn cb T) : Has t cb T := by
  cases hd : t.due with
  | none => rw [turn_none hd] at hh; exact hh
  | some e =>
    obtain ⟨l, hl, _, hl', _⟩ := due_events hd
    obtain ⟨x, hx, hc, ht⟩ := hh
    rw [hl'] at hx
    exact ⟨x, by rw [hl]; exact List.mem_cons_of_mem _ hx, hc, ht⟩

theorem Has.mono {t : Timer.State} {cb : Callback} {T T' : Int} (h : Has t cb T) (hT : T ≤ T') : Has t cb T' := by
  obtain ⟨e, he, hc, ht⟩ := h
  exact ⟨e, he, hc, by omega⟩

theorem has_tick {t : Timer.State} {n : Int} {cb : Callback} {T : Int} : Has { t with now := n } cb T ↔ Has t cb T := Iff.rfl

@[simp] theorem schedule_now (t : Timer.State) (d : Int) (cb : Callback) : (t.schedule d cb).now = t.now := rfl
@[simp] theorem cancel_now (t : Timer.State) (cb : Callback) : (t.cancel cb).now = t.now := rfl

/-! ## Runs -/

variable (cfg : Cfg)

theorem run_append (s : State) (a b : List Ev) : s.run cfg (a ++ b) = (s.run cfg a).run cfg b := List.foldl_append ..
theorem run_cons (s : State) (e : Ev) (b : List Ev) : s.run cfg (e :: b) = (s.step cfg e).run cfg b := rfl
theorem run_snoc (s : State) (a : List Ev) (e : Ev) : s.run cfg (a ++ [e]) = (s.run cfg a).step cfg e := by
  rw [run_append]; rfl

/-! ## Invariants -/

/-- The longest of the three delays. -/
def Cfg.bound (cfg : Cfg) : Nat := max cfg.tolerate (max cfg.initial cfg.timeout)

/-- A vote against the primary will be sent, at `T` or before, if the node can vote. -/
def Pend (s : State) (T : Int) : Prop :=
  Has s.timer checkCb T ∨ (s.proposing = true ∧ Has s.timer proposeCb T) ∨
  (s.running = some checkCb ∧ s.timer.now + cfg.timeout ≤ T) ∨
  (s.running = some proposeCb ∧ s.proposing = true ∧ s.timer.now + cfg.timeout ≤ T)

structure Inv (s : State) : Prop where
  sorted : Sorted s.timer
  prop : s.proposing = true → Has s.timer proposeCb (s.timer.now + cfg.timeout) ∨ s.running = some proposeCb
  res : s.resending = true → Has s.timer resendCb (s.timer.now + cfg.timeout) ∨ s.running = some resendCb
  wait : s.waiting = true → s.resending = true
  run : ∀ cb, s.running = some cb → cb = checkCb ∨ cb = proposeCb ∨ cb = resendCb
  disc : s.disc.isSome = true → Pend cfg s (s.timer.now + cfg.bound)

theorem Pend.mono {s : State} {T T' : Int} (h : Pend cfg s T) (hT : T ≤ T') : Pend cfg s T' := by
  rcases h with h | ⟨a, h⟩ | ⟨a, h⟩ | ⟨a, b, h⟩
  · exact .inl (h.mono hT)
  · exact .inr (.inl ⟨a, h.mono hT⟩)
  · exact .inr (.inr (.inl ⟨a, by omega⟩))
  · exact .inr (.inr (.inr ⟨a, b, by omega⟩))

theorem tol_le : cfg.tolerate ≤ cfg.bound := Nat.le_max_left ..
theorem ini_le : cfg.initial ≤ cfg.bound := Nat.le_trans (Nat.le_max_left ..) (Nat.le_max_right ..)
theorem tmo_le : cfg.timeout ≤ cfg.bound := Nat.le_trans (Nat.le_max_right ..) (Nat.le_max_right ..)

theorem cb_ne : checkCb ≠ proposeCb ∧ checkCb ≠ resendCb ∧ proposeCb ≠ resendCb ∧ proposeCb ≠ checkCb ∧ resendCb ≠ checkCb ∧
    resendCb ≠ proposeCb := by decide

theorem inv_init : Inv cfg (init cfg) where
  sorted := by unfold init; exact sorted_schedule (by unfold Sorted; exact List.Pairwise.nil) _ _
  prop := by intro h; cases h
  res := by intro h; cases h
  wait := by intro h; cases h
  run := by intro cb h; cases h
  disc := by
    intro _
    refine .inl ?_
    unfold init
    rw [has_schedule]
    exact .inl ⟨rfl, by have := ini_le cfg; simp; omega⟩

theorem Inv.scheduleCheck {s : State} (h : Inv cfg s) : Inv cfg (s.scheduleCheck cfg) where
  sorted := sorted_schedule h.sorted _ _
  prop hp := (h.prop hp).imp (fun x => has_schedule.mpr (.inr x)) id
  res hp := (h.res hp).imp (fun x => has_schedule.mpr (.inr x)) id
  wait := h.wait
  run := h.run
  disc _ := .inl (has_schedule.mpr (.inl ⟨rfl, by have := tol_le cfg; simp [State.scheduleCheck]; omega⟩))

theorem Inv.primaryDisconnected {s : State} (h : Inv cfg s) : Inv cfg (s.primaryDisconnected cfg) where
  sorted := sorted_schedule h.sorted _ _
  prop hp := (h.prop hp).imp (fun x => has_schedule.mpr (.inr x)) id
  res hp := (h.res hp).imp (fun x => has_schedule.mpr (.inr x)) id
  wait := h.wait
  run := h.run
  disc _ := .inl (has_schedule.mpr (.inl ⟨rfl, by
    have := tol_le cfg; simp [State.scheduleCheck, State.primaryDisconnected]; omega⟩))

theorem primaryConnected_eq (s : State) : ∃ t, s.primaryConnected = { s with disc := none, proposing := false, timer := t } ∧
    t.now = s.timer.now ∧ (Sorted s.timer → Sorted t) ∧ (∀ T, Has s.timer resendCb T → Has t resendCb T) ∧
    (∀ T, ¬ Has t checkCb T) ∧ (∀ cb T, Has t cb T → Has s.timer cb T) := by
  unfold State.primaryConnected State.stopProposing
  dsimp only
  have hnc : ∀ T, ¬ Has (s.timer.cancel checkCb) checkCb T := fun T h => (has_cancel.mp h).1 rfl
  split
  · exact ⟨_, rfl, rfl, fun h => sorted_cancel (sorted_cancel h _) _,
      fun T h => has_cancel.mpr ⟨by decide, has_cancel.mpr ⟨by decide, h⟩⟩,
      fun T h => hnc T (has_cancel.mp h).2, fun cb T h => (has_cancel.mp (has_cancel.mp h).2).2⟩
  · rename_i hp
    refine ⟨s.timer.cancel checkCb, ?_, rfl, fun h => sorted_cancel h _, fun T h => has_cancel.mpr ⟨by decide, h⟩, hnc,
      fun cb T h => (has_cancel.mp h).2⟩
    simp only [Bool.not_eq_true] at hp
    rw [hp]

theorem Inv.primaryConnected {s : State} (h : Inv cfg s) : Inv cfg s.primaryConnected := by
  obtain ⟨t, e, hn, hs, hr, _, _⟩ := primaryConnected_eq s
  rw [e]
  exact { sorted := hs h.sorted, prop := (fun h => by cases h),
          res := fun hp => (h.res hp).imp (fun x => by rw [hn]; exact hr _ x) id, wait := h.wait, run := h.run
          disc := (fun h => by cases h) }

theorem Inv.primarySelected {s : State} (h : Inv cfg s) : Inv cfg (s.primarySelected cfg) := by
  unfold State.primarySelected
  split
  · exact h.primaryConnected
  · exact h.primaryDisconnected

/-- Only the timers, the votes and what runs matter. -/
theorem Inv.of_eq {s t : State} (h : Inv cfg s) (h1 : t.timer = s.timer) (h2 : t.proposing = s.proposing)
    (h3 : t.resending = s.resending) (h4 : t.waiting = true → s.waiting = true) (h5 : t.running = s.running)
    (h6 : t.disc = s.disc) : Inv cfg t where
  sorted := by rw [h1]; exact h.sorted
  prop := by rw [h1, h2, h5]; exact h.prop
  res := by rw [h1, h3, h5]; exact h.res
  wait hw := by rw [h3]; exact h.wait (h4 hw)
  run := by rw [h5]; exact h.run
  disc := by unfold Pend; rw [h1, h2, h5, h6]; exact h.disc

theorem Inv.conns {s : State} (h : Inv cfg s) (l : List Node) : Inv cfg (s.updateConnecteds cfg l) := by
  unfold State.updateConnecteds
  dsimp only
  have h0 : Inv cfg { s with connected := l } := h.of_eq cfg rfl rfl rfl id rfl rfl
  have h1 : ∀ (js : List Node) (u : State), Inv cfg u → Inv cfg (js.foldl State.processConnected u) := by
    intro js
    induction js with
    | nil => intro u hu; exact hu
    | cons j js ih =>
      intro u hu
      rw [List.foldl_cons]
      refine ih _ ?_
      unfold State.processConnected
      split
      · exact hu.primaryConnected
      · exact hu
  have h2 : ∀ (js : List Node) (u : State), Inv cfg u → Inv cfg (js.foldl (State.processDisconnected cfg) u) := by
    intro js
    induction js with
    | nil => intro u hu; exact hu
    | cons j js ih =>
      intro u hu
      rw [List.foldl_cons]
      refine ih _ ?_
      unfold State.processDisconnected
      split
      · exact hu.primaryDisconnected
      · exact hu
  exact h2 _ _ (h1 _ _ h0)

theorem Inv.stopResending {s : State} (h : Inv cfg s) (hw : s.waiting = false) : Inv cfg s.stopResending := by
  unfold State.stopResending
  split
  · refine { sorted := sorted_cancel h.sorted _, prop := fun hp => (h.prop hp).imp (fun x => has_cancel.mpr ⟨by decide, x⟩) id,
             res := (fun h => by cases h), wait := fun hw' => ?_, run := h.run, disc := fun hd => ?_ }
    · rw [show s.waiting = true from hw'] at hw; cases hw
    · rcases h.disc hd with h | ⟨a, h⟩ | ⟨a, h⟩ | ⟨a, b, h⟩
      · exact .inl (has_cancel.mpr ⟨by decide, h⟩)
      · exact .inr (.inl ⟨a, has_cancel.mpr ⟨by decide, h⟩⟩)
      · exact .inr (.inr (.inl ⟨a, h⟩))
      · exact .inr (.inr (.inr ⟨a, b, h⟩))
  · exact h

/-- The timer of view changes started anew. -/
theorem restart_eq (s : State) : ∃ t, (s.stopResending.startResending cfg) = { s with resending := true, timer := t } ∧
    t.now = s.timer.now ∧ (Sorted s.timer → Sorted t) ∧ Has t resendCb (s.timer.now + cfg.timeout) ∧
    (∀ cb T, cb ≠ resendCb → (Has t cb T ↔ Has s.timer cb T)) := by
  unfold State.stopResending
  split
  · unfold State.startResending
    rw [if_neg (by simp)]
    refine ⟨_, rfl, rfl, fun h => sorted_schedule (sorted_cancel h _) _ _, has_schedule.mpr (.inl ⟨rfl, by simp⟩), ?_⟩
    intro cb T hc
    rw [has_schedule, has_cancel]
    constructor
    · rintro (⟨h, _⟩ | ⟨_, h⟩)
      · exact absurd h.symm hc
      · exact h
    · exact fun h => .inr ⟨fun x => hc x.symm, h⟩
  · rename_i hr
    unfold State.startResending
    rw [if_neg hr]
    refine ⟨_, rfl, rfl, fun h => sorted_schedule h _ _, has_schedule.mpr (.inl ⟨rfl, by simp⟩), ?_⟩
    intro cb T hc
    rw [has_schedule]
    constructor
    · rintro (⟨h, _⟩ | h)
      · exact absurd h.symm hc
      · exact h
    · exact fun h => .inr h

theorem Inv.needViewChange {s : State} (h : Inv cfg s) (p : Node) : Inv cfg (s.needViewChange cfg p) := by
  unfold State.needViewChange
  dsimp only
  have key : ∀ u : State, u.timer = s.timer → u.proposing = s.proposing → u.running = s.running → u.disc = s.disc →
      Inv cfg (u.stopResending.startResending cfg) := by
    intro u h1 h2 h3 h4
    obtain ⟨t, e, hn, hs, hr, ho⟩ := restart_eq cfg u
    rw [e]
    refine { sorted := hs (by rw [h1]; exact h.sorted), prop := fun hp => ?_, res := fun _ => .inl (by rw [show ({ u with resending := true, timer := t } : State).timer = t from rfl, hn]; exact hr),
             wait := fun _ => rfl, run := by intro cb; show u.running = some cb → _; rw [h3]; exact h.run cb, disc := fun hd => ?_ }
    · rcases h.prop (h2 ▸ hp) with x | x
      · exact .inl ((ho _ _ (by decide)).mpr (by rw [h1, show ({ u with resending := true, timer := t } : State).timer.now = u.timer.now from hn, h1]; exact x))
      · exact .inr (by rw [← x]; exact h3)
    · have hn' : ({ u with resending := true, timer := t } : State).timer.now = s.timer.now := by show t.now = _; rw [hn, h1]
      rw [hn']
      rcases h.disc (h4 ▸ hd) with x | ⟨a, x⟩ | ⟨a, x⟩ | ⟨a, b, x⟩
      · exact .inl ((ho _ _ (by decide)).mpr (by rw [h1]; exact x))
      · exact .inr (.inl ⟨by rw [← a]; exact h2, (ho _ _ (by decide)).mpr (by rw [h1]; exact x)⟩)
      · exact .inr (.inr (.inl ⟨by rw [← a]; exact h3, by rw [hn']; exact x⟩))
      · exact .inr (.inr (.inr ⟨by rw [← a]; exact h3, by rw [← b]; exact h2, by rw [hn']; exact x⟩))
  split
  · exact key _ rfl rfl rfl rfl
  · exact key _ rfl rfl rfl rfl

theorem Inv.newView {s : State} (h : Inv cfg s) (p : Option Node) : Inv cfg (s.newView cfg p) := by
  unfold State.newView
  refine Inv.primarySelected cfg (Inv.stopResending cfg ?_ rfl)
  exact h.of_eq cfg rfl rfl rfl (fun h => by cases h) rfl rfl

theorem Inv.caughtUp {s : State} (h : Inv cfg s) (p : Node) : Inv cfg (s.caughtUp cfg p) := by
  unfold State.caughtUp
  refine Inv.primarySelected cfg ?_
  exact h.of_eq cfg rfl rfl rfl id rfl rfl

theorem Inv.hungry {s : State} (h : Inv cfg s) : Inv cfg (s.hungry cfg) := by
  unfold State.hungry
  have h0 : Inv cfg { s with ready := true } := h.of_eq cfg rfl rfl rfl id rfl rfl
  dsimp only
  split
  · exact h0.scheduleCheck
  · exact h0

theorem Inv.callbackEnd {s : State} (h : Inv cfg s) : Inv cfg (s.callbackEnd cfg) := by
  unfold State.callbackEnd
  split
  · exact h
  · rename_i cb hr
    dsimp only
    split
    · rename_i hc
      subst hc
      unfold State.startProposing
      dsimp only
      split
      · rename_i hp
        have hprop := (h.prop hp).resolve_right (by rw [hr]; decide)
        refine { sorted := h.sorted, prop := fun _ => .inl hprop, res := fun hr' => .inl ((h.res hr').resolve_right (by rw [hr]; decide)),
                 wait := h.wait, run := (fun cb h => by cases h), disc := fun _ => .inr (.inl ⟨hp, hprop.mono (by have := tmo_le cfg; dsimp only; omega)⟩) }
      · refine { sorted := sorted_schedule h.sorted _ _, prop := fun _ => .inl (has_schedule.mpr (.inl ⟨rfl, by simp⟩)),
                 res := fun hr' => .inl (has_schedule.mpr (.inr ((h.res hr').resolve_right (by rw [hr]; decide)))),
                 wait := h.wait, run := (fun cb h => by cases h),
                 disc := fun _ => .inr (.inl ⟨rfl, has_schedule.mpr (.inl ⟨rfl, by have := tmo_le cfg; simp; omega⟩)⟩) }
    · rename_i hc
      have hcb := (h.run cb hr).resolve_left hc
      refine { sorted := sorted_schedule h.sorted _ _, prop := fun hp => .inl ?_, res := fun hp => .inl ?_,
               wait := h.wait, run := (fun cb h => by cases h), disc := fun hd => ?_ }
      · rcases h.prop hp with x | x
        · exact has_schedule.mpr (.inr x)
        · rw [hr] at x; cases x
          exact has_schedule.mpr (.inl ⟨rfl, by simp⟩)
      · rcases h.res hp with x | x
        · exact has_schedule.mpr (.inr x)
        · rw [hr] at x; cases x
          exact has_schedule.mpr (.inl ⟨rfl, by simp⟩)
      · rcases h.disc hd with x | ⟨a, x⟩ | ⟨a, x⟩ | ⟨a, b, x⟩
        · exact .inl (has_schedule.mpr (.inr x))
        · exact .inr (.inl ⟨a, has_schedule.mpr (.inr x)⟩)
        · rw [hr] at a; cases a; exact absurd rfl hc
        · rw [hr] at a; cases a
          exact .inr (.inl ⟨b, has_schedule.mpr (.inl ⟨rfl, x⟩)⟩)

/-- An event for another callback was taken from the queue. -/
theorem Inv.popped {s : State} (h : Inv cfg s) (hr : s.running = none) {e : Timer.Ev} (hd : s.timer.due = some e)
    (h1 : e.callback ≠ checkCb ∨ s.disc.isNone = true) (h2 : e.callback = proposeCb → s.proposing = false)
    (h3 : e.callback = resendCb → s.resending = false) : Inv cfg { s with timer := s.timer.turn } := by
  have hn := turn_now s.timer
  refine { sorted := sorted_turn h.sorted, prop := fun hp => .inl ?_, res := fun hp => .inl ?_, wait := h.wait, run := h.run,
           disc := fun hdi => ?_ }
  · show Has s.timer.turn _ (s.timer.turn.now + _)
    rw [hn]
    refine has_turn hd ?_ ((h.prop hp).resolve_right (by rw [hr]; simp))
    intro hc; have := h2 hc; rw [show s.proposing = true from hp] at this; cases this
  · show Has s.timer.turn _ (s.timer.turn.now + _)
    rw [hn]
    refine has_turn hd ?_ ((h.res hp).resolve_right (by rw [hr]; simp))
    intro hc; have := h3 hc; rw [show s.resending = true from hp] at this; cases this
  · show Pend cfg _ (s.timer.turn.now + _)
    rw [hn]
    rcases h.disc hdi with x | ⟨a, x⟩ | ⟨a, x⟩ | ⟨a, b, x⟩
    · refine .inl (has_turn hd ?_ x)
      rcases h1 with h1 | h1
      · exact h1
      · have hd' : s.disc.isSome = true := hdi
        rw [← Option.not_isSome, hd'] at h1; cases h1
    · refine .inr (.inl ⟨a, has_turn hd ?_ x⟩)
      intro hc; have := h2 hc; rw [a] at this; cases this
    · rw [hr] at a; cases a
    · rw [hr] at a; cases a

theorem Inv.turn {s : State} (h : Inv cfg s) (hr : s.running = none) : Inv cfg (s.turn cfg) := by
  unfold State.turn
  cases hd : s.timer.due with
  | none => exact h
  | some e =>
    dsimp only
    have hn := turn_now s.timer
    have hP : s.proposing = true → e.callback ≠ proposeCb → Has s.timer.turn proposeCb (s.timer.now + cfg.timeout) :=
      fun hp hc => has_turn hd hc ((h.prop hp).resolve_right (by rw [hr]; simp))
    have hR : s.resending = true → e.callback ≠ resendCb → Has s.timer.turn resendCb (s.timer.now + cfg.timeout) :=
      fun hp hc => has_turn hd hc ((h.res hp).resolve_right (by rw [hr]; simp))
    split
    · rename_i hc
      have hcp : e.callback ≠ proposeCb := by rw [hc]; decide
      have hcr : e.callback ≠ resendCb := by rw [hc]; decide
      unfold State.check
      dsimp only
      split
      · rename_i hdn
        exact h.popped cfg hr hd (.inr hdn) (fun x => absurd x hcp) (fun x => absurd x hcr)
      · split
        · refine { sorted := sorted_schedule (sorted_turn h.sorted) _ _, prop := fun hp => .inl ?_, res := fun hp => .inl ?_,
                   wait := h.wait, run := h.run, disc := fun _ => .inl ?_ }
          · exact has_schedule.mpr (.inr (by show Has s.timer.turn _ (s.timer.turn.now + _); rw [hn]; exact hP hp hcp))
          · exact has_schedule.mpr (.inr (by show Has s.timer.turn _ (s.timer.turn.now + _); rw [hn]; exact hR hp hcr))
          · exact has_schedule.mpr (.inl ⟨rfl, by have := tol_le cfg; simp [State.scheduleCheck]; omega⟩)
        · refine { sorted := sorted_turn h.sorted, prop := fun hp => .inl ?_, res := fun hp => .inl ?_, wait := h.wait,
                   run := fun cb hcb => by cases hcb; exact .inl rfl, disc := fun _ => .inr (.inr (.inl ⟨rfl, by have := tmo_le cfg; dsimp only [State.vote]; omega⟩)) }
          · show Has s.timer.turn _ (s.timer.turn.now + _); rw [hn]; exact hP hp hcp
          · show Has s.timer.turn _ (s.timer.turn.now + _); rw [hn]; exact hR hp hcr
    · rename_i hc
      split
      · rename_i hc2
        have hcr : e.callback ≠ resendCb := by rw [hc2]; decide
        split
        · rename_i hp
          unfold State.propose
          have key : ∀ u : State, u.timer = s.timer.turn → u.proposing = true → u.resending = s.resending →
              u.waiting = s.waiting → Inv cfg { u with running := some proposeCb } := by
            intro u h1 h2 h3 h4
            refine { sorted := by show Sorted u.timer; rw [h1]; exact sorted_turn h.sorted, prop := fun _ => .inr rfl,
                     res := fun hp => .inl ?_, wait := fun hw => ?_,
                     run := fun cb hcb => by cases hcb; exact .inr (.inl rfl), disc := fun _ => .inr (.inr (.inr ⟨rfl, h2, ?_⟩)) }
            · show Has u.timer _ (u.timer.now + _); rw [h1, hn]; exact hR (h3 ▸ hp) hcr
            · show u.resending = true; rw [h3]; exact h.wait (h4 ▸ hw)
            · have := tmo_le cfg; dsimp only; omega
          split
          · exact key _ rfl hp rfl rfl
          · exact key _ rfl hp rfl rfl
        · rename_i hp
          exact h.popped cfg hr hd (.inl hc) (fun _ => by simpa using hp) (fun x => absurd x hcr)
      · rename_i hc2
        split
        · rename_i hc3
          split
          · rename_i hres
            refine { sorted := sorted_turn h.sorted, prop := fun hp => .inl ?_, res := fun hp => .inr rfl, wait := fun _ => hres,
                     run := fun cb hcb => by cases hcb; exact .inr (.inr rfl), disc := fun hdi => ?_ }
            · show Has s.timer.turn _ (s.timer.turn.now + _); rw [hn]; exact hP hp hc2
            · show Pend cfg _ (s.timer.turn.now + _)
              rw [hn]
              rcases h.disc hdi with x | ⟨a, x⟩ | ⟨a, x⟩ | ⟨a, b, x⟩
              · exact .inl (has_turn hd hc x)
              · exact .inr (.inl ⟨a, has_turn hd hc2 x⟩)
              · rw [hr] at a; cases a
              · rw [hr] at a; cases a
          · rename_i hres
            exact h.popped cfg hr hd (.inl hc) (fun x => absurd x hc2) (fun _ => by simpa using hres)
        · rename_i hc3
          exact h.popped cfg hr hd (.inl hc) (fun x => absurd x hc2) (fun x => absurd x hc3)

theorem Inv.step {s : State} (h : Inv cfg s) (e : Ev) : Inv cfg (s.step cfg e) := by
  cases e with
  | tick d =>
    show Inv cfg (if s.running.isSome then s else { s with timer := { s.timer with now := s.timer.now + d } })
    split
    · exact h
    · rename_i hr
      have hr' : s.running = none := by simpa using hr
      refine { sorted := h.sorted, prop := fun hp => (h.prop hp).imp (fun x => has_tick.mpr (x.mono (by dsimp only; omega))) id,
               res := fun hp => (h.res hp).imp (fun x => has_tick.mpr (x.mono (by dsimp only; omega))) id, wait := h.wait, run := h.run,
               disc := fun hd => ?_ }
      rcases h.disc hd with x | ⟨a, x⟩ | ⟨a, x⟩ | ⟨a, b, x⟩
      · exact .inl (has_tick.mpr (x.mono (by dsimp only; omega)))
      · exact .inr (.inl ⟨a, has_tick.mpr (x.mono (by dsimp only; omega))⟩)
      · rw [hr'] at a; cases a
      · rw [hr'] at a; cases a
  | turn =>
    show Inv cfg (if s.running.isSome then s else s.turn cfg)
    split
    · exact h
    · rename_i hr; exact h.turn cfg (by simpa using hr)
  | callbackEnd => exact h.callbackEnd
  | conns l => exact h.conns cfg l
  | needViewChange p => exact h.needViewChange cfg p
  | newView p => exact h.newView cfg p
  | caughtUp p => exact h.caughtUp cfg p
  | hungry => exact h.hungry
  | setReady b => exact h.of_eq cfg rfl rfl rfl id rfl rfl
  | setSynced b => exact h.of_eq cfg rfl rfl rfl id rfl rfl
  | setValidators l => exact h.of_eq cfg rfl rfl rfl id rfl rfl
  | schedule d cb =>
    show Inv cfg (if cb ≤ 2 then s else { s with timer := s.timer.schedule d cb })
    split
    · exact h
    · refine { sorted := sorted_schedule h.sorted _ _, prop := fun hp => (h.prop hp).imp (fun x => has_schedule.mpr (.inr x)) id,
               res := fun hp => (h.res hp).imp (fun x => has_schedule.mpr (.inr x)) id, wait := h.wait, run := h.run,
               disc := fun hd => ?_ }
      rcases h.disc hd with x | ⟨a, x⟩ | x | x
      · exact .inl (has_schedule.mpr (.inr x))
      · exact .inr (.inl ⟨a, has_schedule.mpr (.inr x)⟩)
      · exact .inr (.inr (.inl x))
      · exact .inr (.inr (.inr x))
  | cancel cb =>
    show Inv cfg (if cb ≤ 2 then s else { s with timer := s.timer.cancel cb })
    split
    · exact h
    · rename_i hc
      have h0 : cb ≠ proposeCb := fun e => hc (by rw [e]; decide)
      have h1 : cb ≠ checkCb := fun e => hc (by rw [e]; decide)
      have h2 : cb ≠ resendCb := fun e => hc (by rw [e]; decide)
      refine { sorted := sorted_cancel h.sorted _, prop := fun hp => (h.prop hp).imp (fun x => has_cancel.mpr ⟨h0, x⟩) id,
               res := fun hp => (h.res hp).imp (fun x => has_cancel.mpr ⟨h2, x⟩) id, wait := h.wait, run := h.run,
               disc := fun hd => ?_ }
      rcases h.disc hd with x | ⟨a, x⟩ | x | x
      · exact .inl (has_cancel.mpr ⟨h1, x⟩)
      · exact .inr (.inl ⟨a, has_cancel.mpr ⟨h0, x⟩⟩)
      · exact .inr (.inr (.inl x))
      · exact .inr (.inr (.inr x))

theorem Inv.runs {s : State} (h : Inv cfg s) (es : List Ev) : Inv cfg (s.run cfg es) := by
  induction es generalizing s with
  | nil => exact h
  | cons e es ih => exact ih (h.step cfg e)

theorem inv_run (es : List Ev) : Inv cfg (run cfg es) := (inv_init cfg).runs cfg es

end Verif.Watch
