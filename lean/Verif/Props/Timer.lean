import Verif.Model.Timer
/-!
# C38: timers fire in time order, not early, at most once; repeating timers keep their period
-/
namespace Verif.Props
open Verif.Timer

theorem mem_insertEv {e x : Ev} {l : List Ev} : x ∈ insertEv e l ↔ x = e ∨ x ∈ l := by
  induction l with
  | nil => simp [insertEv]
  | cons y l ih =>
    unfold insertEv
    split
    · simp only [List.mem_cons, ih]
      constructor
      · rintro (h | h | h) <;> simp [h]
      · rintro (h | h | h) <;> simp [h]
    · simp

theorem insertEv_perm (e : Ev) (l : List Ev) : (insertEv e l).Perm (e :: l) := by
  induction l with
  | nil => exact List.Perm.refl _
  | cons y l ih =>
    unfold insertEv
    split
    · exact (ih.cons y).trans (List.Perm.swap e y l)
    · exact List.Perm.refl _

/-- Order of execution: by due time, and by scheduling among equal times. -/
def Before (a b : Ev) : Prop := a.timestamp < b.timestamp ∨ (a.timestamp = b.timestamp ∧ a.id < b.id)

structure TInv (s : State) : Prop where
  sorted : s.events.Pairwise Before
  ids : ∀ x ∈ s.scheduled, x.1.id < s.nextId
  distinct : (s.scheduled.map (fun x => x.1.id)).Nodup
  account : (s.scheduled.map Prod.fst).Perm (s.fired.map Prod.fst ++ s.cancelled ++ s.events)
  due : ∀ x ∈ s.scheduled, x.1.timestamp = x.2.1 + x.2.2 ∧ x.2.1 ≤ s.now
  early : ∀ x ∈ s.fired, x.1.timestamp ≤ x.2 ∧ x.2 ≤ s.now

theorem sorted_insertEv {e : Ev} {l : List Ev} (h : l.Pairwise Before) (hid : ∀ x ∈ l, x.id < e.id) :
    (insertEv e l).Pairwise Before := by
  induction l with
  | nil => simp [insertEv]
  | cons y l ih =>
    have hq := List.pairwise_cons.1 h
    have ih := ih hq.2 (fun x hx => hid x (List.mem_cons_of_mem _ hx))
    have hy := hid y List.mem_cons_self
    unfold insertEv
    split
    · next hle =>
      refine List.pairwise_cons.2 ⟨fun x hx => ?_, ih⟩
      rcases mem_insertEv.1 hx with hx | hx
      · subst hx; unfold Before; omega
      · exact hq.1 x hx
    · next hle =>
      refine List.pairwise_cons.2 ⟨fun x hx => ?_, h⟩
      rcases List.mem_cons.1 hx with hx | hx
      · subst hx; unfold Before; omega
      · have := hq.1 x hx; unfold Before at this ⊢; omega

theorem TInv.mem_scheduled {s : State} (h : TInv s) {e : Ev} (he : e ∈ s.events) :
    e ∈ s.scheduled.map Prod.fst := h.account.mem_iff.2 (List.mem_append_right _ he)

theorem TInv.schedule {s : State} (h : TInv s) (delay : Int) (cb : Callback) : TInv (s.schedule delay cb) := by
  have hid : ∀ x ∈ s.events, x.id < s.nextId := by
    intro x hx
    obtain ⟨y, hy, e⟩ := List.mem_map.1 (h.mem_scheduled hx)
    rw [← e]; exact h.ids y hy
  refine ⟨sorted_insertEv h.sorted hid, ?_, ?_, ?_, ?_, h.early⟩
  · intro x hx
    simp only [State.schedule] at hx ⊢
    rcases List.mem_append.1 hx with hx | hx
    · have := h.ids x hx; omega
    · simp at hx; subst hx; simp
  · simp only [State.schedule, List.map_append, List.map_cons, List.map_nil]
    refine List.nodup_append.2 ⟨h.distinct, by simp, ?_⟩
    intro a ha b hb e
    obtain ⟨y, hy, e2⟩ := List.mem_map.1 ha
    have := h.ids y hy
    simp at hb
    omega
  · simp only [State.schedule, List.map_append, List.map_cons, List.map_nil]
    refine (h.account.append_right _).trans ?_
    rw [List.append_assoc]
    exact List.Perm.append_left _ ((List.perm_append_singleton _ _).trans (insertEv_perm _ _).symm)
  · intro x hx
    simp only [State.schedule] at hx ⊢
    rcases List.mem_append.1 hx with hx | hx
    · exact h.due x hx
    · simp at hx; subst hx; simp

theorem TInv.cancel {s : State} (h : TInv s) (cb : Callback) : TInv (s.cancel cb) := by
  refine ⟨h.sorted.sublist List.filter_sublist, h.ids, h.distinct, ?_, h.due, h.early⟩
  refine h.account.trans ?_
  simp only [State.cancel, List.append_assoc]
  refine List.Perm.append_left _ (List.Perm.append_left _ ?_)
  have := List.filter_append_perm (fun e : Ev => decide (e.callback = cb)) s.events
  refine this.symm.trans (List.Perm.append_left _ ?_)
  have : (fun e : Ev => !decide (e.callback = cb)) = (fun e : Ev => decide (e.callback ≠ cb)) := by
    funext e; simp
  rw [this]

theorem due_some {s : State} {e : Ev} (h : s.due = some e) :
    s.events = e :: s.events.tail ∧ e.timestamp ≤ s.now := by
  unfold State.due at h
  split at h
  · exact absurd h (by simp)
  · next x l hx =>
    split at h
    · next hle => cases h; rw [hx]; exact ⟨rfl, hle⟩
    · exact absurd h (by simp)

theorem TInv.turn {s : State} (h : TInv s) : TInv s.turn := by
  unfold State.turn
  split
  · exact h
  · next e he =>
    obtain ⟨h1, h2⟩ := due_some he
    refine ⟨?_, h.ids, h.distinct, ?_, h.due, ?_⟩
    · have := h.sorted
      rw [h1] at this
      exact (List.pairwise_cons.1 this).2
    · have := h.account
      rw [h1] at this
      refine this.trans ?_
      simp only [List.map_append, List.map_cons, List.map_nil, List.append_assoc]
      refine List.Perm.append_left _ ?_
      exact List.perm_middle
    · intro x hx
      rcases List.mem_append.1 hx with hx | hx
      · exact h.early x hx
      · simp at hx; subst hx; exact ⟨h2, Int.le_refl _⟩

theorem TInv.tick {s : State} (h : TInv s) (d : Nat) : TInv { s with now := s.now + d } :=
  ⟨h.sorted, h.ids, h.distinct, h.account,
    fun x hx => ⟨(h.due x hx).1, by have := (h.due x hx).2; show x.2.1 ≤ s.now + d; omega⟩,
    fun x hx => ⟨(h.early x hx).1, by have := (h.early x hx).2; show x.2 ≤ s.now + d; omega⟩⟩

theorem TInv.step {s : State} (h : TInv s) (e : Event) : TInv (s.step e) := by
  cases e with
  | tick d => exact h.tick d
  | schedule delay cb => exact h.schedule delay cb
  | cancel cb => exact h.cancel cb
  | turn => exact h.turn

theorem timer_induct (P : State → Prop) (h0 : P {}) (hs : ∀ s e, P s → P (s.step e))
    (evs : List Event) : P (Timer.run evs) := by
  have : ∀ (evs : List Event) (s : State), P s → P (evs.foldl State.step s) := by
    intro evs
    induction evs with
    | nil => intro s h; exact h
    | cons e evs ih => intro s h; exact ih _ (hs _ _ h)
  exact this evs {} h0

theorem tinv_init : TInv {} := ⟨.nil, by simp, by simp, by simp, by simp, by simp⟩

theorem tinv_run (evs : List Event) : TInv (Timer.run evs) :=
  timer_induct TInv tinv_init (fun _ e h => h.step e) evs

/-- C38. A callback runs only when it was scheduled, and not before its delay has
passed. -/
theorem C38_not_early (evs : List Event) (e : Ev) (t : Int) (h : (e, t) ∈ (Timer.run evs).fired) :
    ∃ t0 delay, (e, t0, delay) ∈ (Timer.run evs).scheduled ∧ t0 + delay ≤ t := by
  have hi := tinv_run evs
  have h1 : e ∈ (Timer.run evs).scheduled.map Prod.fst := by
    apply hi.account.mem_iff.2
    rw [List.append_assoc]
    exact List.mem_append_left _ (List.mem_map.2 ⟨_, h, rfl⟩)
  obtain ⟨⟨x, t0, d⟩, hx, rfl⟩ := List.mem_map.1 h1
  refine ⟨t0, d, hx, ?_⟩
  have := (hi.due _ hx).1
  have := (hi.early _ h).1
  simp only at *
  omega

/-- C38. Each scheduled event is, at any time, in exactly one of: run, cancelled,
waiting; so it runs at most once, and never if it was cancelled. -/
theorem C38_at_most_once (evs : List Event) :
    ((Timer.run evs).scheduled.map Prod.fst).Perm
      ((Timer.run evs).fired.map Prod.fst ++ (Timer.run evs).cancelled ++ (Timer.run evs).events) ∧
    ((Timer.run evs).fired.map Prod.fst ++ (Timer.run evs).cancelled ++ (Timer.run evs).events).Nodup := by
  have hi := tinv_run evs
  refine ⟨hi.account, hi.account.nodup_iff.1 ?_⟩
  have := hi.distinct
  rw [show (fun x : Ev × Int × Int => x.1.id) = Ev.id ∘ Prod.fst from rfl, ← List.map_map] at this
  exact (List.pairwise_map.1 this).imp (fun h e => h (congrArg _ e))

/-- C38. Cancelling a callback takes away every waiting event with it, and no
other. -/
theorem C38_cancel (evs : List Event) (cb : Callback) (e : Ev) :
    e ∈ (Timer.run (evs ++ [.cancel cb])).events ↔ e ∈ (Timer.run evs).events ∧ e.callback ≠ cb := by
  simp [Timer.run, List.foldl_append, State.step, State.cancel]

/-- C38. `service` stops only when nothing waiting is due. -/
theorem C38_all_due_run (evs : List Event) (h : (Timer.run evs).due = none) (e : Ev)
    (he : e ∈ (Timer.run evs).events) : (Timer.run evs).now < e.timestamp := by
  have hi := tinv_run evs
  unfold State.due at h
  split at h
  · next hn => rw [hn] at he; simp at he
  · next x l hx =>
    split at h
    · exact absurd h (by simp)
    · next hlt =>
      have hs := hi.sorted
      rw [hx] at he hs
      rcases List.mem_cons.1 he with rfl | he
      · omega
      · have := (List.pairwise_cons.1 hs).1 e he
        unfold Before at this; omega

/-- Everything waiting is due no earlier than what has run. -/
structure OInv (s : State) : Prop where
  inv : TInv s
  fired : (s.fired.map Prod.fst).Pairwise Before
  later : ∀ x ∈ s.fired, ∀ e ∈ s.events, Before x.1 e

/-- Delays are not negative. -/
def Forward : Event → Prop
  | .schedule delay _ => 0 ≤ delay
  | _ => True

theorem OInv.step {s : State} (h : OInv s) (e : Event) (he : Forward e) : OInv (s.step e) := by
  have hi := h.inv.step e
  cases e with
  | tick d => exact ⟨hi, h.fired, h.later⟩
  | schedule delay cb =>
    refine ⟨hi, h.fired, fun x hx e he' => ?_⟩
    rcases mem_insertEv.1 he' with rfl | he'
    · have h1 := h.inv.early x hx
      have h2 : x.1 ∈ s.scheduled.map Prod.fst := by
        apply h.inv.account.mem_iff.2
        rw [List.append_assoc]
        exact List.mem_append_left _ (List.mem_map.2 ⟨_, hx, rfl⟩)
      obtain ⟨y, hy, e⟩ := List.mem_map.1 h2
      have h3 := h.inv.ids y hy
      rw [e] at h3
      simp only [Forward] at he
      unfold Before
      simp only
      omega
    · exact h.later x hx e he'
  | cancel cb =>
    refine ⟨hi, h.fired, fun x hx e he' => h.later x hx e ?_⟩
    simp only [State.step, State.cancel, List.mem_filter] at he'
    exact he'.1
  | turn =>
    simp only [State.step] at hi ⊢
    unfold State.turn at hi ⊢
    split at hi
    · next hd => exact h
    · next e hd =>
      obtain ⟨h1, h2⟩ := due_some hd
      refine ⟨hi, ?_, ?_⟩
      · simp only [List.map_append, List.map_cons, List.map_nil]
        refine List.pairwise_append.2 ⟨h.fired, by simp, ?_⟩
        intro a ha b hb
        simp at hb
        subst hb
        obtain ⟨x, hx, rfl⟩ := List.mem_map.1 ha
        exact h.later x hx b (by rw [h1]; exact List.mem_cons_self)
      · intro x hx e' he'
        have he'' : e' ∈ s.events := by rw [h1]; exact List.mem_cons_of_mem _ he'
        rcases List.mem_append.1 hx with hx | hx
        · exact h.later x hx e' he''
        · simp at hx
          subst hx
          have := h.inv.sorted
          rw [h1] at this
          exact (List.pairwise_cons.1 this).1 e' he'

/-- C38. With delays that are not negative, callbacks run in the order of their due
times, and in the order of scheduling when these are equal, over the whole history. -/
theorem C38_in_order (evs : List Event) (h : ∀ e ∈ evs, Forward e) :
    ((Timer.run evs).fired.map Prod.fst).Pairwise Before := by
  have : ∀ (evs : List Event) (s : State), OInv s → (∀ e ∈ evs, Forward e) → OInv (evs.foldl State.step s) := by
    intro evs
    induction evs with
    | nil => intro s h _; exact h
    | cons e evs ih =>
      intro s h he
      exact ih _ (h.step e (he e List.mem_cons_self)) (fun x hx => he x (List.mem_cons_of_mem _ hx))
  exact (this evs {} ⟨tinv_init, .nil, by simp⟩ h).fired

-- events scheduled out of order, one of them twice at the same time, one cancelled, one by a callback
example : (Timer.run [.schedule 5 1, .schedule 3 2, .schedule 5 3, .schedule 4 9, .turn, .cancel 9, .tick 6, .turn,
    .schedule 0 4, .turn, .turn, .turn, .turn]).fired.map (fun x => (x.1.callback, x.1.timestamp, x.2)) =
    [(2, 3, 6), (1, 5, 6), (3, 5, 6), (4, 6, 6)] := by decide

/-! ## Repeating timers -/

/-- The events of the timer waiting. -/
def pendingOf (r : Rep) : List Ev := r.timer.events.filter (fun e => e.callback = 0)

/-- The timer is stopped only while its callback is not running. -/
def stoppedOutside (interval : Int) (evs : List RepEvent) : Prop :=
  ∀ pre post, evs = pre ++ RepEvent.stop :: post → (Rep.run interval pre).running = false

/-- The state of a repeating timer never stopped by its own callback. -/
structure RInv (r : Rep) : Prop where
  inv : TInv r.timer
  idle : r.active = false → pendingOf r = [] ∧ r.running = false
  busy : r.running = true → pendingOf r = []
  one : (pendingOf r).length ≤ 1
  next : ∀ t ∈ r.called, t ≤ r.timer.now ∧ (∀ e ∈ pendingOf r, t + r.interval ≤ e.timestamp)
  gaps : r.called.Pairwise (fun a b => a + r.interval ≤ b)

theorem filter_insertEv_perm (e : Ev) (l : List Ev) (p : Ev → Bool) :
    ((insertEv e l).filter p).Perm ((e :: l).filter p) := (insertEv_perm e l).filter p

theorem RInv.step {r : Rep} (h : RInv r) (e : RepEvent)
    (hstop : e = .stop → r.running = false) : RInv (r.step e) ∧ (r.step e).interval = r.interval := by
  cases e with
  | tick d =>
    refine ⟨⟨h.inv.tick d, h.idle, h.busy, h.one, ?_, h.gaps⟩, rfl⟩
    intro t ht
    have := h.next t ht
    exact ⟨by show t ≤ r.timer.now + d; omega, this.2⟩
  | schedule delay cb =>
    simp only [Rep.step]
    split
    · exact ⟨h, rfl⟩
    · next hc =>
      have hp : ∀ r', r' = { r with timer := r.timer.schedule delay cb } → (pendingOf r').Perm (pendingOf r) := by
        rintro r' rfl
        refine (filter_insertEv_perm _ _ _).trans ?_
        simp [hc, pendingOf]
      have hp := hp _ rfl
      have hnil : pendingOf r = [] → pendingOf { r with timer := r.timer.schedule delay cb } = [] := by
        intro e; rw [e] at hp; exact hp.eq_nil
      refine ⟨⟨h.inv.schedule delay cb, fun ha => ⟨hnil (h.idle ha).1, (h.idle ha).2⟩,
        fun hr => hnil (h.busy hr), by rw [hp.length_eq]; exact h.one, ?_, h.gaps⟩, rfl⟩
      intro t ht
      exact ⟨(h.next t ht).1, fun e he => (h.next t ht).2 e (hp.mem_iff.1 he)⟩
  | cancel cb =>
    simp only [Rep.step]
    split
    · exact ⟨h, rfl⟩
    · next hc =>
      have hp : pendingOf { r with timer := r.timer.cancel cb } = pendingOf r := by
        unfold pendingOf State.cancel
        simp only [List.filter_filter]
        apply List.filter_congr
        intro e _
        by_cases h0 : e.callback = 0
        · simp [h0]; exact fun e => hc e.symm
        · simp [h0]
      exact ⟨⟨h.inv.cancel cb, fun ha => ⟨hp ▸ (h.idle ha).1, (h.idle ha).2⟩,
        fun hr => hp ▸ h.busy hr, hp ▸ h.one, fun t ht => ⟨(h.next t ht).1, hp ▸ (h.next t ht).2⟩, h.gaps⟩, rfl⟩
  | start =>
    simp only [Rep.step, Rep.start]
    split
    · exact ⟨h, rfl⟩
    · next ha =>
      have ha : r.active = false := by simpa using ha
      obtain ⟨h1, h2⟩ := h.idle ha
      have hp : (pendingOf { r with active := true, timer := r.timer.schedule r.interval 0 }).Perm
          [⟨r.timer.nextId, r.timer.now + r.interval, 0⟩] := by
        refine (filter_insertEv_perm _ _ _).trans ?_
        unfold pendingOf at h1
        simp only [List.filter_cons, h1]
        exact List.Perm.refl _
      refine ⟨⟨h.inv.schedule _ _, by simp, fun hr => absurd hr (by simp [h2]),
        by rw [hp.length_eq]; simp, ?_, h.gaps⟩, rfl⟩
      intro t ht
      refine ⟨(h.next t ht).1, fun e he => ?_⟩
      have := hp.mem_iff.1 he
      simp at this
      have h3 := (h.next t ht).1
      rw [this]; simp; omega
  | stop =>
    have hr := hstop rfl
    simp only [Rep.step, Rep.stop]
    split
    · exact ⟨h, rfl⟩
    · have hp : pendingOf { r with active := false, timer := r.timer.cancel 0 } = [] := by
        unfold pendingOf State.cancel
        simp [List.filter_filter]
      refine ⟨⟨h.inv.cancel 0, fun _ => ⟨hp, hr⟩, fun _ => hp, by rw [hp]; simp, ?_, h.gaps⟩, rfl⟩
      intro t ht
      exact ⟨(h.next t ht).1, by rw [hp]; simp⟩
  | turn =>
    simp only [Rep.step]
    split
    · exact ⟨h, rfl⟩
    · next hr =>
      have hr : r.running = false := by simpa using hr
      unfold Rep.turn
      split
      · exact ⟨h, rfl⟩
      · next e hd =>
        obtain ⟨h1, h2⟩ := due_some hd
        have ht : r.timer.turn = { r.timer with events := r.timer.events.tail, fired := r.timer.fired ++ [(e, r.timer.now)] } := by
          unfold State.turn; rw [hd]
        have hpe : pendingOf r = (if e.callback = 0 then [e] else []) ++ r.timer.events.tail.filter (fun e => e.callback = 0) := by
          unfold pendingOf
          rw [h1]
          simp only [List.filter_cons, List.tail_cons]
          by_cases hc : e.callback = 0 <;> simp [hc]
        split
        · next hc =>
          have hone := h.one
          rw [hpe, if_pos hc.1] at hone
          have htl : r.timer.events.tail.filter (fun e => e.callback = 0) = [] := by
            apply List.eq_nil_of_length_eq_zero
            simp only [List.length_append, List.length_cons, List.length_nil] at hone
            omega
          have hp : pendingOf { r with timer := r.timer.turn, running := true, called := r.called ++ [r.timer.now] } = [] := by
            unfold pendingOf; rw [ht]; exact htl
          refine ⟨⟨h.inv.turn, fun ha => absurd hc.2 (by simp at ha; simp [ha]), fun _ => hp, by rw [hp]; simp, ?_, ?_⟩, rfl⟩
          · intro t ht'
            refine ⟨?_, by rw [hp]; simp⟩
            simp only at ht'
            show t ≤ r.timer.turn.now
            rw [ht]
            rcases List.mem_append.1 ht' with h3 | h3
            · exact (h.next t h3).1
            · simp at h3; subst h3; exact Int.le_refl _
          · refine List.pairwise_append.2 ⟨h.gaps, by simp, ?_⟩
            intro a ha b hb
            simp at hb
            subst hb
            have := (h.next a ha).2 e (by rw [hpe, if_pos hc.1]; simp)
            show a + r.interval ≤ r.timer.now
            omega
        · next hc =>
          have hp : ∀ x, x ∈ pendingOf { r with timer := r.timer.turn } → x ∈ pendingOf r := by
            intro x hx
            rw [hpe]
            unfold pendingOf at hx
            rw [ht] at hx
            exact List.mem_append_right _ hx
          have hlen : (pendingOf { r with timer := r.timer.turn }).length ≤ (pendingOf r).length := by
            rw [hpe]
            unfold pendingOf
            rw [ht]
            simp
          have hnil : pendingOf r = [] → pendingOf { r with timer := r.timer.turn } = [] := by
            intro e; rw [e] at hlen; exact List.eq_nil_of_length_eq_zero (by simpa using hlen)
          refine ⟨⟨h.inv.turn, fun ha => ⟨hnil (h.idle ha).1, (h.idle ha).2⟩, fun hr => hnil (h.busy hr),
            Nat.le_trans hlen h.one, ?_, h.gaps⟩, rfl⟩
          intro t ht'
          refine ⟨?_, fun x hx => (h.next t ht').2 x (hp x hx)⟩
          show t ≤ r.timer.turn.now
          rw [ht]; exact (h.next t ht').1
  | callbackEnd =>
    simp only [Rep.step]
    split
    · next hr =>
      have h1 := h.busy hr
      have hp : (pendingOf r.callbackEnd).Perm [⟨r.timer.nextId, r.timer.now + r.interval, 0⟩] := by
        refine (filter_insertEv_perm _ _ _).trans ?_
        unfold pendingOf at h1
        simp only [List.filter_cons, h1]
        exact List.Perm.refl _
      refine ⟨⟨h.inv.schedule _ _, ?_, by simp [Rep.callbackEnd], by rw [hp.length_eq]; simp, ?_, h.gaps⟩, rfl⟩
      · intro ha
        have := (h.idle ha).2
        rw [hr] at this; simp at this
      · intro t ht
        refine ⟨(h.next t ht).1, fun e he => ?_⟩
        have := hp.mem_iff.1 he
        simp at this
        have h3 := (h.next t ht).1
        rw [this]; simp [Rep.callbackEnd]; omega
    · exact ⟨h, rfl⟩

/-- C38, partial: two calls of a repeating timer are at least its interval apart.
Missing: timers stopped from inside their own callback, for which this is false
(`C38_stopped_inside`), and a change of the interval. -/
theorem C38_period_partial (interval : Int) (evs : List RepEvent)
    (h : stoppedOutside interval evs) :
    (Rep.run interval evs).called.Pairwise (fun a b => a + interval ≤ b) ∧
    (pendingOf (Rep.run interval evs)).length ≤ 1 := by
  have key : ∀ n, RInv (Rep.run interval (evs.take n)) ∧ (Rep.run interval (evs.take n)).interval = interval := by
    intro n
    induction n with
    | zero =>
      refine ⟨⟨tinv_init, ?_, ?_, ?_, ?_, ?_⟩, rfl⟩
      · intro _; exact ⟨rfl, rfl⟩
      · intro _; rfl
      · show ([] : List Ev).length ≤ 1; simp
      · show ∀ t ∈ ([] : List Int), _; simp
      · exact .nil
    | succ n ih =>
      by_cases hn : n < evs.length
      · have e : evs.take (n + 1) = evs.take n ++ [evs[n]] := by rw [List.take_succ_eq_append_getElem hn]
        have er : Rep.run interval (evs.take (n + 1)) = (Rep.run interval (evs.take n)).step evs[n] := by
          rw [e]; unfold Rep.run; rw [List.foldl_append]; rfl
        have := ih.1.step evs[n] (by
          intro hs
          apply h (evs.take n) (evs.drop (n + 1))
          rw [← hs]
          exact (List.take_append_drop n evs).symm.trans (by rw [List.drop_eq_getElem_cons hn]))
        rw [er]
        exact ⟨this.1, this.2.trans ih.2⟩
      · rw [List.take_of_length_le (by omega)] at ih ⊢
        exact ih
  have := key evs.length
  rw [List.take_length] at this
  refine ⟨?_, this.1.one⟩
  have hg := this.1.gaps
  rw [this.2] at hg
  exact hg

-- a timer with interval 10, stopped and started again from outside
example : (Rep.run 10 [.start, .tick 10, .turn, .tick 1, .callbackEnd, .stop, .tick 2, .start, .tick 10, .turn,
    .callbackEnd]).called = [10, 23] := by decide
example : stoppedOutside 10 [.start, .tick 10, .turn, .tick 1, .callbackEnd, .stop, .tick 2, .start] := by
  intro pre post h
  rcases pre with _ | ⟨a, _ | ⟨b, _ | ⟨c, _ | ⟨d, _ | ⟨e, _ | ⟨f, _ | ⟨g, _ | ⟨i, pre⟩⟩⟩⟩⟩⟩⟩⟩ <;>
    simp at h
  obtain ⟨rfl, rfl, rfl, rfl, rfl, rfl⟩ := h
  decide

/-- C38 fails for a timer stopped and started from inside its own callback: two
events wait from then on, and it runs twice per interval. -/
theorem C38_stopped_inside : ∃ evs : List RepEvent,
    (Rep.run 10 evs).called = [10, 20, 21, 30, 31] ∧ (pendingOf (Rep.run 10 evs)).length = 2 :=
  ⟨[.start, .tick 10, .turn, .stop, .start, .tick 1, .callbackEnd, .tick 9, .turn, .callbackEnd, .tick 1, .turn,
    .callbackEnd, .tick 9, .turn, .callbackEnd, .tick 1, .turn, .callbackEnd], by decide, by decide⟩

end Verif.Props
