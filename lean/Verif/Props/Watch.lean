import Verif.Proofs.WatchHistory
import Verif.Proofs.WatchFirst
/-!
# C91: a primary that is gone is voted against, in time and again; one that is connected is not

Statements are about runs of the part of a node that watches its primary (`Verif.Watch`), from its start, on any list of
events. `votes` are the votes for a view change it has sent, with their times: `Why.disconnected`, because the primary is
gone, and `Why.timeout`, because a view change takes too long.

A callback of the timer has a beginning and an end, and other things may happen in between. A state is `idle` when no
callback is running and none is due: the node has done what was due.
-/
namespace Verif.Props

open Verif.Watch

/-- **C91**, the primary is gone. A view change or a catchup ends, and the primary is `p`, a validator and another node;
until the end there is no other view change or catchup. After any events `mid` the node is not connected to `p`, and it is
not until the end of `more`; meanwhile it is ready and has no catchup. If `more` takes as long as the longest of the three
timeouts, and the node has done what was due, then a vote against the primary has been sent during `more`.
As `mid` and `more` are any, there is a vote in each such span of time, again and again. -/
theorem C91_gone (cfg : Cfg) (es : List Ev) (sel : Ev) (p : Node) (mid more : List Ev)
    (hsel : sel = .caughtUp p ∨ ∃ q, sel = .newView q ∧ q.or (run cfg es).primary = some p)
    (hp : p ≠ cfg.me) (hv : p ∈ (run cfg es).validators)
    (hme : cfg.me ∉ (run cfg es).connected ∧ ∀ l, .conns l ∈ mid ++ more → cfg.me ∉ l)
    (hno : ∀ e ∈ mid ++ more, e.changesPrimary = false)
    (hgone : p ∉ (run cfg (es ++ sel :: mid)).connected ∧ ∀ l, .conns l ∈ more → p ∉ l)
    (hok : ∀ a b, more = a ++ b → (run cfg (es ++ sel :: mid ++ a)).ready = true ∧ (run cfg (es ++ sel :: mid ++ a)).synced = true)
    (hidle : (run cfg (es ++ sel :: mid ++ more)).idle = true)
    (htime : (run cfg (es ++ sel :: mid)).timer.now + max cfg.tolerate (max cfg.initial cfg.timeout) ≤
      (run cfg (es ++ sel :: mid ++ more)).timer.now) :
    ∃ l t, (run cfg (es ++ sel :: mid ++ more)).votes = (run cfg (es ++ sel :: mid)).votes ++ l ∧ (t, .disconnected) ∈ l ∧
      (run cfg (es ++ sel :: mid)).timer.now ≤ t ∧ t ≤ (run cfg (es ++ sel :: mid ++ more)).timer.now := by
  have k0 : Knows cfg ((run cfg es).step cfg sel) p := by
    rcases hsel with rfl | ⟨q, rfl, hq⟩
    · exact knows_caughtUp cfg _ p hv hme.1
    · exact knows_newView cfg _ p q hq hv hme.1
  have e0 : ∀ a, run cfg (es ++ sel :: mid ++ a) = (run cfg (es ++ sel :: mid)).run cfg a := fun a => run_append cfg _ _ _
  have e1 : run cfg (es ++ sel :: mid) = ((run cfg es).step cfg sel).run cfg mid := by
    unfold run; rw [run_append, run_cons]
  have k1 : Knows cfg (run cfg (es ++ sel :: mid)) p := by
    rw [e1]
    exact k0.run cfg mid (fun e he => hno e (List.mem_append_left _ he)) (fun l hl => hme.2 l (List.mem_append_left _ hl))
  have k2 : ∀ a b, more = a ++ b → Knows cfg ((run cfg (es ++ sel :: mid)).run cfg a) p ∧
      p ∉ ((run cfg (es ++ sel :: mid)).run cfg a).connected := by
    intro a
    induction a using snoc_induction with
    | nil => intro b _; exact ⟨k1, hgone.1⟩
    | snoc a e ih =>
      intro b hab
      obtain ⟨i1, i2⟩ := ih (e :: b) (by rw [hab]; simp)
      have hem : e ∈ more := by rw [hab]; simp
      have hce := hno e (List.mem_append_right _ hem)
      rw [Watch.run_snoc]
      refine ⟨i1.step cfg e hce (fun l hl => hme.2 l (List.mem_append_right _ (hl ▸ hem))), ?_⟩
      rcases (step_primary cfg ((run cfg (es ++ sel :: mid)).run cfg a) e hce).2 with h | ⟨l, rfl⟩
      · rw [h]; exact i2
      · show p ∉ (State.updateConnecteds cfg _ l).connected
        rw [(conns_frame cfg _ l).2.2.1]
        exact hgone.2 l hem
  have hd : ∀ a b, more = a ++ b → ((run cfg (es ++ sel :: mid)).run cfg a).disc.isSome = true := by
    intro a b hab
    obtain ⟨i1, i2⟩ := k2 a b hab
    have : ((run cfg (es ++ sel :: mid)).run cfg a).disc ≠ none := fun h => (i1.gone.mp h).elim hp i2
    exact Option.isSome_iff_ne_none.mpr this
  rw [e0] at hidle htime ⊢
  have i := inv_run cfg (es ++ sel :: mid)
  obtain ⟨l, x, h1, h2, h3, h4, h5⟩ := voted cfg i (i.disc (hd [] more rfl)) more
    (fun a b hab => ⟨hd a b hab, by rw [← e0]; exact hok a b hab⟩) hidle htime
  exact ⟨l, x.1, h1, by rw [← h3]; exact h2, h4, h5⟩

/-- **C91**, the primary is connected. After a view change or a catchup that ends with a connected primary, or with the node
itself as the primary, and while it stays so, no vote says that it is gone. -/
theorem C91_connected (cfg : Cfg) (es : List Ev) (sel : Ev) (p : Node) (more : List Ev)
    (hsel : sel = .caughtUp p ∨ ∃ q, sel = .newView q ∧ q.or (run cfg es).primary = some p)
    (hv : p ∈ (run cfg es).validators)
    (hme : cfg.me ∉ (run cfg es).connected ∧ ∀ l, .conns l ∈ more → cfg.me ∉ l)
    (hno : ∀ e ∈ more, e.changesPrimary = false)
    (hc : p = cfg.me ∨ (p ∈ (run cfg es).connected ∧ ∀ l, .conns l ∈ more → p ∈ l)) :
    ∃ l, (run cfg (es ++ sel :: more)).votes = (run cfg es).votes ++ l ∧ ∀ x ∈ l, x.2 ≠ .disconnected := by
  have k0 : Knows cfg ((run cfg es).step cfg sel) p := by
    rcases hsel with rfl | ⟨q, rfl, hq⟩
    · exact knows_caughtUp cfg _ p hv hme.1
    · exact knows_newView cfg _ p q hq hv hme.1
  have c0 : ((run cfg es).step cfg sel).connected = (run cfg es).connected ∧ ((run cfg es).step cfg sel).votes = (run cfg es).votes := by
    rcases hsel with rfl | ⟨q, rfl, hq⟩
    · obtain ⟨h1, _, h2, _⟩ := selected_frame cfg { run cfg es with primary := some p }
      exact ⟨h2, h1⟩
    · obtain ⟨h1, _, h2, _⟩ := selected_frame cfg (State.stopResending { run cfg es with waiting := false, primary := q.or (run cfg es).primary })
      obtain ⟨i1, _, i2, _⟩ := stopResending_frame { run cfg es with waiting := false, primary := q.or (run cfg es).primary }
      exact ⟨h2.trans i2, h1.trans i1⟩
  have e1 : run cfg (es ++ sel :: more) = ((run cfg es).step cfg sel).run cfg more := by
    unfold run; rw [run_append, run_cons]
  have k2 : ∀ a b, more = a ++ b → Knows cfg (((run cfg es).step cfg sel).run cfg a) p ∧
      (p = cfg.me ∨ p ∈ (((run cfg es).step cfg sel).run cfg a).connected) := by
    intro a
    induction a using snoc_induction with
    | nil => intro b _; exact ⟨k0, by rw [show (((run cfg es).step cfg sel).run cfg []).connected = _ from c0.1]; exact hc.imp id And.left⟩
    | snoc a e ih =>
      intro b hab
      obtain ⟨i1, i2⟩ := ih (e :: b) (by rw [hab]; simp)
      have hem : e ∈ more := by rw [hab]; simp
      have hce := hno e hem
      rw [Watch.run_snoc]
      refine ⟨i1.step cfg e hce (fun l hl => hme.2 l (hl ▸ hem)), ?_⟩
      rcases (step_primary cfg (((run cfg es).step cfg sel).run cfg a) e hce).2 with h | ⟨l, rfl⟩
      · rw [h]; exact i2
      · refine hc.imp id (fun h => ?_)
        show p ∈ (State.updateConnecteds cfg _ l).connected
        rw [(conns_frame cfg _ l).2.2.1]
        exact h.2 l hem
  rw [e1, ← c0.2]
  refine run_votes_disc cfg _ more (fun a b hab => ?_)
  obtain ⟨i1, i2⟩ := k2 a b hab
  exact i1.gone.mpr i2

/-- **C91**, patience. When a vote says that the primary is gone, the node has held its primary for gone at all moments of the
last `ToleratePrimaryDisconnection` (or, if less, `INITIAL_PROPOSE_VIEW_CHANGE_TIMEOUT`) seconds. Partial: the vote of a
check of the connection is handled before the check ends, and if a view change, a catchup or a new connection happens in
it, this can fail (`C91_early`); and the one held for gone may be the primary of the view before (`C91_leftover`). -/
theorem C91_patient_partial (cfg : Cfg) (es : List Ev) (e : Ev)
    (hq : Along cfg (fun s e => s.running = some checkCb → e.mayConnect = false) (init cfg) es)
    (l : List (Int × Why)) (hl : (run cfg (es ++ [e])).votes = (run cfg es).votes ++ l) (t : Int) (ht : (t, .disconnected) ∈ l) :
    t = (run cfg es).timer.now ∧ After cfg es (t - min cfg.tolerate cfg.initial) (fun s _ => s.disc ≠ none) := by
  obtain ⟨l', hl', h⟩ := step_votes cfg (run cfg es) e
  rw [run_snoc', hl'] at hl
  have ht' := h _ (by rw [List.append_cancel_left hl]; exact ht)
  refine ⟨ht', ?_⟩
  have := not_early cfg es e hq (l := l) (by rw [run_snoc', hl', List.append_cancel_left hl]) _ ht rfl
  rw [← ht'] at this
  intro a b hab hu
  exact Option.isSome_iff_ne_none.mp (this a b hab (by show t - ((min cfg.tolerate cfg.initial : Nat) : Int) < _; omega))

/-- **C91**, a view change that does not end. If it is not over, and no other has begun, in the time of
`NEW_VIEW_TIMEOUT`, and the node has done what was due, then a vote for another view has been sent. Again `mid` and `more`
are any. -/
theorem C91_timeout (cfg : Cfg) (es : List Ev) (p : Node) (mid more : List Ev)
    (hno : ∀ e ∈ mid ++ more, e.viewChange = false)
    (hidle : (run cfg (es ++ .needViewChange p :: mid ++ more)).idle = true)
    (htime : (run cfg (es ++ .needViewChange p :: mid)).timer.now + cfg.timeout ≤
      (run cfg (es ++ .needViewChange p :: mid ++ more)).timer.now) :
    ∃ l t, (run cfg (es ++ .needViewChange p :: mid ++ more)).votes = (run cfg (es ++ .needViewChange p :: mid)).votes ++ l ∧
      (t, .timeout) ∈ l ∧ (run cfg (es ++ .needViewChange p :: mid)).timer.now ≤ t ∧
      t ≤ (run cfg (es ++ .needViewChange p :: mid ++ more)).timer.now := by
  have e0 : run cfg (es ++ .needViewChange p :: mid ++ more) = (run cfg (es ++ .needViewChange p :: mid)).run cfg more :=
    run_append cfg _ _ _
  have hw : ∀ a, (∀ e ∈ a, e.viewChange = false) → (run cfg (es ++ .needViewChange p :: a)).resending = true := by
    intro a
    induction a using snoc_induction with
    | nil =>
      intro _
      rw [run_snoc']
      show ((run cfg es).needViewChange cfg p).resending = true
      unfold State.needViewChange
      dsimp only
      split
      · obtain ⟨t, e, _⟩ := restart_eq cfg (State.vote { run cfg es with waiting := true, primary := some p } .samePrimary)
        rw [e]
      · obtain ⟨t, e, _⟩ := restart_eq cfg { run cfg es with waiting := true, primary := some p }
        rw [e]
    | snoc a e ih =>
      intro ha
      rw [show es ++ .needViewChange p :: (a ++ [e]) = (es ++ .needViewChange p :: a) ++ [e] by simp, run_snoc',
        (step_wait cfg _ e (ha e (by simp))).2.1]
      exact ih (fun x hx => ha x (List.mem_append_left _ hx))
  have i := inv_run cfg (es ++ .needViewChange p :: mid)
  have hr := hw mid (fun e he => hno e (List.mem_append_left _ he))
  rw [e0] at hidle htime ⊢
  obtain ⟨l, x, h1, h2, h3, h4, h5⟩ := voted_late cfg i (T := (run cfg (es ++ .needViewChange p :: mid)).timer.now + cfg.timeout)
    ⟨hr, (i.res hr).imp id (fun h => ⟨h, Int.le_refl _⟩)⟩ more
    (fun q hq => by have := hno _ (List.mem_append_right _ hq); cases this)
    (fun q hq => by have := hno _ (List.mem_append_right _ hq); cases this) hidle htime
  exact ⟨l, x.1, h1, by rw [← h3]; exact h2, h4, h5⟩

/-- **C91**, patience with a view change. When a vote says that a view change takes too long, it has lasted for
`NEW_VIEW_TIMEOUT` seconds: at all moments since, there was a view change, and none began or ended. Partial: not if a view
change ends while the vote of the one before is handled (`C91_timeout_early`). -/
theorem C91_timeout_patient_partial (cfg : Cfg) (es : List Ev) (e : Ev)
    (hq : Along cfg (fun s e => s.running = some resendCb → ∀ p, e ≠ .newView p) (init cfg) es)
    (l : List (Int × Why)) (hl : (run cfg (es ++ [e])).votes = (run cfg es).votes ++ l) (t : Int) (ht : (t, .timeout) ∈ l) :
    t = (run cfg es).timer.now ∧ (run cfg es).waiting = true ∧
      After cfg es (t - cfg.timeout) (fun s later => s.waiting = true ∧ ∀ x ∈ later, x.viewChange = false) := by
  obtain ⟨l', hl', h⟩ := step_votes cfg (run cfg es) e
  rw [run_snoc', hl'] at hl
  have ht' := h _ (by rw [List.append_cancel_left hl]; exact ht)
  obtain ⟨h1, h2⟩ := timeout_not_early cfg es e hq (l := l) (by rw [run_snoc', hl', List.append_cancel_left hl]) _ ht rfl
  exact ⟨ht', h1, by rw [← ht'] at h2; exact h2⟩

/-! ## Examples -/

namespace Watching

/-- The values of plenum/config.py. -/
def cfg : Cfg := ⟨0, 60, 60, 30⟩

/-- The node starts, with 3 other validators; it is connected to 2 and 3, and has caught up. -/
def start : List Ev := [.setValidators [0, 1, 2, 3], .conns [2, 3], .hungry, .setSynced true]

/-- Time goes on, and the callbacks that are due are called, two at most. -/
def wait (d : Nat) : List Ev := [.tick d, .turn, .callbackEnd, .turn, .callbackEnd]

/-- The primary is 1, which is not connected. -/
def gone : List Ev := start ++ [.caughtUp 1]

/-- It was connected, and is lost after 100 seconds. -/
def lost : List Ev := start ++ [.conns [1, 2, 3], .caughtUp 1] ++ wait 100 ++ [.conns [2, 3]]

end Watching

open Watching in
example : (run cfg (gone ++ wait 59)).votes = [] ∧ (run cfg (gone ++ wait 60)).votes = [(60, .disconnected), (60, .disconnected)] ∧
    (run cfg (gone ++ wait 60 ++ wait 30 ++ wait 30)).votes =
      [(60, .disconnected), (60, .disconnected), (90, .disconnected), (120, .disconnected)] := by
  decide +kernel
open Watching in
example : (run cfg (lost ++ wait 59)).votes = [] ∧ (run cfg (lost ++ wait 60)).votes = [(160, .disconnected)] ∧
    (run cfg (lost ++ wait 59 ++ [.conns [1, 2, 3]] ++ wait 100)).votes = [] := by decide +kernel
/-- `C91_gone` applies. -/
example : ∃ l t, (run Watching.cfg (Watching.start ++ .caughtUp 1 :: [] ++ Watching.wait 60)).votes =
    (run Watching.cfg (Watching.start ++ .caughtUp 1 :: [])).votes ++ l ∧ (t, .disconnected) ∈ l ∧
      (run Watching.cfg (Watching.start ++ .caughtUp 1 :: [])).timer.now ≤ t ∧
      t ≤ (run Watching.cfg (Watching.start ++ .caughtUp 1 :: [] ++ Watching.wait 60)).timer.now := by
  refine C91_gone Watching.cfg Watching.start (.caughtUp 1) 1 [] (Watching.wait 60) (.inl rfl) (by decide) (by decide +kernel) ?_ ?_ ?_ ?_
    (by decide +kernel) (by decide +kernel)
  · refine ⟨by decide +kernel, fun l h => ?_⟩
    simp [Watching.wait] at h
  · intro e h
    simp [Watching.wait] at h
    rcases h with rfl | rfl | rfl | rfl | rfl <;> rfl
  · refine ⟨by decide +kernel, fun l h => ?_⟩
    simp [Watching.wait] at h
  · intro a b h
    have : ∀ k, k < 6 → (run Watching.cfg (Watching.start ++ .caughtUp 1 :: [] ++ (Watching.wait 60).take k)).ready = true ∧
        (run Watching.cfg (Watching.start ++ .caughtUp 1 :: [] ++ (Watching.wait 60).take k)).synced = true := by decide +kernel
    have hl := congrArg List.length h
    rw [show a = (Watching.wait 60).take a.length by rw [h]; simp]
    exact this _ (by simp [Watching.wait] at hl; omega)
/-- A view change that does not end, two votes; one that ends. -/
example : (run Watching.cfg (Watching.start ++ [.conns [1, 2, 3], .caughtUp 1, .needViewChange 2] ++ Watching.wait 30 ++
      Watching.wait 29)).votes = [(30, .timeout)] ∧
    (run Watching.cfg (Watching.start ++ [.conns [1, 2, 3], .caughtUp 1, .needViewChange 2] ++ Watching.wait 30 ++
      Watching.wait 30)).votes = [(30, .timeout), (60, .timeout)] ∧
    (run Watching.cfg (Watching.start ++ [.conns [1, 2, 3], .caughtUp 1, .needViewChange 2] ++ Watching.wait 29 ++
      [.newView (some 2)] ++ Watching.wait 1000)).votes = [] := by decide +kernel

/-- `C91_connected` applies, for a primary that is connected for a day. -/
example : ∃ l, (run Watching.cfg (Watching.start ++ [.conns [1, 2, 3]] ++ .caughtUp 1 :: Watching.wait 86400)).votes =
    (run Watching.cfg (Watching.start ++ [.conns [1, 2, 3]])).votes ++ l ∧ ∀ x ∈ l, x.2 ≠ .disconnected := by
  refine C91_connected Watching.cfg _ (.caughtUp 1) 1 _ (.inl rfl) (by decide +kernel) ⟨by decide +kernel, fun l h => ?_⟩ (fun e h => ?_)
    (.inr ⟨by decide +kernel, fun l h => ?_⟩)
  · simp [Watching.wait] at h
  · simp [Watching.wait] at h
    rcases h with rfl | rfl | rfl | rfl | rfl <;> rfl
  · simp [Watching.wait] at h
/-- `C91_patient_partial` and `C91_timeout_patient_partial` apply: nothing but time passes in callbacks here. -/
example : ∃ es e t, (run Watching.cfg (es ++ [e])).votes = (run Watching.cfg es).votes ++ [(t, .disconnected)] ∧
    ∀ a ∈ es, a.mayConnect = true → a = .conns [2, 3] ∨ a = .caughtUp 1 :=
  ⟨Watching.gone ++ [.tick 60], .turn, 60, by decide +kernel, by decide +kernel⟩

/-! ## What does not hold -/

/-- A minute begins: all that is on the timer is for the check, in a minute or later. -/
structure Watching.Minute (s : State) : Prop where
  primary : s.primary = some 1
  connected : s.connected = [2, 3]
  running : s.running = none
  proposing : s.proposing = false
  votes : s.votes = []
  events : ∀ e ∈ s.timer.events, e.callback = checkCb ∧ s.timer.now + 60 ≤ e.timestamp

theorem Watching.Minute.next {s : State} (h : Watching.Minute s) :
    Watching.Minute (s.run Watching.cfg [.tick 59, .turn, .conns [1, 2, 3], .conns [2, 3]]) ∧
    (s.run Watching.cfg [.tick 59, .turn, .conns [1, 2, 3], .conns [2, 3]]).timer.now = s.timer.now + 59 := by
  obtain ⟨⟨now, evs, id, sch, fi, ca⟩, pr, co, va, re, sy, wa, di, po, rs, ru, vo⟩ := s
  obtain ⟨h1, h2, h3, h4, h5, h6⟩ := h
  dsimp only at h1 h2 h3 h4 h5 h6
  subst h1 h2 h3 h4 h5
  have hdue : Timer.State.due ⟨now + 59, evs, id, sch, fi, ca⟩ = none := by
    unfold Timer.State.due
    dsimp only
    split
    · rfl
    · rename_i e l
      have := (h6 e (List.mem_cons_self ..)).2
      rw [if_neg (by omega)]
  have hf : evs.filter (fun e => e.callback ≠ checkCb) = [] := by
    rw [List.filter_eq_nil_iff]
    intro e he
    simp [(h6 e he).1]
  have key : State.run Watching.cfg ⟨⟨now, evs, id, sch, fi, ca⟩, some 1, [2, 3], va, re, sy, wa, di, false, rs, none, []⟩
      [.tick 59, .turn, .conns [1, 2, 3], .conns [2, 3]] =
      ⟨(Timer.State.cancel ⟨now + 59, evs, id, sch, fi, ca⟩ checkCb).schedule 60 checkCb, some 1, [2, 3], va, re, sy, wa,
        some (now + 59), false, rs, none, []⟩ := by
    simp [State.run, State.step, State.turn, hdue, State.updateConnecteds, State.processConnected, State.primaryConnected,
      State.stopProposing, State.processDisconnected, State.primaryDisconnected, State.scheduleCheck, Watching.cfg,
      Timer.State.cancel]
  rw [key]
  refine ⟨⟨rfl, rfl, rfl, rfl, rfl, ?_⟩, rfl⟩
  intro e he
  simp only [Timer.State.cancel, Timer.State.schedule] at he ⊢
  rw [hf] at he
  simp only [Timer.insertEv, List.mem_singleton] at he
  subst he
  exact ⟨rfl, Int.le_refl _⟩

/-- **C91 does not hold of the code**: a primary may be gone nearly always. If it comes back for a moment before a minute is
over, each time, there is never a vote against it. -/
theorem C91_flapping (n : Nat) :
    (run Watching.cfg (Watching.gone ++ (List.replicate n [.tick 59, .turn, .conns [1, 2, 3], .conns [2, 3]]).flatten)).votes = [] ∧
    59 * n ≤ (run Watching.cfg (Watching.gone ++ (List.replicate n [.tick 59, .turn, .conns [1, 2, 3], .conns [2, 3]]).flatten)).timer.now := by
  have h0 : Watching.Minute (run Watching.cfg Watching.gone) :=
    ⟨by decide +kernel, by decide +kernel, by decide +kernel, by decide +kernel, by decide +kernel, by decide +kernel⟩
  have h1 : 0 ≤ (run Watching.cfg Watching.gone).timer.now := by decide +kernel
  have key : ∀ (n : Nat) (s : State), Watching.Minute s → 0 ≤ s.timer.now →
      (s.run Watching.cfg (List.replicate n [.tick 59, .turn, .conns [1, 2, 3], .conns [2, 3]]).flatten).votes = [] ∧
      59 * n ≤ (s.run Watching.cfg (List.replicate n [.tick 59, .turn, .conns [1, 2, 3], .conns [2, 3]]).flatten).timer.now - s.timer.now := by
    intro n
    induction n with
    | zero => intro s h _; exact ⟨h.votes, by simp [State.run]⟩
    | succ n ih =>
      intro s h hs
      rw [List.replicate_succ, List.flatten_cons, Watch.run_append]
      obtain ⟨a, b⟩ := h.next
      obtain ⟨c, d⟩ := ih _ a (by omega)
      exact ⟨c, by omega⟩
  unfold run at h0 h1 ⊢
  rw [Watch.run_append]
  obtain ⟨a, b⟩ := key n _ h0 h1
  exact ⟨a, by omega⟩

/-- **C91 does not hold of the code**: a vote can be against a primary that is, and was, connected. The primary 1 is gone, and
is voted against; 29 seconds later a view change begins, to the primary 2. A second later this one is voted against: the
timer of the votes is not stopped when a view change begins, and nor is `NEW_VIEW_TIMEOUT` over. -/
theorem C91_leftover : ∃ es p, (run Watching.cfg es).primary = some p ∧ p ∈ (run Watching.cfg es).connected ∧
    (∀ l, .conns l ∈ es → p ∈ l) ∧
    (run Watching.cfg (es ++ [.turn])).votes = (run Watching.cfg es).votes ++ [((run Watching.cfg es).timer.now, .disconnected)] := by
  refine ⟨Watching.gone ++ Watching.wait 60 ++ [.tick 29, .needViewChange 2, .tick 1], 2, by decide +kernel, by decide +kernel, ?_,
    by decide +kernel⟩
  intro l h
  simp [Watching.gone, Watching.start, Watching.wait] at h
  subst h
  decide

/-- **C91 does not hold of the code**: a primary that is not among the validators the node knows is taken for connected, and
however long it is gone, no vote says so. -/
theorem C91_unknown (cfg : Cfg) (es : List Ev) (p : Node) (more : List Ev) (hv : p ∉ (run cfg es).validators)
    (hp : p ∉ (run cfg es).connected) (hno : ∀ e ∈ more, e.changesPrimary = false) (hc : ∀ l, .conns l ∈ more → p ∉ l) :
    ∃ l, (run cfg (es ++ .caughtUp p :: more)).votes = (run cfg es).votes ++ l ∧ ∀ x ∈ l, x.2 ≠ .disconnected := by
  have e1 : run cfg (es ++ .caughtUp p :: more) = ((run cfg es).caughtUp cfg p).run cfg more := by
    unfold run; rw [Watch.run_append, run_cons]; rfl
  obtain ⟨s1, s2, s3, _, s5, _⟩ := selected_frame cfg { run cfg es with primary := some p }
  have k : ∀ a b, more = a ++ b → (((run cfg es).caughtUp cfg p).run cfg a).disc = none ∧
      (((run cfg es).caughtUp cfg p).run cfg a).primary = some p ∧ p ∉ (((run cfg es).caughtUp cfg p).run cfg a).connected := by
    intro a
    induction a using snoc_induction with
    | nil =>
      intro b _
      exact ⟨s5.mpr (by simp [State.isPrimaryConnected, hv]), s2, by show p ∉ (State.primarySelected cfg _).connected; rw [s3]; exact hp⟩
    | snoc a e ih =>
      intro b hab
      obtain ⟨i1, i2, i3⟩ := ih (e :: b) (by rw [hab]; simp)
      have hem : e ∈ more := by rw [hab]; simp
      have hce := hno e hem
      rw [Watch.run_snoc]
      obtain ⟨j1, j2⟩ := step_primary cfg (((run cfg es).caughtUp cfg p).run cfg a) e hce
      by_cases hco : ∃ l, e = .conns l
      · obtain ⟨l, rfl⟩ := hco
        obtain ⟨_, _, f3, _, f5, _⟩ := conns_frame cfg (((run cfg es).caughtUp cfg p).run cfg a) l
        refine ⟨f5.mpr ⟨.inl i1, ?_⟩, j1.trans i2, by show p ∉ (State.updateConnecteds cfg _ l).connected; rw [f3]; exact hc l hem⟩
        rintro ⟨q, hq, hqc, _⟩
        rw [i2] at hq
        cases hq
        exact i3 hqc
      · have j2 := j2.resolve_right hco
        refine ⟨?_, j1.trans i2, by rw [j2]; exact i3⟩
        rw [step_disc cfg _ e ?_]
        · exact i1
        · cases e <;> first | rfl | (exact absurd ⟨_, rfl⟩ hco) | cases hce
  rw [e1, ← s1]
  exact run_votes_disc cfg _ more (fun a b hab => (k a b hab).1)

/-- **C91 does not hold of the code**: if the vote of a check leads to a view change that ends before the check does, with a
connected primary, then the timer of the votes runs though the primary is connected; and if the primary is lost later, the vote
against it is early, here after a second. -/
theorem C91_early : ∃ es p, (run Watching.cfg es).primary = some p ∧ (run Watching.cfg es).disc = none ∧
    p ∈ (run Watching.cfg es).connected ∧
    (run Watching.cfg (es ++ [.conns [], .tick 1, .turn])).timer.now = (run Watching.cfg es).timer.now + 1 ∧
    (run Watching.cfg (es ++ [.conns [], .tick 1, .turn])).votes =
      (run Watching.cfg es).votes ++ [((run Watching.cfg es).timer.now + 1, .disconnected)] := by
  exact ⟨Watching.gone ++ [.tick 60, .turn, .needViewChange 2, .newView (some 2), .callbackEnd, .tick 29], 2, by decide +kernel,
    by decide +kernel, by decide +kernel, by decide +kernel, by decide +kernel⟩

/-- The same with a view change that takes too long: the vote for another one is handled at once, and if this one ends before
the callback does, the next view change has a second to end, not 30. -/
theorem C91_timeout_early : ∃ es p,
    (run Watching.cfg es).waiting = false ∧
    (run Watching.cfg (es ++ [.needViewChange p, .tick 1, .turn])).timer.now = (run Watching.cfg es).timer.now + 1 ∧
    (run Watching.cfg (es ++ [.needViewChange p, .tick 1, .turn])).votes =
      (run Watching.cfg es).votes ++ [((run Watching.cfg es).timer.now + 1, .timeout)] := by
  exact ⟨Watching.start ++ [.conns [1, 2, 3], .caughtUp 1, .needViewChange 2, .tick 30, .turn, .needViewChange 3, .newView (some 3),
    .callbackEnd, .tick 29], 1, by decide +kernel, by decide +kernel, by decide +kernel⟩

/-- C91: the first vote that says the primary is gone is sent by a node that is ready and has caught up. -/
theorem C91_first (cfg : Cfg) (es : List Ev) (h : ∃ t, (t, .disconnected) ∈ (run cfg es).votes) :
    ∃ pre post, es = pre ++ .turn :: post ∧ (∀ t, (t, .disconnected) ∉ (run cfg pre).votes) ∧
      (∃ t, (t, .disconnected) ∈ (run cfg (pre ++ [.turn])).votes) ∧
      (run cfg pre).ready = true ∧ (run cfg pre).synced = true := by
  obtain ⟨t, ht⟩ := h
  obtain ⟨pre, post, he, h1, h2, h3⟩ := first_vote cfg es (fun hu => hu _ ht rfl)
  refine ⟨pre, post, he, fun t ht => h1 _ ht rfl, ?_, h3⟩
  refine Classical.byContradiction fun hn => h2 (fun x hx hd => hn ⟨x.1, ?_⟩)
  rw [← hd]; exact hx

/-- A node in a catchup puts the vote off. -/
example : (run Watching.cfg (Watching.gone ++ [.setSynced false] ++ Watching.wait 60 ++ Watching.wait 60)).votes = [] ∧
    (run Watching.cfg (Watching.gone ++ [.setSynced false] ++ Watching.wait 60 ++ [.setSynced true] ++ Watching.wait 60)).votes ≠ [] := by
  decide +kernel

/-- The later votes are sent in a catchup too: `_propose_view_change_if_needed` does not look whether there is one. -/
theorem C91_in_catchup : ∃ es, (run Watching.cfg es).synced = false ∧
    ∃ t, (run Watching.cfg (es ++ [.turn])).votes = (run Watching.cfg es).votes ++ [(t, .disconnected)] :=
  ⟨Watching.gone ++ Watching.wait 60 ++ [.setSynced false, .tick 30], by decide +kernel, 90, by decide +kernel⟩

/-- C91: a node that knows of no primary at the end of a view change takes none for gone: as long as no primary is named,
no vote says so. -/
theorem C91_no_primary (cfg : Cfg) (es : List Ev) (h : (run cfg es).primary = none) :
    (run cfg (es ++ [.newView none])).disc = none := by
  rw [run_snoc']
  show ((run cfg es).newView cfg none).disc = none
  unfold State.newView State.primarySelected
  dsimp only
  rw [if_pos]
  · unfold State.primaryConnected State.stopProposing
    split <;> rfl
  · unfold State.isPrimaryConnected
    rw [show (State.stopResending { run cfg es with waiting := false, primary := none.or (run cfg es).primary }).primary = none by
      unfold State.stopResending
      split <;> simp [h]]

/-- A view change that begins while the vote of the one before is handled is voted on twice at a time, from then on. -/
theorem C91_twice : ∃ es, (run Watching.cfg (es ++ Watching.wait 30)).votes =
    (run Watching.cfg es).votes ++ [((run Watching.cfg es).timer.now + 30, .timeout), ((run Watching.cfg es).timer.now + 30, .timeout)] :=
  ⟨Watching.start ++ [.conns [1, 2, 3], .caughtUp 1, .needViewChange 2, .tick 30, .turn, .needViewChange 3, .callbackEnd], by decide +kernel⟩

end Verif.Props
