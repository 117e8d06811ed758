import Verif.Proofs.ActionQueueRepeat
/-!
# C97: scheduled actions run once, when due, and in order; repeated ones run once in a period

About every run of the action queue: any calls at any time, any looks at the
clock, any actions doing anything with the queue when they run.
-/
namespace Verif.Props
open Verif.AQ

/-- **C97**, what runs. An action that runs was scheduled before, is due, was not
cancelled since, by itself or by its id, and did not run before. -/
theorem C97_runs (evs : List Event) (before after : List Entry) (aid : Nat) (act : Act) (t : Nat)
    (h : (run evs).hist = before ++ .ran aid act t :: after) :
    (∃ x y at' secs, before = x ++ .asked aid act at' secs :: y ∧ (secs = 0 ∨ at' + secs < t) ∧
      .cancelAct act ∉ y ∧ .cancelAid aid ∉ y) ∧ ∀ act' t', .ran aid act' t' ∉ before := by
  obtain ⟨⟨at', s, ⟨x, y, h1, h2, h3, -⟩, h4⟩, h5⟩ := (inv_run evs).ran _ _ _ _ _ h
  exact ⟨⟨x, y, at', s, h1, h4, h2, h3⟩, h5⟩

/-- What is queued leaves the queue only by running or because it was cancelled. -/
theorem queued_ends {act : Act} {aid : Nat} {at' secs : Nat} {evs : List Event} : ∀ {q : Q}, Inv q → Waiting q.hist aid act at' secs →
    (act, aid) ∈ q.queue → (evs.foldl Q.step q).queue = [] → ¬ Waiting (evs.foldl Q.step q).hist aid act at' secs := by
  induction evs with
  | nil => intro q _ _ hm he; rw [List.foldl_nil] at he; rw [he] at hm; simp at hm
  | cons e evs ih =>
    intro q hq hw hm he w
    rw [List.foldl_cons] at he w
    have hI : Inv (q.step e) := hq.step e
    by_cases hw' : Waiting (q.step e).hist aid act at' secs
    · exact ih hI hw' (step_queue hq e hm ((hI.live _ _).2 ⟨_, _, hw'⟩)) he w
    · -- once ended, it does not wait again
      obtain ⟨l0, hl0⟩ := hist_step q e
      obtain ⟨l1, hl1⟩ := hist_foldl (q.step e) evs
      apply hw'
      obtain ⟨a, b, e1, e2, e3, e4⟩ := w
      obtain ⟨c, d, f1, -⟩ := hw
      have hu : (((evs.foldl Q.step (q.step e)).hist).filterMap askedId).Nodup := by
        have : ∀ {evs : List Event} {q : Q}, Inv q → Inv (evs.foldl Q.step q) := by
          intro evs
          induction evs with
          | nil => exact fun h => h
          | cons e evs ih => exact fun h => ih (h.step e)
        exact (this hI).uniq
      obtain ⟨g1, g2⟩ := asked_split hu e1 (show _ = c ++ Entry.asked aid act at' secs :: (d ++ l0 ++ l1) by rw [hl1, hl0, f1]; simp)
      refine ⟨c, d ++ l0, by rw [hl0, f1]; simp, ?_, ?_, ?_⟩
      · intro hx; exact e2 (by rw [g2]; exact List.mem_append_left _ hx)
      · intro hx; exact e3 (by rw [g2]; exact List.mem_append_left _ hx)
      · intro t hx; exact e4 t (by rw [g2]; exact List.mem_append_left _ hx)

/-- **C97**, nothing is forgotten. An action is due, the queue is serviced (the
clock is looked at, then the queue is worked off): it has run or was cancelled. -/
theorem C97_due (evs evs' : List Event) (aid : Nat) (act : Act) (at' secs : Nat) (x y : List Entry)
    (h : (run evs).hist = x ++ .asked aid act at' secs :: y) (hdue : at' + secs < (run evs).now)
    (hdone : (run (evs ++ .look :: evs')).queue = []) :
    ∃ z, (run (evs ++ .look :: evs')).hist = x ++ .asked aid act at' secs :: z ∧
      (.cancelAct act ∈ z ∨ .cancelAid aid ∈ z ∨ ∃ t, .ran aid act t ∈ z) := by
  have hI := inv_run evs
  rw [run_append, List.foldl_cons] at hdone ⊢
  obtain ⟨l1, hl1⟩ := hist_foldl ((run evs).step .look) evs'
  have hl : ((run evs).step .look).hist = (run evs).hist := by show (run evs).look.hist = _; rw [look_same]
  refine ⟨y ++ l1, by rw [hl1, hl, h]; simp, ?_⟩
  by_cases hw : Waiting (run evs).hist aid act at' secs
  · have hw1 : Waiting ((run evs).step .look).hist aid act at' secs := by rw [hl]; exact hw
    have := queued_ends (evs := evs') (hI.step .look) hw1 (hI.look_due hw hdue) hdone
    by_cases h1 : Entry.cancelAct act ∈ y ++ l1
    · exact .inl h1
    by_cases h2 : Entry.cancelAid aid ∈ y ++ l1
    · exact .inr (.inl h2)
    refine .inr (.inr (Classical.byContradiction fun h3 => this ?_))
    exact ⟨x, y ++ l1, by rw [hl1, hl, h]; simp, h1, h2, fun t ht => h3 ⟨t, ht⟩⟩
  · by_cases h1 : Entry.cancelAct act ∈ y
    · exact .inl (List.mem_append_left _ h1)
    by_cases h2 : Entry.cancelAid aid ∈ y
    · exact .inr (.inl (List.mem_append_left _ h2))
    refine .inr (.inr (Classical.byContradiction fun h3 => hw ?_))
    exact ⟨x, y, h, h1, h2, fun t ht => h3 ⟨t, List.mem_append_left _ ht⟩⟩

/-- **C97**, the order: what is due at one look runs in the reverse of the order
in which it was scheduled, and before what was to run at once. Of two actions the
one due later runs first, whatever their times. -/
theorem C97_later_first (a b s1 s2 d : Nat) (h1 : 0 < s1) (h12 : s1 < s2) (hd : s2 < d) :
    ∃ x, (run [.call (.schedule a s1), .call (.schedule b s2), .call (.pass d), .look, .pop [], .pop []]).hist =
      x ++ [.ran 2 (.plain b) d, .ran 1 (.plain a) d] := by
  have h2 : 0 < s2 := by omega
  have n1 : ¬ (s2 < s1) := by omega
  have g1 : s1 < d := by omega
  refine ⟨[.asked 1 (.plain a) 0 s1, .asked 2 (.plain b) 0 s2], ?_⟩
  by_cases hab : b = a
  · subst hab
    simp [run, Q.step, Q.call, Q.schedule, Q.look, Q.lookAt, Q.pop, Q.ids, below, past, earliest, Dict.get?, Dict.set, h1, h2, n1, g1, hd]
  · have hba : ¬ a = b := fun e => hab e.symm
    simp [run, Q.step, Q.call, Q.schedule, Q.look, Q.lookAt, Q.pop, Q.ids, below, past, earliest, Dict.get?, Dict.set, h1, h2, n1, g1, hd, hba]

/-- The order in general. -/
theorem C97_order (evs : List Event) (c : Nat) (hn : (run evs).nextCheck = some c) (hc : c < (run evs).now) :
    (run (evs ++ [.look])).queue =
      (((run evs).stash.filter (fun d => d.1 < (run evs).now)).map Prod.snd).reverse ++ (run evs).queue := by
  rw [run_append]
  show (run evs).look.queue = _
  unfold Q.look
  split
  · exact (lookAll _ _).2.2.2.2
  · next h =>
    have : (run evs).stash = [] := by
      refine Classical.byContradiction fun hs => h ⟨hs, ?_⟩
      rw [hn]; simpa [past] using hc
    rw [this]; simp

/-- **C97**, a repeated action runs again and again. Started, and neither stopped
nor cancelled by id, it is called at least once in every stretch of time that is
longer than its period, if the queue is serviced at the end of the stretch. -/
theorem C97_repeats (evs0 evs1 evs2 evs3 : List Event) (a s : Nat) (h0 : a ∉ (run evs0).repeating)
    (h1 : Undisturbed a evs1) (h2 : Undisturbed a evs2) (h3 : Undisturbed a evs3)
    (hlate : (run (evs0 ++ .call (.start a s) :: evs1)).now + s < (run (evs0 ++ .call (.start a s) :: evs1 ++ evs2)).now)
    (hdone : (run (evs0 ++ .call (.start a s) :: evs1 ++ (evs2 ++ .look :: evs3))).queue = []) :
    ∃ l aid t, (run (evs0 ++ .call (.start a s) :: evs1 ++ (evs2 ++ .look :: evs3))).hist =
      (run (evs0 ++ .call (.start a s) :: evs1)).hist ++ l ∧ .body aid a t ∈ l := by
  obtain ⟨r1, r2, -⟩ := started (s := s) h0
  have hI := inv_run (evs0 ++ [.call (.start a s)])
  rw [run_append] at hI
  obtain ⟨k1, ⟨aid, t, k2⟩, -⟩ := keeps hI h1 r1 r2
  have e : run (evs0 ++ .call (.start a s) :: evs1) = evs1.foldl Q.step ((run evs0).call (.start a s)) := by
    rw [run_append]; rfl
  rw [run_append (evs0 ++ .call (.start a s) :: evs1)] at hdone hlate ⊢
  have hI1 := inv_run (evs0 ++ .call (.start a s) :: evs1)
  rw [e] at hdone hlate hI1 ⊢
  obtain ⟨l, tb, hl, hb⟩ := runs_again hI1 h2 h3 k1 k2 hlate hdone
  exact ⟨l, aid, tb, hl, hb⟩

/-- **C97**, not more often: if it is started for the first time and not stopped
since, two calls are more than the period apart. Missing for the full claim: an
action stopped and started again (`C97_restart_doubles`). -/
theorem C97_rate_partial (evs0 evs : List Event) (a s : Nat) (hs : 0 < s) (h0 : ∀ e ∈ evs0, ∀ x, .start a x ∉ e.calls)
    (h : ∀ e ∈ evs, .stop a ∉ e.calls) (x y z : List Entry) (i j t u : Nat)
    (hh : (run (evs0 ++ .call (.start a s) :: evs)).hist = x ++ .body i a t :: y ++ .body j a u :: z) : t + s < u := by
  have j0 : J a (run evs0).gens s ((run evs0).call (.start a s)) := J.start (fresh_run h0)
  have hI := inv_run (evs0 ++ [.call (.start a s)])
  rw [run_append] at hI
  have key : ∀ {evs : List Event} {q : Q}, Inv q → J a (run evs0).gens s q → (∀ e ∈ evs, .stop a ∉ e.calls) →
      J a (run evs0).gens s (evs.foldl Q.step q) := by
    intro evs
    induction evs with
    | nil => exact fun _ h _ => h
    | cons e evs ih =>
      exact fun hq hj hc => ih (hq.step e) (hj.step hq hs e (hc e (List.mem_cons_self ..))) (fun x hx => hc x (List.mem_cons_of_mem _ hx))
  have j1 := (key hI j0 h).apart
  rw [run_append, List.foldl_cons] at hh
  have j1 : (evs.foldl Q.step ((run evs0).step (.call (.start a s)))).hist.Pairwise (Apart s a) := j1
  rw [hh, List.pairwise_append] at j1
  exact j1.2.2 (.body i a t) (by simp) (.body j a u) (by simp) i t j u rfl rfl

/-- **C97**, an action that was stopped is not called until it is started again. -/
theorem C97_stopped (evs evs' : List Event) (a : Nat) (h : ∀ e ∈ evs', ∀ x, .start a x ∉ e.calls) :
    ∃ l, (run (evs ++ .call (.stop a) :: evs')).hist = (run evs).hist ++ l ∧ ∀ i t, .body i a t ∉ l := by
  rw [run_append, List.foldl_cons]
  obtain ⟨l, hl⟩ := hist_foldl ((run evs).step (.call (.stop a))) evs'
  refine ⟨l, hl, fun i t => quiet_run (q := (run evs).step (.call (.stop a))) ?_ h l hl i t⟩
  show a ∉ (run evs).repeating.erase a
  exact fun hm => ((set_run evs).mem_erase_iff.1 hm).1 rfl

/-- **C97** fails for an action that is stopped and started again within its
period: from then on it is called twice in every period, in every run, until it
is stopped. The first wrapper is still scheduled, and starting only asks whether
the action is to repeat. -/
theorem C97_restart_doubles (evs0 evs1 evs2 evs3 evs4 : List Event) (a s : Nat) (h0 : a ∉ (run evs0).repeating)
    (h1 : Undisturbed a evs1) (h2 : Undisturbed a evs2) (h3 : Undisturbed a evs3) (h4 : Undisturbed a evs4)
    (pre : List Event) (hpre : pre = evs0 ++ .call (.start a s) :: evs1 ++ .call (.stop a) :: .call (.start a s) :: evs2)
    (hlate : (run pre).now + s < (run (pre ++ evs3)).now) (hdone : (run (pre ++ (evs3 ++ .look :: evs4))).queue = []) :
    ∃ l i j t u, (run (pre ++ (evs3 ++ .look :: evs4))).hist = (run pre).hist ++ l ∧ .body i a t ∈ l ∧ .body j a u ∈ l ∧ i ≠ j := by
  obtain ⟨r1, r2, -, rg, -⟩ := started (s := s) h0
  have hI := inv_run (evs0 ++ [.call (.start a s)])
  rw [run_append] at hI
  obtain ⟨k1, ⟨aid, t, k2⟩, -⟩ := keeps hI h1 r1 r2
  have e : run (evs0 ++ .call (.start a s) :: evs1) = evs1.foldl Q.step ((run evs0).call (.start a s)) := by
    rw [run_append]; rfl
  have hg : (run evs0).gens + 1 ≤ (run (evs0 ++ .call (.start a s) :: evs1)).gens := by
    rw [e, ← rg]; exact gens_foldl _ _
  have hI1 := inv_run (evs0 ++ .call (.start a s) :: evs1)
  have hnd := set_run (evs0 ++ .call (.start a s) :: evs1)
  have k2 : Pending a (run evs0).gens s (run (evs0 ++ .call (.start a s) :: evs1)) aid t := by rw [e]; exact k2
  generalize hq1 : run (evs0 ++ .call (.start a s) :: evs1) = q1 at *
  -- stopped and started
  have hn : a ∉ (q1.call (.stop a)).repeating := fun hm => (hnd.mem_erase_iff.1 hm).1 rfl
  obtain ⟨m1, m2, m3, -, -⟩ := started (s := s) hn
  have hI2 : Inv ((q1.call (.stop a)).call (.start a s)) := (hI1.call _).call _
  have m4 : Pending a (run evs0).gens s ((q1.call (.stop a)).call (.start a s)) aid t := by
    unfold Pending
    rw [m3]
    exact waiting_snoc.2 (.inl ⟨k2, by simp, by simp, by simp⟩)
  obtain ⟨n1, ⟨b1, t1, n2⟩, -⟩ := keeps hI2 h2 m1 m4
  obtain ⟨-, ⟨b2, t2, n3⟩, -⟩ := keeps hI2 h2 m1 m2
  have e2 : run pre = evs2.foldl Q.step ((q1.call (.stop a)).call (.start a s)) := by
    rw [hpre, run_append, hq1]; rfl
  have hI3 := inv_run pre
  have hI4 := inv_run (pre ++ (evs3 ++ .look :: evs4))
  rw [run_append] at hlate hdone hI4 ⊢
  rw [← e2] at n1 n2 n3
  obtain ⟨l, u1, hl, hb⟩ := runs_again hI3 h3 h4 n1 n2 hlate hdone
  obtain ⟨l', u2, hl', hb'⟩ := runs_again hI3 h3 h4 n1 n3 hlate hdone
  rw [hl] at hl'
  have := List.append_cancel_left hl'
  subst this
  refine ⟨l, b1, b2, u1, u2, hl, hb, hb', ?_⟩
  rintro rfl
  have := (asked_inj hI3.uniq n2.mem n3.mem).1
  simp only [Act.rep.injEq, true_and, and_true] at this
  have hgs : (q1.call (.stop a)).gens = q1.gens := rfl
  omega

/-! ### Cases -/

/-- A run: action 7 is scheduled twice and cancelled once by id, action 1 repeats
every 10 ticks. -/
def aqRun : List Event :=
  [.call (.schedule 7 5), .call (.schedule 7 0), .call (.start 1 10), .call (.pass 6), .look, .pop [.cancelAid 2], .pop [],
   .call (.pass 6), .look, .pop [.pass 1], .call (.pass 11), .look, .pop []]

example : (run aqRun).hist =
    [.asked 1 (.plain 7) 0 5, .asked 2 (.plain 7) 0 0, .asked 3 (.rep 1 0 10) 0 10, .ran 1 (.plain 7) 6, .cancelAid 2,
     .ran 3 (.rep 1 0 10) 12, .body 3 1 12, .asked 4 (.rep 1 0 10) 13 10, .ran 4 (.rep 1 0 10) 24, .body 4 1 24,
     .asked 5 (.rep 1 0 10) 24 10] ∧ (run aqRun).queue = [] := by decide

/-- The hypotheses of `C97_repeats` hold: the last stretch of the run. -/
example : 1 ∉ (run (aqRun.take 2)).repeating ∧ Undisturbed 1 [.call (.pass 11)] ∧
    aqRun.take 2 ++ .call (.start 1 10) :: [] ++ ([.call (.pass 11)] ++ .look :: [.pop [], .pop [], .pop []]) =
      [.call (.schedule 7 5), .call (.schedule 7 0), .call (.start 1 10), .call (.pass 11), .look, .pop [], .pop [], .pop []] ∧
    (run (aqRun.take 2 ++ .call (.start 1 10) :: [])).now + 10 < (run (aqRun.take 2 ++ .call (.start 1 10) :: [] ++ [.call (.pass 11)])).now ∧
    (run (aqRun.take 2 ++ .call (.start 1 10) :: [] ++ ([.call (.pass 11)] ++ .look :: [.pop [], .pop [], .pop []]))).queue = [] := by
  refine ⟨by decide, ?_, by decide, by decide, by decide⟩
  intro e he
  simp at he; subst he
  simp [Event.calls]

/-- Stopped and started again at once: called twice in the next period, and in
the one after. -/
example : (run [.call (.start 1 10), .call (.pass 4), .call (.stop 1), .call (.start 1 10), .call (.pass 11), .look, .pop [], .pop [],
      .call (.pass 11), .look, .pop [], .pop []]).hist.filterMap (fun e => match e with | .body i _ t => some (i, t) | _ => none) =
    [(2, 15), (1, 15), (4, 26), (3, 26)] := by decide

end Verif.Props
