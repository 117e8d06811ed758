import Verif.Proofs.ActionQueue
/-! Actions that repeat. -/
namespace Verif.AQ

variable {a g s : Nat}

/-- The wrapper `rep a g s` is scheduled. -/
def Pending (a g s : Nat) (q : Q) (aid t : Nat) : Prop := Waiting q.hist aid (.rep a g s) t s

/-! ### What others do -/

theorem call_rep {q : Q} {c : Call} (hc : c ≠ .stop a) (h : a ∈ q.repeating) : a ∈ (q.call c).repeating := by
  cases c with
  | schedule b x =>
    show a ∈ (q.schedule _ _).repeating
    unfold Q.schedule; dsimp only; split <;> exact h
  | cancel b =>
    show a ∈ (q.cancelAct _).repeating
    unfold Q.cancelAct; dsimp only; cases q.scheduled.get? (Act.plain b) <;> exact h
  | cancelAid b => exact h
  | start b x =>
    show a ∈ (q.startRepeating b x).repeating
    unfold Q.startRepeating
    split
    · exact h
    · unfold Q.schedule; dsimp only; split <;> exact List.mem_append_left _ h
  | stop b =>
    refine (List.mem_erase_of_ne ?_).2 h
    rintro rfl; exact hc rfl
  | pass d => exact h

theorem call_now (q : Q) (c : Call) : q.now ≤ (q.call c).now := by
  cases c with
  | schedule b x => show _ ≤ (q.schedule _ _).now; unfold Q.schedule; dsimp only; split <;> exact Nat.le_refl _
  | cancel b => show _ ≤ (q.cancelAct _).now; unfold Q.cancelAct; dsimp only; cases q.scheduled.get? (Act.plain b) <;> exact Nat.le_refl _
  | cancelAid b => exact Nat.le_refl _
  | start b x =>
    show _ ≤ (q.startRepeating b x).now
    unfold Q.startRepeating
    split
    · exact Nat.le_refl _
    · unfold Q.schedule; dsimp only; split <;> exact Nat.le_refl _
  | stop b => exact Nat.le_refl _
  | pass d => exact Nat.le_add_right _ _

/-- What a call adds to the record while `a` repeats. -/
theorem call_hist {q : Q} (c : Call) (h : a ∈ q.repeating) :
    (q.call c).hist = q.hist ∨ ∃ e, (q.call c).hist = q.hist ++ [e] ∧ (∀ x g' s', e ≠ .cancelAct (.rep x g' s')) ∧
      (∀ aid, e = .cancelAid aid → c = .cancelAid aid) ∧ (∀ aid act t, e ≠ .ran aid act t) ∧ (∀ aid b t, e ≠ .body aid b t) ∧
      ∀ aid g' s' t y, e ≠ .asked aid (.rep a g' s') t y := by
  cases c with
  | schedule b x => exact .inr ⟨_, hist_schedule .., by simp, by simp, by simp, by simp, by simp⟩
  | cancel b =>
    refine .inr ⟨.cancelAct (.plain b), ?_, by simp, by simp, by simp, by simp, by simp⟩
    show (q.cancelAct _).hist = _
    unfold Q.cancelAct; dsimp only; cases q.scheduled.get? (Act.plain b) <;> rfl
  | cancelAid b => exact .inr ⟨_, rfl, by simp, by simp, by simp, by simp, by simp⟩
  | start b x =>
    show (q.startRepeating b x).hist = _ ∨ _
    unfold Q.startRepeating
    split
    · exact .inl rfl
    · next hb =>
      refine .inr ⟨Entry.asked (q.aid + 1) (.rep b q.gens x) q.now x, ?_, ?_, ?_, ?_, ?_, ?_⟩
      · show (q.startRepeating b x).hist = _
        unfold Q.startRepeating
        rw [if_neg hb, hist_schedule]
      · simp
      · simp
      · simp
      · simp
      · intro aid g' s' t y e
        simp only [Entry.asked.injEq, Act.rep.injEq] at e
        exact hb (e.2.1.1 ▸ h)
  | stop b => exact .inl rfl
  | pass d => exact .inl rfl

theorem call_pending {q : Q} {c : Call} (h : a ∈ q.repeating) (hc : ∀ aid, c ≠ .cancelAid aid) {aid t : Nat}
    (w : Pending a g s q aid t) : Pending a g s (q.call c) aid t := by
  unfold Pending at *
  rcases call_hist c h with e | ⟨e, e1, e2, e3, e4, -, -⟩
  · rw [e]; exact w
  · rw [e1]
    exact waiting_snoc.2 (.inl ⟨w, e2 _ _ _, fun x => hc _ (e3 _ x), e4 _ _⟩)

theorem calls_pending {q : Q} {cs : List Call} (h : a ∈ q.repeating) (hs : .stop a ∉ cs) (hc : ∀ aid, .cancelAid aid ∉ cs) {aid t : Nat}
    (w : Pending a g s q aid t) : Pending a g s (cs.foldl Q.call q) aid t := by
  induction cs generalizing q with
  | nil => exact w
  | cons c cs ih =>
    simp only [List.mem_cons, not_or] at hs hc
    exact ih (call_rep (Ne.symm hs.1) h) hs.2 (fun x => (hc x).2) (call_pending h (fun x => Ne.symm (hc x).1) w)

theorem calls_rep {q : Q} {cs : List Call} (h : a ∈ q.repeating) (hs : .stop a ∉ cs) : a ∈ (cs.foldl Q.call q).repeating := by
  induction cs generalizing q with
  | nil => exact h
  | cons c cs ih =>
    simp only [List.mem_cons, not_or] at hs
    exact ih (call_rep (Ne.symm hs.1) h) hs.2

theorem calls_now (q : Q) (cs : List Call) : q.now ≤ (cs.foldl Q.call q).now := by
  induction cs generalizing q with
  | nil => exact Nat.le_refl _
  | cons c cs ih => exact Nat.le_trans (call_now q c) (ih _)

theorem sched_same (q : Q) (act : Act) (x : Nat) : (q.schedule act x).repeating = q.repeating ∧ (q.schedule act x).now = q.now := by
  unfold Q.schedule; dsimp only; split <;> exact ⟨rfl, rfl⟩

theorem step_now (q : Q) (e : Event) : q.now ≤ (q.step e).now := by
  cases e with
  | call c => exact call_now q c
  | look => show _ ≤ q.look.now; rw [look_same]; exact Nat.le_refl _
  | pop d =>
    show _ ≤ (q.pop d).now
    rcases pop_cases q d with ⟨-, e⟩ | ⟨act, aid, rest, hq, ⟨hm, e⟩ | ⟨hm, q1, e1, ⟨b, -, e⟩ | ⟨b, g, s, -, ⟨-, e⟩ | ⟨-, e⟩⟩⟩⟩ <;> rw [e]
    · exact Nat.le_refl _
    · exact Nat.le_refl _
    · have := calls_now q1 d; rw [e1] at this ⊢; exact this
    · rw [e1]; exact Nat.le_refl _
    · rw [(sched_same ..).2]
      have := calls_now ({ q1 with hist := q1.hist ++ [.body aid b q.now] } : Q) d
      rw [e1] at this ⊢; exact this

theorem foldl_now (q : Q) (evs : List Event) : q.now ≤ (evs.foldl Q.step q).now := by
  induction evs generalizing q with
  | nil => exact Nat.le_refl _
  | cons c cs ih => exact Nat.le_trans (step_now q c) (ih _)

theorem pending_again {a g s : Nat} (q : Q) : Pending a g s (q.schedule (.rep a g s) s) (q.aid + 1) q.now := by
  unfold Pending
  rw [hist_schedule]
  exact waiting_snoc.2 (.inr rfl)

/-- A wrapper that is scheduled stays so, or calls its action and is scheduled
again, as long as nobody interferes. -/
theorem step_keeps {q : Q} (hq : Inv q) (e : Event) (hs : .stop a ∉ e.calls) (hc : ∀ aid, .cancelAid aid ∉ e.calls)
    (h : a ∈ q.repeating) {aid t : Nat} (w : Pending a g s q aid t) :
    a ∈ (q.step e).repeating ∧ (Pending a g s (q.step e) aid t ∨
      ((∃ aid' t', Pending a g s (q.step e) aid' t') ∧ ∃ l tb, (q.step e).hist = q.hist ++ l ∧ .body aid a tb ∈ l)) := by
  cases e with
  | call c =>
    simp only [Event.calls, List.mem_singleton] at hs hc
    exact ⟨call_rep (Ne.symm hs) h, .inl (call_pending h (fun x => Ne.symm (hc x)) w)⟩
  | look =>
    show a ∈ q.look.repeating ∧ (Pending a g s q.look aid t ∨ _)
    rw [look_same]
    exact ⟨h, .inl w⟩
  | pop d =>
    simp only [Event.calls] at hs hc
    show a ∈ (q.pop d).repeating ∧ (Pending a g s (q.pop d) aid t ∨ (_ ∧ ∃ l tb, (q.pop d).hist = _ ∧ _))
    have htake : ∀ {act aid' rest}, aid' ≠ aid → ∀ q1 : Q, q1 = ({ q with queue := rest, scheduled := q.scheduled.set act ((q.ids act).erase aid'), hist := q.hist ++ [.ran aid' act q.now] } : Q) →
        a ∈ q1.repeating ∧ Pending a g s q1 aid t := by
      rintro act aid' rest hne q1 rfl
      refine ⟨h, ?_⟩
      exact waiting_snoc.2 (.inl ⟨w, by simp, by simp, fun x e => by cases e; exact hne rfl⟩)
    rcases pop_cases q d with ⟨-, e⟩ | ⟨act, aid', rest, hqq, ⟨hm, e⟩ | ⟨hm, q1, e1, hh⟩⟩
    · rw [e]; exact ⟨h, .inl w⟩
    · rw [e]; exact ⟨h, .inl w⟩
    · by_cases hne : aid' = aid
      · subst hne
        -- it is our turn
        have hact : act = .rep a g s := hq.one hm ((hq.live _ _).2 ⟨_, _, w⟩)
        subst hact
        rcases hh with ⟨b, hb, -⟩ | ⟨b, g', s', hb, hh⟩
        · simp at hb
        · simp only [Act.rep.injEq] at hb
          obtain ⟨rfl, rfl, rfl⟩ := hb
          rcases hh with ⟨hr, -⟩ | ⟨-, e⟩
          · exact absurd h hr
          · have hr1 : a ∈ ({ q1 with hist := q1.hist ++ [.body aid' a q.now] } : Q).repeating := by rw [e1]; exact h
            have hr2 := calls_rep hr1 hs
            obtain ⟨l, hl⟩ := hist_calls ({ q1 with hist := q1.hist ++ [.body aid' a q.now] } : Q) d
            rw [e]
            refine ⟨by rw [(sched_same ..).1]; exact hr2, .inr ⟨?_, ?_⟩⟩
            · show ∃ aid' t', Pending a g s (q.pop d) aid' t'
              rw [e]; exact ⟨_, _, pending_again _⟩
            · rw [hist_schedule, hl, e1]
              exact ⟨_, q.now, by simp only [List.append_assoc]; rfl, by simp⟩
      · obtain ⟨i1, i2⟩ := htake (act := act) (rest := rest) hne q1 e1
        rcases hh with ⟨b, hb, e⟩ | ⟨b, g', s', hb, ⟨-, e⟩ | ⟨-, e⟩⟩ <;> rw [e]
        · exact ⟨calls_rep i1 hs, .inl (calls_pending i1 hs hc i2)⟩
        · exact ⟨i1, .inl i2⟩
        · have i3 : a ∈ ({ q1 with hist := q1.hist ++ [.body aid' b q.now] } : Q).repeating := i1
          have i4 : Pending a g s ({ q1 with hist := q1.hist ++ [.body aid' b q.now] } : Q) aid t :=
            waiting_snoc.2 (.inl ⟨i2, by simp, by simp, by simp⟩)
          refine ⟨by rw [(sched_same ..).1]; exact calls_rep i3 hs, .inl ?_⟩
          have i5 := calls_pending i3 hs hc i4
          unfold Pending at i5 ⊢
          rw [hist_schedule]
          exact waiting_snoc.2 (.inl ⟨i5, by simp, by simp, by simp⟩)
/-- The same over many events. -/
theorem keeps {evs : List Event} : ∀ {q : Q}, Inv q → Undisturbed a evs → a ∈ q.repeating → ∀ {aid t : Nat}, Pending a g s q aid t →
    a ∈ (evs.foldl Q.step q).repeating ∧ (∃ aid' t', Pending a g s (evs.foldl Q.step q) aid' t') ∧
    (Pending a g s (evs.foldl Q.step q) aid t ∨ ∃ l tb, (evs.foldl Q.step q).hist = q.hist ++ l ∧ .body aid a tb ∈ l) := by
  induction evs with
  | nil => intro q hq hu h aid t w; exact ⟨h, ⟨aid, t, w⟩, .inl w⟩
  | cons e evs ih =>
    intro q hq hu h aid t w
    have hu' : Undisturbed a evs := fun x hx => hu x (List.mem_cons_of_mem _ hx)
    obtain ⟨k1, k2⟩ := step_keeps hq e (hu e (List.mem_cons_self ..)).1 (hu e (List.mem_cons_self ..)).2 h w
    obtain ⟨l0, hl0⟩ := hist_step q e
    obtain ⟨l1, hl1⟩ := hist_foldl (q.step e) evs
    rw [List.foldl_cons]
    rcases k2 with k2 | ⟨⟨aid', t', k2⟩, l, tb, hl, hb⟩
    · obtain ⟨m1, m2, m3⟩ := ih (hq.step e) hu' k1 k2
      refine ⟨m1, m2, m3.imp id ?_⟩
      rintro ⟨l, tb, hl, hb⟩
      exact ⟨l0 ++ l, tb, by rw [hl, hl0, List.append_assoc], List.mem_append_right _ hb⟩
    · obtain ⟨m1, m2, -⟩ := ih (hq.step e) hu' k1 k2
      exact ⟨m1, m2, .inr ⟨l ++ l1, tb, by rw [hl1, hl, List.append_assoc], List.mem_append_left _ hb⟩⟩

theorem call_queue {q : Q} (c : Call) {x} (hx : x ∈ q.queue) : x ∈ (q.call c).queue := by
  cases c with
  | schedule b y =>
    show x ∈ (q.schedule _ _).queue
    unfold Q.schedule; dsimp only; split
    · exact hx
    · exact List.mem_append_left _ hx
  | cancel b =>
    show x ∈ (q.cancelAct _).queue
    unfold Q.cancelAct; dsimp only; cases q.scheduled.get? (Act.plain b) <;> exact hx
  | cancelAid b => exact hx
  | start b y =>
    show x ∈ (q.startRepeating b y).queue
    unfold Q.startRepeating
    split
    · exact hx
    · unfold Q.schedule; dsimp only; split
      · exact hx
      · exact List.mem_append_left _ hx
  | stop b => exact hx
  | pass d => exact hx

theorem calls_queue {q : Q} (cs : List Call) {x} (hx : x ∈ q.queue) : x ∈ (cs.foldl Q.call q).queue := by
  induction cs generalizing q with
  | nil => exact hx
  | cons c cs ih => exact ih (call_queue c hx)

/-- What is queued stays so until it runs. -/
theorem step_queue {q : Q} (hq : Inv q) (e : Event) {act : Act} {aid : Nat} (hm : (act, aid) ∈ q.queue) (hw : aid ∈ (q.step e).ids act) :
    (act, aid) ∈ (q.step e).queue := by
  cases e with
  | call c => exact call_queue c hm
  | look =>
    show _ ∈ q.look.queue
    unfold Q.look
    split
    · exact ((lookAll q.stash q).2.1 _).2 (.inl hm)
    · exact hm
  | pop d =>
    obtain ⟨t, s, w⟩ := ((hq.pop d).live _ _).1 hw
    have hnr := (hq.pop d).not_ran w
    show _ ∈ (q.pop d).queue
    obtain ⟨l, hl⟩ := hist_step q (.pop d)
    rcases pop_cases q d with ⟨-, e⟩ | ⟨act', aid', rest, hqq, ⟨hm', e⟩ | ⟨hm', q1, e1, hh⟩⟩
    · rw [e]; exact hm
    · rw [hqq] at hm
      rcases List.mem_cons.1 hm with x | x
      · simp only [Prod.mk.injEq] at x
        obtain ⟨rfl, rfl⟩ := x
        have : aid ∈ (q.pop d).ids act := hw
        rw [e] at this
        exact absurd this hm'
      · rw [e]; exact x
    · have hran : ∀ q2 : Q, (∃ l, q2.hist = q1.hist ++ l) → q2 = q.pop d → aid' ≠ aid := by
        rintro q2 ⟨l, hl⟩ rfl rfl
        exact hnr act' q.now (by rw [hl, e1]; simp)
      have hrest : aid' ≠ aid → (act, aid) ∈ q1.queue := by
        intro hne
        rw [hqq] at hm
        rcases List.mem_cons.1 hm with x | x
        · simp only [Prod.mk.injEq] at x
          exact absurd x.2.symm hne
        · rw [e1]; exact x
      rcases hh with ⟨b, hb, e⟩ | ⟨b, g', s', hb, ⟨-, e⟩ | ⟨-, e⟩⟩
      · have := hrest (hran _ (hist_calls q1 d) e.symm)
        rw [e]; exact calls_queue d this
      · have := hrest (hran q1 ⟨[], by simp⟩ e.symm)
        rw [e]; exact this
      · obtain ⟨l, hl⟩ := hist_calls ({ q1 with hist := q1.hist ++ [.body aid' b q.now] } : Q) d
        have := hrest (hran _ ⟨_, by rw [hist_schedule, hl, List.append_assoc, List.append_assoc]⟩ e.symm)
        rw [e]
        have h4 := calls_queue (q := ({ q1 with hist := q1.hist ++ [.body aid' b q.now] } : Q)) d this
        unfold Q.schedule; dsimp only; split
        · exact h4
        · exact List.mem_append_left _ h4

/-- Between two moments more than the period apart, with a look at the clock at
the end and the queue worked off, a scheduled wrapper calls its action. -/
theorem runs_again {q : Q} (hq : Inv q) {evs2 evs3 : List Event} (h2 : Undisturbed a evs2) (h3 : Undisturbed a evs3)
    (h : a ∈ q.repeating) {aid t : Nat} (w : Pending a g s q aid t)
    (hlate : q.now + s < (evs2.foldl Q.step q).now)
    (hdone : ((evs2 ++ .look :: evs3).foldl Q.step q).queue = []) :
    ∃ l tb, ((evs2 ++ .look :: evs3).foldl Q.step q).hist = q.hist ++ l ∧ .body aid a tb ∈ l := by
  obtain ⟨k1, -, k2⟩ := keeps hq h2 h w
  rw [List.foldl_append, List.foldl_cons] at hdone ⊢
  have hI : ∀ {evs : List Event} {q : Q}, Inv q → Inv (evs.foldl Q.step q) := by
    intro evs
    induction evs with
    | nil => exact fun h => h
    | cons e evs ih => exact fun h => ih (h.step e)
  generalize hq2 : evs2.foldl Q.step q = q2 at *
  have i2 : Inv q2 := hq2 ▸ hI hq
  obtain ⟨l0, hl0⟩ : ∃ l, q2.hist = q.hist ++ l := hq2 ▸ hist_foldl q evs2
  obtain ⟨l1, hl1⟩ := hist_foldl (q2.step .look) evs3
  obtain ⟨l2, hl2⟩ := hist_step q2 .look
  rcases k2 with k2 | ⟨l, tb, hl, hb⟩
  · have w' : Pending a g s (q2.step .look) aid t := by
      show Pending a g s q2.look aid t
      rw [look_same]; exact k2
    have kr : a ∈ (q2.step .look).repeating := by
      show a ∈ q2.look.repeating
      rw [look_same]; exact k1
    have hdue : t + s < q2.now := by
      have := (hq.top _ _ _ _ w.mem).2
      omega
    -- it is queued now; while it waits it stays in the queue
    have hin : ∀ {evs : List Event} {q : Q}, Inv q → Undisturbed a evs → a ∈ q.repeating → Pending a g s q aid t → (Act.rep a g s, aid) ∈ q.queue →
        (evs.foldl Q.step q).queue = [] → ∃ l tb, (evs.foldl Q.step q).hist = q.hist ++ l ∧ .body aid a tb ∈ l := by
      intro evs
      induction evs with
      | nil => intro q _ _ _ _ hm he; rw [List.foldl_nil] at he; rw [he] at hm; simp at hm
      | cons e evs ih =>
        intro q hq hu hr hp hm he
        obtain ⟨n1, n2⟩ := step_keeps hq e (hu e (List.mem_cons_self ..)).1 (hu e (List.mem_cons_self ..)).2 hr hp
        obtain ⟨l0, hl0⟩ := hist_step q e
        obtain ⟨l1, hl1⟩ := hist_foldl (q.step e) evs
        rw [List.foldl_cons] at he ⊢
        rcases n2 with n2 | ⟨-, l, tb, hl, hb⟩
        · have hm' : (Act.rep a g s, aid) ∈ (q.step e).queue := step_queue hq e hm ((((hq.step e).live _ _).2 ⟨_, _, n2⟩))
          obtain ⟨l, tb, hl, hb⟩ := ih (hq.step e) (fun x hx => hu x (List.mem_cons_of_mem _ hx)) n1 n2 hm' he
          exact ⟨l0 ++ l, tb, by rw [hl, hl0, List.append_assoc], List.mem_append_right _ hb⟩
        · exact ⟨l ++ l1, tb, by rw [hl1, hl, List.append_assoc], List.mem_append_left _ hb⟩
    obtain ⟨l, tb, hl, hb⟩ := hin (i2.step .look) h3 kr w' (i2.look_due k2 hdue) hdone
    exact ⟨l0 ++ l2 ++ l, tb, by rw [hl, hl2, hl0, List.append_assoc, List.append_assoc, List.append_assoc], List.mem_append_right _ hb⟩
  · exact ⟨l ++ l2 ++ l1, tb, by rw [hl1, hl2, hl, List.append_assoc, List.append_assoc, List.append_assoc], by simp [hb]⟩
/-! ### Not more often than asked for -/

/-- The times of two calls of the repeated action are more than `s` apart. -/
def Apart (s a : Nat) (e e' : Entry) : Prop := ∀ b1 t1 b2 t2, e = .body b1 a t1 → e' = .body b2 a t2 → t1 + s < t2

structure J (a g s : Nat) (q : Q) : Prop where
  rep : a ∈ q.repeating
  one : ∀ aid g' s' t x, .asked aid (.rep a g' s') t x ∈ q.hist → g' = g ∧ s' = s ∧ x = s
  uniq : ∀ aid aid' t t', Pending a g s q aid t → Pending a g s q aid' t' → aid = aid'
  after : ∀ aid t, Pending a g s q aid t → ∀ b tb, .body b a tb ∈ q.hist → tb ≤ t
  now : ∀ b tb, .body b a tb ∈ q.hist → tb ≤ q.now
  apart : q.hist.Pairwise (Apart s a)

theorem J.log {q q' : Q} (h : J a g s q) (hr : a ∈ q'.repeating) (hn : q.now ≤ q'.now) {e : Entry} (hh : q'.hist = q.hist ++ [e])
    (h1 : ∀ aid g' s' t y, e ≠ .asked aid (.rep a g' s') t y) (h2 : ∀ aid t, e ≠ .body aid a t) : J a g s q' := by
  have hw : ∀ aid t, Pending a g s q' aid t → Pending a g s q aid t := by
    intro aid t w
    unfold Pending at w
    rw [hh] at w
    rcases waiting_snoc.1 w with w | w
    · exact w.1
    · exact absurd w (h1 _ _ _ _ _)
  have hb : ∀ b tb, .body b a tb ∈ q'.hist → .body b a tb ∈ q.hist := by
    intro b tb hm
    rw [hh] at hm
    rcases List.mem_append.1 hm with hm | hm
    · exact hm
    · exact absurd (List.mem_singleton.1 hm).symm (h2 _ _)
  refine ⟨hr, ?_, ?_, ?_, ?_, ?_⟩
  · intro aid g' s' t x hm
    rw [hh] at hm
    rcases List.mem_append.1 hm with hm | hm
    · exact h.one _ _ _ _ _ hm
    · exact absurd (List.mem_singleton.1 hm).symm (h1 _ _ _ _ _)
  · intro x y t t' w w'; exact h.uniq _ _ _ _ (hw _ _ w) (hw _ _ w')
  · intro x t w b tb hm; exact h.after _ _ (hw _ _ w) b tb (hb _ _ hm)
  · intro b tb hm; exact Nat.le_trans (h.now b tb (hb _ _ hm)) hn
  · rw [hh, List.pairwise_append]
    refine ⟨h.apart, by simp, ?_⟩
    intro x _ y hy b1 t1 b2 t2 _ e2
    rw [List.mem_singleton.1 hy] at e2
    exact absurd e2 (h2 _ _)

theorem J.same {q q' : Q} (h : J a g s q) (hr : a ∈ q'.repeating) (hn : q.now ≤ q'.now) (hh : q'.hist = q.hist) : J a g s q' := by
  refine ⟨hr, by rw [hh]; exact h.one, ?_, ?_, ?_, by rw [hh]; exact h.apart⟩
  · unfold Pending; rw [hh]; exact h.uniq
  · unfold Pending; rw [hh]; exact h.after
  · rw [hh]; intro b tb hm; exact Nat.le_trans (h.now b tb hm) hn

theorem J.call {q : Q} (h : J a g s q) {c : Call} (hc : c ≠ .stop a) : J a g s (q.call c) := by
  rcases call_hist c h.rep with e | ⟨e, e1, -, -, -, e5, e6⟩
  · exact h.same (call_rep hc h.rep) (call_now ..) e
  · exact h.log (call_rep hc h.rep) (call_now ..) e1 e6 (fun x t => e5 x a t)

theorem J.calls {q : Q} (h : J a g s q) {cs : List Call} (hc : .stop a ∉ cs) : J a g s (cs.foldl Q.call q) := by
  induction cs generalizing q with
  | nil => exact h
  | cons c cs ih =>
    simp only [List.mem_cons, not_or] at hc
    exact ih (h.call (Ne.symm hc.1)) hc.2

/-- While the wrapper is not scheduled, calls of others do not schedule it. -/
theorem idle_calls {q : Q} (hr : a ∈ q.repeating) (h : ∀ aid t, ¬ Pending a g s q aid t) {cs : List Call} (hc : .stop a ∉ cs) :
    ∀ aid t, ¬ Pending a g s (cs.foldl Q.call q) aid t := by
  induction cs generalizing q with
  | nil => exact h
  | cons c cs ih =>
    simp only [List.mem_cons, not_or] at hc
    refine ih (call_rep (Ne.symm hc.1) hr) (fun aid t w => ?_) hc.2
    unfold Pending at w
    rcases call_hist c hr with e | ⟨e, e1, -, -, -, -, e6⟩
    · rw [e] at w; exact h _ _ w
    · rw [e1] at w
      rcases waiting_snoc.1 w with w | w
      · exact h _ _ w.1
      · exact absurd w (e6 _ _ _ _ _)

theorem J.step {q : Q} (hq : Inv q) (h : J a g s q) (hs0 : 0 < s) (e : Event) (hs : .stop a ∉ e.calls) : J a g s (q.step e) := by
  cases e with
  | call c =>
    simp only [Event.calls, List.mem_singleton] at hs
    exact h.call (Ne.symm hs)
  | look =>
    show J a g s q.look
    rw [look_same]
    exact h.same h.rep (Nat.le_refl _) rfl
  | pop d =>
    simp only [Event.calls] at hs
    show J a g s (q.pop d)
    rcases pop_cases q d with ⟨-, e⟩ | ⟨act, aid, rest, hqq, ⟨hm, e⟩ | ⟨hm, q1, e1, hh⟩⟩
    · rw [e]; exact h
    · rw [e]; exact h.same h.rep (Nat.le_refl _) rfl
    · have j1 : J a g s q1 := by
        rw [e1]
        exact h.log h.rep (Nat.le_refl _) rfl (by simp) (by simp)
      rcases hh with ⟨b, hb, e⟩ | ⟨b, g', s', hb, ⟨-, e⟩ | ⟨hr, e⟩⟩ <;> rw [e]
      · exact j1.calls hs
      · exact j1
      · by_cases hba : b = a
        · subst hba
          obtain ⟨t, x, w⟩ := (hq.live _ _).1 hm
          rw [hb] at w
          obtain ⟨rfl, rfl, hx⟩ := h.one _ _ _ _ _ w.mem
          subst x
          have hdue : t + s' < q.now := by
            obtain ⟨t2, s2, y1, y2⟩ := hq.queueOk (act, aid) (by rw [hqq]; exact List.mem_cons_self ..)
            rw [hb] at y1
            obtain ⟨-, rfl, rfl⟩ := asked_inj hq.uniq y1 w.mem
            rcases y2 with y2 | y2
            · omega
            · exact y2
          have hidle : ∀ aid' t', ¬ Pending b g' s' q1 aid' t' := by
            intro aid' t' w'
            rw [e1] at w'
            rcases waiting_snoc.1 w' with ⟨w', -, -, n⟩ | w'
            · have := h.uniq _ _ _ _ w w'
              subst this
              exact n q.now (by rw [hb])
            · simp at w'
          have hbody : ∀ c tb, .body c b tb ∈ q1.hist → tb + s' < q.now := by
            intro c tb hm
            rw [e1] at hm
            rcases List.mem_append.1 hm with hm | hm
            · have := h.after _ _ w _ _ hm; omega
            · simp at hm
          -- the action is called
          generalize hq2 : ({ q1 with hist := q1.hist ++ [.body aid b q.now] } : Q) = q2 at *
          have hh2 : q2.hist = q1.hist ++ [.body aid b q.now] := by rw [← hq2]
          have hn2 : q2.now = q.now := by rw [← hq2, e1]
          have idle2 : ∀ aid' t', ¬ Pending b g' s' q2 aid' t' := by
            intro aid' t' w'
            unfold Pending at w'
            rw [hh2] at w'
            rcases waiting_snoc.1 w' with ⟨w', -⟩ | w'
            · exact hidle _ _ w'
            · simp at w'
          have j2 : J b g' s' q2 := by
            refine ⟨by rw [← hq2]; exact j1.rep, ?_, fun _ _ _ _ w' => absurd w' (idle2 _ _), fun _ _ w' => absurd w' (idle2 _ _), ?_, ?_⟩
            · intro x1 x2 x3 x4 x5 hm
              rw [hh2] at hm
              rcases List.mem_append.1 hm with hm | hm
              · exact j1.one _ _ _ _ _ hm
              · simp at hm
            · intro c tb hm
              rw [hh2] at hm
              rw [hn2]
              rcases List.mem_append.1 hm with hm | hm
              · have := hbody _ _ hm; omega
              · simp at hm; omega
            · rw [hh2, List.pairwise_append]
              refine ⟨j1.apart, by simp, ?_⟩
              intro x hx y hy b1 t1 b2 t2 x1 y1
              rw [List.mem_singleton.1 hy] at y1
              cases y1
              subst x1
              exact hbody _ _ hx
          have j3 := j2.calls hs
          have idle3 := idle_calls j2.rep idle2 hs
          generalize d.foldl Q.call q2 = q3 at j3 idle3
          -- and scheduled again
          have hw : ∀ x t, Pending b g' s' (q3.schedule act s') x t → x = q3.aid + 1 ∧ t = q3.now := by
            intro x t w'
            unfold Pending at w'
            rw [hist_schedule] at w'
            rcases waiting_snoc.1 w' with ⟨w', -⟩ | w'
            · exact absurd w' (idle3 _ _)
            · simp only [Entry.asked.injEq] at w'
              exact ⟨w'.1.symm, w'.2.2.1.symm⟩
          have hbd : ∀ c tb, .body c b tb ∈ (q3.schedule act s').hist → .body c b tb ∈ q3.hist := by
            intro c tb hm
            rw [hist_schedule] at hm
            rcases List.mem_append.1 hm with hm | hm
            · exact hm
            · simp at hm
          refine ⟨by rw [(sched_same ..).1]; exact j3.rep, ?_, ?_, ?_, ?_, ?_⟩
          · intro x1 x2 x3 x4 x5 hm
            rw [hist_schedule] at hm
            rcases List.mem_append.1 hm with hm | hm
            · exact j3.one _ _ _ _ _ hm
            · rw [hb] at hm
              simp at hm
              exact ⟨hm.2.1.1, hm.2.1.2, hm.2.2.2⟩
          · intro x y t t' w1 w2; rw [(hw _ _ w1).1, (hw _ _ w2).1]
          · intro x t w1 c tb hm
            rw [(hw _ _ w1).2]
            exact j3.now _ _ (hbd _ _ hm)
          · intro c tb hm
            rw [(sched_same ..).2]
            exact j3.now _ _ (hbd _ _ hm)
          · rw [hist_schedule, List.pairwise_append]
            refine ⟨j3.apart, by simp, ?_⟩
            intro x _ y hy b1 t1 b2 t2 _ y1
            rw [List.mem_singleton.1 hy] at y1
            simp at y1
        · have j2 : J a g s ({ q1 with hist := q1.hist ++ [.body aid b q.now] } : Q) :=
            j1.log j1.rep (Nat.le_refl _) rfl (by simp) (fun x t e => by simp only [Entry.body.injEq] at e; exact hba e.2.1)
          refine (j2.calls hs).log (by rw [(sched_same ..).1]; exact (j2.calls hs).rep) (by rw [(sched_same ..).2]; exact Nat.le_refl _) (hist_schedule ..) ?_ (by simp)
          intro x1 x2 x3 x4 x5 e
          rw [hb] at e
          simp only [Entry.asked.injEq, Act.rep.injEq] at e
          exact hba e.2.1.1

/-- An action nobody made repeat. -/
structure Fresh (a : Nat) (q : Q) : Prop where
  rep : a ∉ q.repeating
  no : ∀ aid g s t x, .asked aid (.rep a g s) t x ∉ q.hist
  nb : ∀ b t, .body b a t ∉ q.hist

theorem Fresh.call {q : Q} (h : Fresh a q) {c : Call} (hc : ∀ x, c ≠ .start a x) : Fresh a (q.call c) := by
  have hlog : ∀ {q' : Q} {e : Entry}, a ∉ q'.repeating → q'.hist = q.hist ++ [e] → (∀ aid g s t x, e ≠ .asked aid (.rep a g s) t x) →
      (∀ b t, e ≠ .body b a t) → Fresh a q' := by
    intro q' e hr hh h1 h2
    refine ⟨hr, fun aid g s t x hm => ?_, fun b t hm => ?_⟩ <;> rw [hh] at hm <;> rcases List.mem_append.1 hm with hm | hm
    · exact h.no _ _ _ _ _ hm
    · exact h1 _ _ _ _ _ (List.mem_singleton.1 hm).symm
    · exact h.nb _ _ hm
    · exact h2 _ _ (List.mem_singleton.1 hm).symm
  cases c with
  | schedule b x => exact hlog (by show a ∉ (q.schedule _ _).repeating; rw [(sched_same ..).1]; exact h.rep) (hist_schedule ..) (by simp) (by simp)
  | cancel b =>
    refine hlog (e := .cancelAct (.plain b)) ?_ ?_ (by simp) (by simp)
    · show a ∉ (q.cancelAct _).repeating
      unfold Q.cancelAct; dsimp only; cases q.scheduled.get? (Act.plain b) <;> exact h.rep
    · show (q.cancelAct _).hist = _
      unfold Q.cancelAct; dsimp only; cases q.scheduled.get? (Act.plain b) <;> rfl
  | cancelAid b => exact hlog (q' := q.cancelAid b) h.rep rfl (by simp) (by simp)
  | start b x =>
    have hba : a ≠ b := by rintro rfl; exact hc x rfl
    show Fresh a (q.startRepeating b x)
    unfold Q.startRepeating
    split
    · exact h
    · refine hlog ?_ (hist_schedule ..) ?_ (by simp)
      · rw [(sched_same ..).1]
        simp only [List.mem_append, List.mem_singleton, not_or]
        exact ⟨h.rep, hba⟩
      · intro aid g s t y e
        simp only [Entry.asked.injEq, Act.rep.injEq] at e
        exact hba e.2.1.1.symm
  | stop b => exact ⟨fun hm => h.rep (List.mem_of_mem_erase hm), h.no, h.nb⟩
  | pass d => exact ⟨h.rep, h.no, h.nb⟩

theorem Fresh.calls {q : Q} (h : Fresh a q) {cs : List Call} (hc : ∀ x, .start a x ∉ cs) : Fresh a (cs.foldl Q.call q) := by
  induction cs generalizing q with
  | nil => exact h
  | cons c cs ih =>
    simp only [List.mem_cons, not_or] at hc
    exact ih (h.call (fun x => Ne.symm (hc x).1)) (fun x => (hc x).2)

theorem Fresh.step {q : Q} (h : Fresh a q) {e : Event} (hc : ∀ x, .start a x ∉ e.calls) : Fresh a (q.step e) := by
  cases e with
  | call c =>
    simp only [Event.calls, List.mem_singleton] at hc
    exact h.call (fun x => Ne.symm (hc x))
  | look =>
    show Fresh a q.look
    rw [look_same]
    exact ⟨h.rep, h.no, h.nb⟩
  | pop d =>
    simp only [Event.calls] at hc
    show Fresh a (q.pop d)
    have hlog : ∀ {q q' : Q}, Fresh a q → a ∉ q'.repeating → ∀ {e : Entry}, q'.hist = q.hist ++ [e] → (∀ aid g s t x, e ≠ .asked aid (.rep a g s) t x) →
        (∀ b t, e ≠ .body b a t) → Fresh a q' := by
      intro q q' h hr e hh h1 h2
      refine ⟨hr, fun aid g s t x hm => ?_, fun b t hm => ?_⟩ <;> rw [hh] at hm <;> rcases List.mem_append.1 hm with hm | hm
      · exact h.no _ _ _ _ _ hm
      · exact h1 _ _ _ _ _ (List.mem_singleton.1 hm).symm
      · exact h.nb _ _ hm
      · exact h2 _ _ (List.mem_singleton.1 hm).symm
    rcases pop_cases q d with ⟨-, e⟩ | ⟨act, aid, rest, hqq, ⟨hm, e⟩ | ⟨hm, q1, e1, hh⟩⟩
    · rw [e]; exact h
    · rw [e]; exact ⟨h.rep, h.no, h.nb⟩
    · have f1 : Fresh a q1 := hlog (e := .ran aid act q.now) h (by rw [e1]; exact h.rep) (by rw [e1]) (by simp) (by simp)
      rcases hh with ⟨b, hb, e⟩ | ⟨b, g', s', hb, ⟨-, e⟩ | ⟨hr, e⟩⟩ <;> rw [e]
      · exact f1.calls hc
      · exact f1
      · have hba : b ≠ a := by rintro rfl; exact h.rep hr
        have f2 : Fresh a ({ q1 with hist := q1.hist ++ [.body aid b q.now] } : Q) :=
          hlog (e := .body aid b q.now) f1 f1.rep rfl (by simp) (fun x t e => by simp only [Entry.body.injEq] at e; exact hba e.2.1)
        refine hlog (f2.calls hc) (by rw [(sched_same ..).1]; exact (f2.calls hc).rep) (hist_schedule ..) ?_ (by simp)
        intro x1 x2 x3 x4 x5 e
        rw [hb] at e
        simp only [Entry.asked.injEq, Act.rep.injEq] at e
        exact hba e.2.1.1

theorem fresh_run {evs : List Event} (h : ∀ e ∈ evs, ∀ x, .start a x ∉ e.calls) : Fresh a (run evs) := by
  have : ∀ q, Fresh a q → Fresh a (evs.foldl Q.step q) := by
    induction evs with
    | nil => exact fun q h => h
    | cons e evs ih =>
      exact fun q hf => ih (fun x hx => h x (List.mem_cons_of_mem _ hx)) _ (hf.step (h e (List.mem_cons_self ..)))
  exact this _ ⟨by simp, by simp, by simp⟩

/-- A new start of a repetition. -/
theorem started {q : Q} (h : a ∉ q.repeating) :
    a ∈ (q.call (.start a s)).repeating ∧ Pending a q.gens s (q.call (.start a s)) (q.aid + 1) q.now ∧
      (q.call (.start a s)).hist = q.hist ++ [.asked (q.aid + 1) (.rep a q.gens s) q.now s] ∧ (q.call (.start a s)).gens = q.gens + 1 ∧
      (q.call (.start a s)).now = q.now := by
  have e : q.call (.start a s) = Q.schedule { q with repeating := q.repeating ++ [a], gens := q.gens + 1 } (.rep a q.gens s) s := by
    show q.startRepeating a s = _
    unfold Q.startRepeating
    rw [if_neg h]
  rw [e]
  refine ⟨by rw [(sched_same ..).1]; simp, ?_, hist_schedule .., ?_, (sched_same ..).2⟩
  · unfold Pending; rw [hist_schedule]; exact waiting_snoc.2 (.inr rfl)
  · unfold Q.schedule; dsimp only; split <;> rfl

theorem J.start {q : Q} (h : Fresh a q) : J a q.gens s (q.call (.start a s)) := by
  obtain ⟨h1, h2, h3, -, -⟩ := started (s := s) h.rep
  refine ⟨h1, ?_, ?_, ?_, ?_, ?_⟩
  · intro x1 x2 x3 x4 x5 hm
    rw [h3] at hm
    rcases List.mem_append.1 hm with hm | hm
    · exact absurd hm (h.no _ _ _ _ _)
    · simp at hm; exact ⟨hm.2.1.1, hm.2.1.2, hm.2.2.2⟩
  · have hw : ∀ x t, Pending a q.gens s (q.call (.start a s)) x t → x = q.aid + 1 := by
      intro x t w
      have := w.mem
      rw [h3] at this
      rcases List.mem_append.1 this with hm | hm
      · exact absurd hm (h.no _ _ _ _ _)
      · simp at hm; exact hm.1
    intro x y t t' w w'; rw [hw _ _ w, hw _ _ w']
  all_goals first
    | (rw [h3, List.pairwise_append]
       refine ⟨?_, by simp, ?_⟩
       · refine List.Pairwise.imp_of_mem ?_ (List.pairwise_of_forall (R := fun _ _ => True) (fun _ _ => trivial))
         intro x y hx hy _ b1 t1 b2 t2 x1 y1
         rw [x1] at hx
         exact absurd hx (h.nb _ _)
       · intro x hx y hy b1 t1 b2 t2 x1 y1
         rw [x1] at hx
         exact absurd hx (h.nb _ _))
    | (intros
       rename_i hm
       rw [h3] at hm
       rcases List.mem_append.1 hm with hm | hm
       · exact absurd hm (h.nb _ _)
       · simp at hm)

end Verif.AQ

namespace Verif.AQ

variable {a g s : Nat}

/-- What a call adds to the record if `a` does not repeat and is not started. -/
theorem quiet_call {q : Q} {c : Call} (h : a ∉ q.repeating) (hc : ∀ x, c ≠ .start a x) :
    a ∉ (q.call c).repeating ∧ ∀ l, (q.call c).hist = q.hist ++ l → ∀ b t, .body b a t ∉ l := by
  have hlog : ∀ {e : Entry}, (q.call c).hist = q.hist ++ [e] → (∀ b t, e ≠ .body b a t) → ∀ l, (q.call c).hist = q.hist ++ l → ∀ b t, .body b a t ∉ l := by
    intro e he hb l hl b t hm
    rw [he] at hl
    have := List.append_cancel_left hl
    rw [← this] at hm
    exact hb _ _ (List.mem_singleton.1 hm).symm
  have hsame : (q.call c).hist = q.hist → ∀ l, (q.call c).hist = q.hist ++ l → ∀ b t, .body b a t ∉ l := by
    intro he l hl b t hm
    rw [he] at hl
    have : l = [] := by simpa using hl
    rw [this] at hm; simp at hm
  cases c with
  | schedule b x => exact ⟨by show a ∉ (q.schedule _ _).repeating; rw [(sched_same ..).1]; exact h, hlog (hist_schedule ..) (by simp)⟩
  | cancel b =>
    refine ⟨?_, hlog (e := .cancelAct (.plain b)) ?_ (by simp)⟩
    · show a ∉ (q.cancelAct _).repeating
      unfold Q.cancelAct; dsimp only; cases q.scheduled.get? (Act.plain b) <;> exact h
    · show (q.cancelAct _).hist = _
      unfold Q.cancelAct; dsimp only; cases q.scheduled.get? (Act.plain b) <;> rfl
  | cancelAid b => exact ⟨h, hlog (e := .cancelAid b) rfl (by simp)⟩
  | start b x =>
    have hba : a ≠ b := by rintro rfl; exact hc x rfl
    by_cases hb : b ∈ q.repeating
    · have e : q.call (.start b x) = q := by show q.startRepeating b x = q; unfold Q.startRepeating; rw [if_pos hb]
      exact ⟨by rw [e]; exact h, hsame (by rw [e])⟩
    · have e : q.call (.start b x) = Q.schedule { q with repeating := q.repeating ++ [b], gens := q.gens + 1 } (.rep b q.gens x) x := by
        show q.startRepeating b x = _; unfold Q.startRepeating; rw [if_neg hb]
      refine ⟨?_, hlog (by rw [e]; exact hist_schedule ..) (by simp)⟩
      rw [e, (sched_same ..).1]
      simp only [List.mem_append, List.mem_singleton, not_or]
      exact ⟨h, hba⟩
  | stop b => exact ⟨fun hm => h (List.mem_of_mem_erase hm), hsame rfl⟩
  | pass d => exact ⟨h, hsame rfl⟩

theorem quiet_calls {cs : List Call} : ∀ {q : Q}, a ∉ q.repeating → (∀ x, .start a x ∉ cs) →
    a ∉ (cs.foldl Q.call q).repeating ∧ ∀ l, (cs.foldl Q.call q).hist = q.hist ++ l → ∀ b t, .body b a t ∉ l := by
  induction cs with
  | nil =>
    intro q h _
    refine ⟨h, fun l hl b t hm => ?_⟩
    have : l = [] := by simpa using hl
    rw [this] at hm; simp at hm
  | cons c cs ih =>
    intro q h hc
    simp only [List.mem_cons, not_or] at hc
    obtain ⟨h1, h2⟩ := quiet_call h (fun x => Ne.symm (hc x).1)
    obtain ⟨h3, h4⟩ := ih h1 (fun x => (hc x).2)
    refine ⟨h3, fun l hl b t hm => ?_⟩
    obtain ⟨l1, e1⟩ := hist_call q c
    obtain ⟨l2, e2⟩ := hist_calls (q.call c) cs
    rw [List.foldl_cons, e2, e1, List.append_assoc] at hl
    rw [← List.append_cancel_left hl] at hm
    rcases List.mem_append.1 hm with hm | hm
    · exact h2 l1 e1 b t hm
    · exact h4 l2 e2 b t hm

theorem quiet_step {q : Q} {e : Event} (h : a ∉ q.repeating) (hc : ∀ x, .start a x ∉ e.calls) :
    a ∉ (q.step e).repeating ∧ ∀ l, (q.step e).hist = q.hist ++ l → ∀ b t, .body b a t ∉ l := by
  cases e with
  | call c =>
    simp only [Event.calls, List.mem_singleton] at hc
    exact quiet_call h (fun x => Ne.symm (hc x))
  | look =>
    show a ∉ q.look.repeating ∧ ∀ l, q.look.hist = _ → _
    rw [look_same]
    refine ⟨h, fun l hl b t hm => ?_⟩
    have : l = [] := by simpa using hl
    rw [this] at hm; simp at hm
  | pop d =>
    simp only [Event.calls] at hc
    show a ∉ (q.pop d).repeating ∧ ∀ l, (q.pop d).hist = _ → _
    rcases pop_cases q d with ⟨-, e⟩ | ⟨act, aid, rest, hqq, ⟨hm, e⟩ | ⟨hm, q1, e1, hh⟩⟩
    · rw [e]
      refine ⟨h, fun l hl b t hm => ?_⟩
      have : l = [] := by simpa using hl
      rw [this] at hm; simp at hm
    · rw [e]
      refine ⟨h, fun l hl b t hm => ?_⟩
      have : l = [] := by simpa using hl
      rw [this] at hm; simp at hm
    · have r1 : a ∉ q1.repeating := by rw [e1]; exact h
      have k1 : q1.hist = q.hist ++ [.ran aid act q.now] := by rw [e1]
      rcases hh with ⟨b, hb, e⟩ | ⟨b, g', s', hb, ⟨-, e⟩ | ⟨hr, e⟩⟩ <;> rw [e]
      · obtain ⟨l1, e2⟩ := hist_calls q1 d
        obtain ⟨h3, h4⟩ := quiet_calls (cs := d) r1 hc
        refine ⟨h3, fun l hl b t hm => ?_⟩
        rw [e2, k1, List.append_assoc] at hl
        rw [← List.append_cancel_left hl] at hm
        rcases List.mem_append.1 hm with hm | hm
        · simp at hm
        · exact h4 l1 e2 b t hm
      · refine ⟨r1, fun l hl b t hm => ?_⟩
        rw [k1] at hl
        rw [← List.append_cancel_left hl] at hm
        simp at hm
      · have hba : b ≠ a := by rintro rfl; exact h hr
        obtain ⟨l1, e2⟩ := hist_calls ({ q1 with hist := q1.hist ++ [.body aid b q.now] } : Q) d
        obtain ⟨h3, h4⟩ := quiet_calls (q := ({ q1 with hist := q1.hist ++ [.body aid b q.now] } : Q)) (cs := d) r1 hc
        refine ⟨by rw [(sched_same ..).1]; exact h3, fun l hl c t hm => ?_⟩
        rw [hist_schedule, e2, k1] at hl
        simp only [List.append_assoc] at hl
        rw [← List.append_cancel_left hl] at hm
        simp only [List.mem_append, List.mem_cons, List.not_mem_nil, or_false, reduceCtorEq, false_or, Entry.body.injEq] at hm
        rcases hm with hm | hm
        · exact hba hm.2.1.symm
        · exact h4 l1 e2 c t hm

theorem quiet_run {evs : List Event} : ∀ {q : Q}, a ∉ q.repeating → (∀ e ∈ evs, ∀ x, .start a x ∉ e.calls) →
    ∀ l, (evs.foldl Q.step q).hist = q.hist ++ l → ∀ b t, .body b a t ∉ l := by
  induction evs with
  | nil =>
    intro q h _ l hl b t hm
    have : l = [] := by simpa using hl
    rw [this] at hm; simp at hm
  | cons e evs ih =>
    intro q h hc l hl b t hm
    obtain ⟨h1, h2⟩ := quiet_step h (hc e (List.mem_cons_self ..))
    obtain ⟨l1, e1⟩ := hist_step q e
    obtain ⟨l2, e2⟩ := hist_foldl (q.step e) evs
    rw [List.foldl_cons, e2, e1, List.append_assoc] at hl
    rw [← List.append_cancel_left hl] at hm
    rcases List.mem_append.1 hm with hm | hm
    · exact h2 l1 e1 b t hm
    · exact ih h1 (fun x hx => hc x (List.mem_cons_of_mem _ hx)) l2 e2 b t hm

/-! ### Wrappers are numbered -/

theorem gens_call (q : Q) (c : Call) : q.gens ≤ (q.call c).gens := by
  have hs : ∀ (q : Q) act x, (q.schedule act x).gens = q.gens := by
    intro q act x; unfold Q.schedule; dsimp only; split <;> rfl
  cases c with
  | schedule b x => exact Nat.le_of_eq (hs ..).symm
  | cancel b => show _ ≤ (q.cancelAct _).gens; unfold Q.cancelAct; dsimp only; cases q.scheduled.get? (Act.plain b) <;> exact Nat.le_refl _
  | cancelAid b => exact Nat.le_refl _
  | start b x =>
    show _ ≤ (q.startRepeating b x).gens
    unfold Q.startRepeating
    split
    · exact Nat.le_refl _
    · rw [hs]; exact Nat.le_succ _
  | stop b => exact Nat.le_refl _
  | pass d => exact Nat.le_refl _

theorem gens_calls (q : Q) (cs : List Call) : q.gens ≤ (cs.foldl Q.call q).gens := by
  induction cs generalizing q with
  | nil => exact Nat.le_refl _
  | cons c cs ih => exact Nat.le_trans (gens_call q c) (ih _)

theorem gens_foldl (q : Q) (evs : List Event) : q.gens ≤ (evs.foldl Q.step q).gens := by
  induction evs generalizing q with
  | nil => exact Nat.le_refl _
  | cons e evs ih =>
    refine Nat.le_trans ?_ (ih (q.step e))
    cases e with
    | call c => exact gens_call q c
    | look => show _ ≤ q.look.gens; rw [look_same]; exact Nat.le_refl _
    | pop d =>
      show _ ≤ (q.pop d).gens
      rcases pop_cases q d with ⟨-, e⟩ | ⟨act, aid, rest, hqq, ⟨hm, e⟩ | ⟨hm, q1, e1, ⟨b, -, e⟩ | ⟨b, g, s, -, ⟨-, e⟩ | ⟨-, e⟩⟩⟩⟩ <;> rw [e]
      · exact Nat.le_refl _
      · exact Nat.le_refl _
      · have := gens_calls q1 d; rw [e1] at this ⊢; exact this
      · rw [e1]; exact Nat.le_refl _
      · have hs : ∀ (q : Q) act x, (q.schedule act x).gens = q.gens := by
          intro q act x; unfold Q.schedule; dsimp only; split <;> rfl
        rw [hs]
        have := gens_calls ({ q1 with hist := q1.hist ++ [.body aid b q.now] } : Q) d
        rw [e1] at this ⊢; exact this

/-! ### The set of repeating actions -/

theorem set_call {q : Q} (h : q.repeating.Nodup) (c : Call) : (q.call c).repeating.Nodup := by
  cases c with
  | schedule b x => show (q.schedule _ _).repeating.Nodup; rw [(sched_same ..).1]; exact h
  | cancel b => show (q.cancelAct _).repeating.Nodup; unfold Q.cancelAct; dsimp only; cases q.scheduled.get? (Act.plain b) <;> exact h
  | cancelAid b => exact h
  | start b x =>
    show (q.startRepeating b x).repeating.Nodup
    unfold Q.startRepeating
    split
    · exact h
    · next hb =>
      rw [(sched_same ..).1, List.nodup_append]
      exact ⟨h, by simp, fun x hx y hy e => hb (by rw [← List.mem_singleton.1 hy, ← e]; exact hx)⟩
  | stop b => exact h.erase _
  | pass d => exact h

theorem set_calls {cs : List Call} : ∀ {q : Q}, q.repeating.Nodup → (cs.foldl Q.call q).repeating.Nodup := by
  induction cs with
  | nil => exact fun h => h
  | cons c cs ih => exact fun h => ih (set_call h c)

theorem set_run (evs : List Event) : (run evs).repeating.Nodup := by
  have : ∀ q : Q, q.repeating.Nodup → (evs.foldl Q.step q).repeating.Nodup := by
    induction evs with
    | nil => exact fun q h => h
    | cons e evs ih =>
      intro q h
      refine ih _ ?_
      cases e with
      | call c => exact set_call h c
      | look => show q.look.repeating.Nodup; rw [look_same]; exact h
      | pop d =>
        show (q.pop d).repeating.Nodup
        rcases pop_cases q d with ⟨-, e⟩ | ⟨act, aid, rest, hqq, ⟨hm, e⟩ | ⟨hm, q1, e1, ⟨b, -, e⟩ | ⟨b, g, s, -, ⟨-, e⟩ | ⟨-, e⟩⟩⟩⟩ <;> rw [e]
        · exact h
        · exact h
        · exact set_calls (by rw [e1]; exact h)
        · rw [e1]; exact h
        · rw [(sched_same ..).1]; exact set_calls (by rw [e1]; exact h)
  exact this _ (by simp)

end Verif.AQ
