import Verif.Proofs.Waiting
/-!
# C102: a PRE-PREPARE that comes early is kept, and handled when its turn comes
-/
namespace Verif.Props
open Verif.Waiting

/-! ## The queues -/

/-- In every history: a replica never meets a waiting PRE-PREPARE of another view than its own, so none is thrown away
as one of a previous view, and the exception for one of a later view is never raised. -/
theorem C102_current (es : List Ev) : (run init es).failed = false ∧
    ∀ p frm, Waits (run init es) p frm → p.view = (run init es).viewNo := by
  have h := inv_init.run es
  refine ⟨h.up, ?_⟩
  rintro p frm (⟨m, hm⟩ | hp)
  · exact (h.fin _ hm).1
  · exact (h.prev _ (Dict.mem_of_get? hp)).2.1

theorem wt_service {s : State} (h : Inv s) (env : Env) : step s (.service env) = dequeue s env := by
  simp [step, h.up]

theorem wt_recv {s : State} (h : Inv s) (p : PP) (frm : Nat) (env : Env) : step s (.recv p frm env) = receive s env p frm := by
  simp [step, h.up]

/-- In every history, when the queues have been serviced: what is left of the second queue begins with a PRE-PREPARE that is
neither ordered nor the next. -/
theorem C102_serviced (es : List Ev) (env : Env) :
    let s := run init (es ++ [.service env])
    s.pendPrev = [] ∨ ∃ p frm, s.pendPrev.get? p.key = some (p, frm) ∧
      (∀ q frm', s.pendPrev.get? q.key = some (q, frm') → p.seq ≤ q.seq) ∧
      s.lastOrdered.2 < p.seq ∧ p.seq ≠ (lastPp s).2 + 1 := by
  have h := inv_init.run es
  have hs : run init (es ++ [.service env]) = dequeue (run init es) env := by
    simp only [run, List.foldl_append, List.foldl_cons, List.foldl_nil]
    exact wt_service h env
  dsimp only
  rw [hs]
  have h' := h.dequeue env
  rcases loop_end h.ready env _ (Nat.le_refl _) with e | ⟨k, p, frm, hl, hc⟩
  · exact Or.inl e
  · right
    obtain ⟨hm, hmin⟩ := lowest_some hl
    obtain ⟨hk, hv, h0⟩ := h'.prev _ hm
    simp only at hk hv h0
    subst hk
    refine ⟨p, frm, Dict.get?_of_mem h'.nodup hm, ?_, ?_, ?_⟩
    · intro q frm' hq
      have hq := Dict.mem_of_get? hq
      have h1 := Bool.eq_false_iff.1 (hmin _ hq)
      have h2 := (h'.prev _ hq).2.1
      rw [Ne, keyLt_iff] at h1
      simp only [PP.key] at h1 h2
      omega
    · simp only [canDequeue, Bool.or_eq_false_iff] at hc
      have := Bool.eq_false_iff.1 hc.2
      rw [Ne, notAfter_iff] at this
      simp only [PP.key] at this
      show (loop env _ (ready (run init es))).lastOrdered.2 < p.seq
      omega
    · simp only [canDequeue, isNext, Bool.or_eq_false_iff, decide_eq_false_iff_not] at hc
      exact hc.1.2

/-! ## Where PRE-PREPAREs come from -/

/-- All that is kept, given or accepted has a property. -/
structure WtFrom (K : PP → Nat → Prop) (s : State) : Prop where
  fin : ∀ e ∈ s.pendFin, K e.pp e.frm
  prev : ∀ e ∈ s.pendPrev, K e.2.1 e.2.2
  given : ∀ x ∈ s.given, K x.1 x.2
  took : ∀ t ∈ s.took, (∃ frm, K t.pp frm) ∧ (t.ordered.2 < t.pp.seq →
    t.pp.seq = t.last.2 + 1 ∨ (t.pp.seq = 1 ∧ t.last.2 ≤ 1))

theorem wt_from_receive {K : PP → Nat → Prop} {s : State} (h : WtFrom K s) (env : Env) (p : PP) (frm : Nat) (hp : K p frm) :
    WtFrom K (receive s env p frm) := by
  rcases receive_cases s env p frm with e | ⟨e, _, _, hc⟩ | ⟨e, _⟩ | ⟨e, _⟩ <;> rw [e]
  · exact h
  · refine ⟨h.fin, h.prev, h.given, ?_⟩
    intro t ht
    rcases List.mem_append.1 ht with ht | ht
    · exact h.took t ht
    · simp only [List.mem_singleton] at ht
      subst ht
      refine ⟨⟨frm, hp⟩, ?_⟩
      intro ho
      simp only at ho ⊢
      rcases hc with hc | ⟨_, hn, hl, _⟩
      · omega
      · rw [isNext_iff] at hn
        simp only [PP.key] at hn
        rcases hn with hn | hn
        · right; omega
        · exact Or.inl hn
  · refine ⟨?_, h.prev, h.given, h.took⟩
    intro x hx
    rcases List.mem_append.1 hx with hx | hx
    · exact h.fin x hx
    · simp only [List.mem_singleton] at hx
      subst hx
      exact hp
  · refine ⟨h.fin, ?_, h.given, h.took⟩
    intro x hx
    rcases mem_set_or hx with rfl | hx
    · exact hp
    · exact h.prev x hx

theorem wt_from_ready {K : PP → Nat → Prop} {s : State} (h : WtFrom K s) : WtFrom K (ready s) := by
  rw [ready_eq]
  have ht : ∀ e ∈ s.pendFin.map (trim s), K e.pp e.frm := by
    intro e he
    obtain ⟨x, hx, rfl⟩ := List.mem_map.1 he
    exact h.fin x hx
  refine ⟨fun e he => ht e (List.mem_filter.1 he).1, ?_, h.given, h.took⟩
  intro x hx
  rcases putAll_mem _ _ x hx with hx | ⟨e, he, rfl⟩
  · exact h.prev x hx
  · exact ht e (List.mem_filter.1 (List.mem_reverse.1 he)).1

theorem wt_from_dequeue {K : PP → Nat → Prop} {s : State} (hi : Inv s) (h : WtFrom K s) (env : Env) : WtFrom K (dequeue s env) := by
  refine loop_ind (fun _ s s' => WtFrom K s → WtFrom K s') env (fun _ _ h => h) (fun _ _ _ _ h => h) ?_ _ _ hi.ready (wt_from_ready h)
  intro n s k p frm s' _ hl _ _ ih h
  have hp : K p frm := h.prev _ (lowest_some hl).1
  apply ih
  apply wt_from_receive _ env p frm hp
  refine ⟨h.fin, fun e he => h.prev e (List.mem_filter.1 he).1, ?_, h.took⟩
  intro x hx
  rcases List.mem_append.1 hx with hx | hx
  · exact h.given x hx
  · simp only [List.mem_singleton] at hx
    subst hx
    exact hp

theorem wt_from_step {K : PP → Nat → Prop} {s : State} (hi : Inv s) (h : WtFrom K s) (e : Ev)
    (he : ∀ p frm env, e = .recv p frm env → K p frm) : WtFrom K (step s e) := by
  cases e with
  | recv p frm env => rw [wt_recv hi]; exact wt_from_receive h env p frm (he p frm env rfl)
  | service env => rw [wt_service hi]; exact wt_from_dequeue hi h env
  | learn r => simp only [step]; split <;> exact ⟨h.fin, h.prev, h.given, h.took⟩
  | finalise r => simp only [step]; split <;> exact ⟨h.fin, h.prev, h.given, h.took⟩
  | free r => exact ⟨h.fin, h.prev, h.given, h.took⟩
  | ordered k => exact ⟨h.fin, h.prev, h.given, h.took⟩
  | gc n => exact ⟨h.fin, h.prev, h.given, h.took⟩
  | viewChange v => exact ⟨by simp [step, clearAll], by simp [step, clearAll], h.given, h.took⟩
  | newView c => exact ⟨h.fin, h.prev, h.given, h.took⟩
  | caughtUp v k =>
    simp only [step]
    split <;> exact ⟨fun e he => h.fin e (List.mem_filter.1 he).1, fun e he => h.prev e (List.mem_filter.1 he).1, h.given, h.took⟩

theorem wt_from_run (es : List Ev) : WtFrom (Came es) (run init es) := by
  have gen : ∀ (es : List Ev) (s : State) (K : PP → Nat → Prop), Inv s → WtFrom K s →
      (∀ p frm env, Ev.recv p frm env ∈ es → K p frm) → WtFrom K (run s es) := by
    intro es
    induction es with
    | nil => intro s K _ h _; exact h
    | cons e es ih =>
      intro s K hi h hk
      refine ih _ K (hi.step e) (wt_from_step hi h e ?_) ?_
      · intro p frm env he; exact hk p frm env (by simp [he])
      · intro p frm env he; exact hk p frm env (List.mem_cons_of_mem _ he)
  refine gen es init _ inv_init ?_ (fun p frm env he => ⟨env, he⟩)
  refine ⟨?_, ?_, ?_, ?_⟩ <;> simp [init]

/-- In every history: what waits, and what is given to the replica again, came from the network, from the same sender. -/
theorem C102_came (es : List Ev) (p : PP) (frm : Nat)
    (h : Waits (run init es) p frm ∨ (p, frm) ∈ (run init es).given) : Came es p frm := by
  have hf := wt_from_run es
  rcases h with (⟨m, hm⟩ | hp) | hg
  · exact hf.fin _ hm
  · exact hf.prev _ (Dict.mem_of_get? hp)
  · exact hf.given _ hg

/-- In every history: an accepted PRE-PREPARE came from the network, and if it was not ordered before then its number follows that
of the last one. The first of all is accepted after one with number one, too. -/
theorem C102_consecutive (es : List Ev) (t : Took) (h : t ∈ (run init es).took) :
    (∃ frm, Came es t.pp frm) ∧ (t.ordered.2 < t.pp.seq → t.pp.seq = t.last.2 + 1 ∨ (t.pp.seq = 1 ∧ t.last.2 ≤ 1)) :=
  (wt_from_run es).took t h

/-! ## Nothing is lost -/

theorem wt_alone {s : State} (hi : Inv s) (p : PP) (frm : Nat) : Alone s p frm ↔
    (∀ e ∈ s.pendFin, e.pp.key = p.key → e.pp = p ∧ e.frm = frm) ∧ (∀ v, s.pendPrev.get? p.key = some v → v = (p, frm)) := by
  constructor
  · intro h
    refine ⟨fun e he hk => h e.pp e.frm (Or.inl ⟨e.missing, he⟩) hk, ?_⟩
    intro v hv
    obtain ⟨hk, _⟩ := hi.prev _ (Dict.mem_of_get? hv)
    simp only at hk
    obtain ⟨h1, h2⟩ := h v.1 v.2 (Or.inr (by rw [← hk]; exact hv)) hk.symm
    rw [← h1, ← h2]
  · rintro ⟨h1, h2⟩ p' frm' (⟨m, hm⟩ | hp) hk
    · exact h1 _ hm hk
    · rw [hk] at hp
      have := h2 _ hp
      simp only [Prod.mk.injEq] at this
      exact this

/-- `p` waits or has been given, and nothing else waits with its key. -/
structure WtKept (b : Nat) (p : PP) (frm : Nat) (s : State) : Prop where
  alone : Alone s p frm
  here : Waits s p frm ∨ (p, frm) ∈ s.given.drop b
  len : b ≤ s.given.length

theorem wt_kept_receive {b : Nat} {p : PP} {frm : Nat} {s : State} (hi : Inv s) (h : WtKept b p frm s) (env : Env) (q : PP) (f : Nat)
    (hq : q.key = p.key → q = p ∧ f = frm) : WtKept b p frm (receive s env q f) := by
  have hi' := hi.receive env q f
  have ha := (wt_alone hi p frm).1 h.alone
  rcases receive_cases s env q f with e | ⟨e, _⟩ | ⟨e, _⟩ | ⟨e, _⟩ <;> rw [e] at hi' ⊢
  · exact h
  · exact ⟨(wt_alone hi' p frm).2 ha, h.here, h.len⟩
  · refine ⟨(wt_alone hi' p frm).2 ⟨?_, ha.2⟩, ?_, h.len⟩
    · intro x hx hk
      rcases List.mem_append.1 hx with hx | hx
      · exact ha.1 x hx hk
      · simp only [List.mem_singleton] at hx
        subst hx
        exact hq hk
    · rcases h.here with (⟨m, hm⟩ | hp) | hg
      · exact Or.inl (Or.inl ⟨m, List.mem_append_left _ hm⟩)
      · exact Or.inl (Or.inr hp)
      · exact Or.inr hg
  · refine ⟨(wt_alone hi' p frm).2 ⟨ha.1, ?_⟩, ?_, h.len⟩
    · intro v hv
      simp only [Dict.get?_set] at hv
      split at hv
      · rename_i hk
        obtain ⟨rfl, rfl⟩ := hq hk
        simpa using hv.symm
      · exact ha.2 v hv
    · rcases h.here with (⟨m, hm⟩ | hp) | hg
      · exact Or.inl (Or.inl ⟨m, hm⟩)
      · refine Or.inl (Or.inr ?_)
        simp only [Dict.get?_set]
        split
        · rename_i hk
          obtain ⟨rfl, rfl⟩ := hq hk
          rfl
        · exact hp
      · exact Or.inr hg

theorem wt_kept_ready {b : Nat} {p : PP} {frm : Nat} {s : State} (hi : Inv s) (h : WtKept b p frm s) : WtKept b p frm (ready s) := by
  have ha := (wt_alone hi p frm).1 h.alone
  have hi' := hi.ready
  rw [ready_eq] at hi' ⊢
  have hl : ∀ e ∈ ((s.pendFin.map (trim s)).filter (fun e => decide (e.missing = []))).reverse, e.pp.key = p.key → (e.pp, e.frm) = (p, frm) := by
    intro e he hk
    obtain ⟨x, hx, rfl⟩ := List.mem_map.1 (List.mem_filter.1 (List.mem_reverse.1 he)).1
    obtain ⟨h1, h2⟩ := ha.1 x hx hk
    simp only [trim, h1, h2]
  refine ⟨(wt_alone hi' p frm).2 ⟨?_, ?_⟩, ?_, h.len⟩
  · intro e he hk
    obtain ⟨x, hx, rfl⟩ := List.mem_map.1 (List.mem_filter.1 he).1
    exact ha.1 x hx hk
  · intro v hv
    rcases putAll_mem _ _ _ (Dict.mem_of_get? hv) with hm | ⟨e, he, hx⟩
    · exact ha.2 v (Dict.get?_of_mem hi.nodup hm)
    · simp only [Prod.mk.injEq] at hx
      rw [hx.2]
      exact hl e he hx.1.symm
  · rcases h.here with (⟨m, hm⟩ | hp) | hg
    · left
      have ht : trim s ⟨p, frm, m⟩ ∈ s.pendFin.map (trim s) := List.mem_map.2 ⟨_, hm, rfl⟩
      by_cases c : (trim s ⟨p, frm, m⟩).missing = []
      · right
        refine putAll_get _ _ _ hl _ (Or.inr ⟨trim s ⟨p, frm, m⟩, ?_, rfl⟩)
        exact List.mem_reverse.2 (List.mem_filter.2 ⟨ht, decide_eq_true c⟩)
      · left
        exact ⟨_, List.mem_filter.2 ⟨ht, decide_eq_true c⟩⟩
    · exact Or.inl (Or.inr (putAll_get _ _ _ hl _ (Or.inl hp)))
    · exact Or.inr hg

theorem wt_kept_dequeue {b : Nat} {p : PP} {frm : Nat} {s : State} (hi : Inv s) (h : WtKept b p frm s) (env : Env) :
    WtKept b p frm (dequeue s env) := by
  refine loop_ind (fun _ s s' => WtKept b p frm s → WtKept b p frm s') env (fun _ _ h => h) (fun _ _ _ _ h => h) ?_ _ _ hi.ready
    (wt_kept_ready hi h)
  intro n s k q f s' hi hl _ hk ih h
  have ha := (wt_alone hi p frm).1 h.alone
  have hm := Dict.get?_of_mem hi.nodup (lowest_some hl).1
  have hi' := hi.popped k q f
  have hq : q.key = p.key → q = p ∧ f = frm := by
    intro e
    rw [← hk, e] at hm
    have := ha.2 _ hm
    simp only [Prod.mk.injEq] at this
    exact this
  apply ih
  refine wt_kept_receive hi' ?_ env q f hq
  have hlen := h.len
  refine ⟨(wt_alone hi' p frm).2 ⟨ha.1, ?_⟩, ?_, by simp [popped]; omega⟩
  · intro v hv
    simp only [popped, Dict.get?_erase] at hv
    split at hv
    · exact absurd hv (by simp)
    · exact ha.2 v hv
  · have hd : (popped s k q f).given.drop b = s.given.drop b ++ [(q, f)] := by
      simp only [popped]
      rw [List.drop_append_of_le_length hlen]
    rw [hd]
    rcases h.here with (⟨m, hm'⟩ | hp) | hg
    · exact Or.inl (Or.inl ⟨m, hm'⟩)
    · by_cases c : k = p.key
      · right
        obtain ⟨rfl, rfl⟩ := hq (hk.trans c)
        simp
      · left; right
        simp only [popped, Dict.get?_erase]
        rw [if_neg c]
        exact hp
    · exact Or.inr (List.mem_append_left _ hg)

theorem wt_kept_step {b : Nat} {p : PP} {frm : Nat} {s : State} (hi : Inv s) (h : WtKept b p frm s) (e : Ev)
    (he : Quiet s.viewNo p frm e) : WtKept b p frm (step s e) ∧ (step s e).viewNo = s.viewNo := by
  have hi' := hi.step e
  have ha := (wt_alone hi p frm).1 h.alone
  cases e with
  | recv q f env =>
    rw [wt_recv hi]
    exact ⟨wt_kept_receive hi h env q f he, (receive_fix _ _ _ _).2.1⟩
  | service env =>
    rw [wt_service hi]
    refine ⟨wt_kept_dequeue hi h env, ?_⟩
    refine loop_ind (fun _ s s' => s'.viewNo = s.viewNo) env (fun _ _ => rfl) (fun _ _ _ _ => rfl) ?_ _ _ hi.ready
    intro n s k q f s' _ _ _ _ ih
    rw [ih, (receive_fix _ _ _ _).2.1]
    rfl
  | learn r =>
    simp only [step] at hi' ⊢
    split
    · exact ⟨h, rfl⟩
    · rename_i c
      rw [if_neg c] at hi'
      exact ⟨⟨(wt_alone hi' p frm).2 ha, h.here, h.len⟩, rfl⟩
  | finalise r =>
    simp only [step] at hi' ⊢
    split
    · rename_i c
      rw [if_pos c] at hi'
      exact ⟨⟨(wt_alone hi' p frm).2 ha, h.here, h.len⟩, rfl⟩
    · exact ⟨h, rfl⟩
  | free r => exact ⟨⟨(wt_alone hi' p frm).2 ha, h.here, h.len⟩, rfl⟩
  | ordered k => exact ⟨⟨(wt_alone hi' p frm).2 ha, h.here, h.len⟩, rfl⟩
  | gc n => exact ⟨⟨(wt_alone hi' p frm).2 ha, h.here, h.len⟩, rfl⟩
  | viewChange v => exact absurd he (by simp [Quiet])
  | newView c => exact ⟨⟨(wt_alone hi' p frm).2 ha, h.here, h.len⟩, rfl⟩
  | caughtUp v k =>
    have hm : max s.viewNo v = s.viewNo := Nat.max_eq_left he
    have hs : ∀ t : State, t.pendFin = s.pendFin → t.pendPrev = s.pendPrev → t.viewNo = s.viewNo → t.given = s.given →
        (clearPrevView t).pendFin = s.pendFin ∧ (clearPrevView t).pendPrev = s.pendPrev ∧ (clearPrevView t).given = s.given ∧
        (clearPrevView t).viewNo = s.viewNo := by
      intro t h1 h2 h3 h4
      refine ⟨?_, ?_, h4, h3⟩
      · simp only [clearPrevView, h1, h3]
        apply List.filter_eq_self.2
        intro e he
        have := (hi.fin e he).1
        simp; omega
      · simp only [clearPrevView, h2, h3]
        apply List.filter_eq_self.2
        intro e he
        have := hi.prev e he
        have hk : e.1.1 = e.2.1.view := by rw [this.1]; rfl
        simp; omega
    have hall : ∃ t : State, step s (.caughtUp v k) = clearPrevView t ∧ t.pendFin = s.pendFin ∧ t.pendPrev = s.pendPrev ∧
        t.viewNo = s.viewNo ∧ t.given = s.given := by
      simp only [step]
      split
      · exact ⟨_, rfl, rfl, rfl, hm, rfl⟩
      · exact ⟨_, rfl, rfl, rfl, hm, rfl⟩
    obtain ⟨t, et, h1, h2, h3, h4⟩ := hall
    obtain ⟨g1, g2, g3, g4⟩ := hs t h1 h2 h3 h4
    rw [et] at hi' ⊢
    refine ⟨⟨(wt_alone hi' p frm).2 (by rw [g1, g2]; exact ha), ?_, by rw [g3]; exact h.len⟩, g4⟩
    rw [g3]
    unfold Waits
    rw [g1, g2]
    exact h.here

/-- A PRE-PREPARE that waits is not lost: as long as the view stays the same and no other PRE-PREPARE with its key is there or comes, it waits
or has been given to the replica again, whatever else happens. Partial, as it is lost if another with the same key comes (`C102_overwritten`). -/
theorem C102_kept_partial (before after : List Ev) (p : PP) (frm : Nat) (hw : Waits (run init before) p frm)
    (ha : Alone (run init before) p frm) (hq : ∀ e ∈ after, Quiet (run init before).viewNo p frm e) :
    Waits (run init (before ++ after)) p frm ∨
      (p, frm) ∈ (run init (before ++ after)).given.drop (run init before).given.length := by
  have hr : run init (before ++ after) = run (run init before) after := by simp [run]
  rw [hr]
  have gen : ∀ (es : List Ev) (s : State) (b : Nat), Inv s → WtKept b p frm s → (∀ e ∈ es, Quiet s.viewNo p frm e) →
      WtKept b p frm (run s es) := by
    intro es
    induction es with
    | nil => intro s b _ h _; exact h
    | cons e es ih =>
      intro s b hi h he
      obtain ⟨h1, h2⟩ := wt_kept_step hi h e (he e (by simp))
      refine ih _ b (hi.step e) h1 ?_
      intro x hx
      rw [h2]
      exact he x (List.mem_cons_of_mem _ hx)
  exact (gen after _ _ (inv_init.run before) ⟨ha, Or.inl hw, Nat.le_refl _⟩ hq).here

/-! ## A run of PRE-PREPAREs is handled at once -/

theorem wt_complete {s : State} {p : PP} (hc : Complete s p) : someUnknown s p = false := by
  apply Bool.eq_false_iff.2
  intro h
  simp only [someUnknown, List.any_eq_true, Bool.not_eq_true', Dict.has_false_iff] at h
  obtain ⟨r, hr, h⟩ := h
  rw [hc r hr] at h
  exact absurd h (by simp)

theorem wt_receive_ok {s : State} (env : Env) (p : PP) (frm : Nat) (hv : p.view = s.viewNo) (h0 : p.seq ≠ 0)
    (hn : p.seq = (lastPp s).2 + 1) (hh : s.prePrepares.has p.key = false) (hu : someUnknown s p = false)
    (hf : s.viewNo = 0 ∨ s.prevCert < s.lastOrdered.2)
    (e1 : env.valid p frm = true) (e2 : env.genuine p frm = true) (e3 : env.timely p frm = true) (e4 : env.applies p frm = true) :
    receive s env p frm = accept s p := by
  have ho := lastOrdered_le s
  have na : notAfter p.key s.lastOrdered = false := by
    apply Bool.eq_false_iff.2
    rw [Ne, notAfter_iff]
    simp only [PP.key]
    omega
  have hin : inPlace s p = true := by
    simp only [inPlace, na, Bool.false_and, Bool.not_false, Bool.and_true, Bool.and_eq_true, decide_eq_true_eq,
      Bool.not_eq_true', Bool.and_eq_false_iff, decide_eq_false_iff_not]
    refine ⟨⟨h0, hv⟩, ?_⟩
    omega
  have hx : isNext s p.key = true := (isNext_iff _ _).2 (Or.inr hn)
  unfold receive
  rw [e1, hin, na, e2, hh, e3, hu, hx, e4]
  have : ¬ p.seq < (lastPp s).2 := by omega
  simp [this]

theorem wt_not_has {s : State} (hi : Inv s) (p : PP) (hv : p.view = s.viewNo) (hn : (lastPp s).2 < p.seq) :
    s.prePrepares.has p.key = false := by
  apply Bool.eq_false_iff.2
  intro h
  obtain ⟨q, hq⟩ := (Dict.has_iff _ _).1 h
  have hk := (Dict.mem_keys _ _).2 ⟨q, hq⟩
  cases hm : highest s.prePrepares with
  | none => rw [highest_none hm] at hk; simp [Dict.keys] at hk
  | some m =>
    obtain ⟨h1, h2⟩ := highest_some hm
    have h3 := hi.pps m h1
    have h4 := Bool.eq_false_iff.1 (h2 _ hk)
    have h5 := highest_le s m hm
    rw [Ne, keyLt_iff] at h4
    simp only [PP.key] at h4
    omega

theorem wt_chain_loop (env : Env) : ∀ (ps : List (PP × Nat)) (n : Nat) (s : State), Inv s → ps.length ≤ n →
    (∀ i (h : i < ps.length), ps[i].1.seq = (lastPp s).2 + 1 + i) →
    (∀ x ∈ ps, s.pendPrev.get? x.1.key = some x ∧ Complete s x.1 ∧ env.valid x.1 x.2 = true ∧ env.genuine x.1 x.2 = true ∧
      env.timely x.1 x.2 = true ∧ env.applies x.1 x.2 = true) →
    (∀ e ∈ s.pendPrev, (lastPp s).2 < e.1.2) → (s.viewNo = 0 ∨ s.prevCert < s.lastOrdered.2) →
    (∀ x ∈ ps, (loop env n s).prePrepares.get? x.1.key = some x.1) ∧ ∃ l, (loop env n s).given = s.given ++ ps ++ l := by
  intro ps
  induction ps with
  | nil =>
    intro n s hi _ _ _ _ _
    obtain ⟨l, hl⟩ := loop_given hi env n
    exact ⟨by simp, l, by simpa using hl⟩
  | cons x ps ih =>
    intro n s hi hlen hnum hall hfresh hf
    obtain ⟨n, rfl⟩ : ∃ m, n = m + 1 := ⟨n - 1, by simp at hlen; omega⟩
    obtain ⟨hg, hc, e1, e2, e3, e4⟩ := hall x (by simp)
    have hx0 : x.1.seq = (lastPp s).2 + 1 := hnum 0 (by simp)
    obtain ⟨_, hv, h0⟩ := hi.prev _ (Dict.mem_of_get? hg)
    replace hv : x.1.view = s.viewNo := hv
    have hlow : lowest s.pendPrev = some (x.1.key, x) := by
      cases hl : lowest s.pendPrev with
      | none =>
        have := lowest_none hl
        rw [this] at hg
        exact absurd hg (by simp)
      | some e =>
        obtain ⟨hm, hmin⟩ := lowest_some hl
        have h1 := Bool.eq_false_iff.1 (hmin _ (Dict.mem_of_get? hg))
        have h2 := hfresh e hm
        obtain ⟨hk, hv', _⟩ := hi.prev e hm
        rw [Ne, keyLt_iff] at h1
        simp only [PP.key] at h1
        have hk1 : e.1.1 = e.2.1.view := by rw [hk]; rfl
        have hek : e.1 = x.1.key := by
          apply Prod.ext
          · show e.1.1 = x.1.view; omega
          · show e.1.2 = x.1.seq; omega
        have hem := Dict.get?_of_mem hi.nodup (show (e.1, e.2) ∈ s.pendPrev from hm)
        rw [hek, hg] at hem
        simp only [Option.some.injEq] at hem
        rw [← hek, hem]
    have hcd : canDequeue s x.1.key = true := by
      simp only [canDequeue, Bool.or_eq_true]
      exact Or.inl ((isNext_iff _ _).2 (Or.inr hx0))
    rw [loop_succ hi, hlow]
    dsimp only
    rw [if_pos hcd]
    have hi1 := hi.popped x.1.key x.1 x.2
    have hrec : receive (popped s x.1.key x.1 x.2) env x.1 x.2 = accept (popped s x.1.key x.1 x.2) x.1 :=
      wt_receive_ok env x.1 x.2 hv h0 hx0 (wt_not_has hi x.1 hv (by omega)) (wt_complete hc) hf e1 e2 e3 e4
    show (∀ y ∈ x :: ps, (loop env n (receive (popped s x.1.key x.1 x.2) env x.1 x.2)).prePrepares.get? y.1.key = some y.1) ∧
      ∃ l, (loop env n (receive (popped s x.1.key x.1 x.2) env x.1 x.2)).given = s.given ++ x :: ps ++ l
    have hi2 := hi1.receive env x.1 x.2
    rw [hrec] at hi2 ⊢
    have hlast : lastPp (accept (popped s x.1.key x.1 x.2) x.1) = x.1.key :=
      lastPp_accept hi1 x.1 hv (show (lastPp s).2 < x.1.seq by omega)
    have hlast2 : (lastPp (accept (popped s x.1.key x.1 x.2) x.1)).2 = x.1.seq := by rw [hlast]; rfl
    obtain ⟨h1, l, h2⟩ := ih n _ hi2 (by simp at hlen; omega) (by
        intro i hi
        have := hnum (i + 1) (by simp; omega)
        simp only [List.getElem_cons_succ] at this
        rw [hlast2]
        omega) (by
        intro y hy
        obtain ⟨g1, g2⟩ := hall y (List.mem_cons_of_mem _ hy)
        refine ⟨?_, g2⟩
        show (s.pendPrev.erase x.1.key).get? y.1.key = some y
        rw [Dict.get?_erase, if_neg]
        · exact g1
        · intro e
          obtain ⟨i, hi, rfl⟩ := List.mem_iff_getElem.1 hy
          have := hnum (i + 1) (by simp; omega)
          simp only [List.getElem_cons_succ] at this
          have e2 : x.1.seq = ps[i].1.seq := congrArg Prod.snd e
          omega) (by
        intro e he
        have he : e ∈ s.pendPrev.erase x.1.key := he
        obtain ⟨hm, hne⟩ := List.mem_filter.1 he
        have h1 := hfresh e hm
        obtain ⟨hk, hv', _⟩ := hi.prev e hm
        have hk1 : e.1.1 = e.2.1.view := by rw [hk]; rfl
        rw [hlast2]
        by_cases c : e.1.2 = x.1.seq
        · exfalso
          have : e.1 = x.1.key := by
            apply Prod.ext
            · show e.1.1 = x.1.view; omega
            · exact c
          simp [this] at hne
        · omega) hf
    refine ⟨?_, l, ?_⟩
    · intro y hy
      rcases List.mem_cons.1 hy with rfl | hy
      · apply loop_keeps hi2
        · show Dict.get? (Dict.set _ _ _) _ = _
          rw [Dict.get?_set, if_pos rfl]
        · have := lastOrdered_le s
          show s.lastOrdered.2 < y.1.seq
          omega
      · exact h1 y hy
    · rw [h2]
      simp [accept, popped]

/-- In every history: PRE-PREPAREs that wait and follow the last one, one after the other, are all given again and accepted when the queues are serviced next,
if all their requests are there, they pass the other checks, and nothing waits that is not newer than the last one. -/
theorem C102_chain (es : List Ev) (env : Env) (ps : List (PP × Nat)) :
    let s := run init es
    let s' := run init (es ++ [.service env])
    (∀ i (h : i < ps.length), ps[i].1.seq = (lastPp s).2 + 1 + i) →
    (∀ x ∈ ps, Waits s x.1 x.2 ∧ Alone s x.1 x.2 ∧ Complete s x.1 ∧ env.valid x.1 x.2 = true ∧ env.genuine x.1 x.2 = true ∧
      env.timely x.1 x.2 = true ∧ env.applies x.1 x.2 = true) →
    (∀ p frm, Waits s p frm → (lastPp s).2 < p.seq) → (s.viewNo = 0 ∨ s.prevCert < s.lastOrdered.2) →
    (∀ x ∈ ps, s'.prePrepares.get? x.1.key = some x.1) ∧ ∃ l, s'.given = s.given ++ ps ++ l := by
  intro s s' hnum hall hfresh hf
  have hi : Inv s := inv_init.run es
  have hs : s' = dequeue s env := by
    show run init (es ++ [.service env]) = _
    simp only [run, List.foldl_append, List.foldl_cons, List.foldl_nil]
    exact wt_service hi env
  rw [hs]
  have hget : ∀ x ∈ ps, (ready s).pendPrev.get? x.1.key = some x := by
    intro x hx
    obtain ⟨hw, ha, hc, _⟩ := hall x hx
    have hk := wt_kept_ready hi (p := x.1) (frm := x.2) ⟨ha, Or.inl hw, Nat.le_refl _⟩
    rcases hk.here with (⟨m, hm⟩ | hp) | hg
    · exfalso
      rw [ready_eq] at hm
      obtain ⟨hm, hne⟩ := List.mem_filter.1 hm
      obtain ⟨y, hy, e⟩ := List.mem_map.1 hm
      have hsub := (hi.fin y hy).2.2
      simp only [decide_eq_true_eq] at hne
      apply hne
      have e1 : m = y.missing.filter (fun r => ! isFinalised s r) := by rw [← show (trim s y).missing = m by rw [e]]; rfl
      have e2 : y.pp = x.1 := by rw [← show (trim s y).pp = x.1 by rw [e]]; rfl
      rw [e1]
      apply List.filter_eq_nil_iff.2
      intro r hr
      have := hc r (e2 ▸ hsub r hr)
      simp [isFinalised, this]
    · exact hp
    · rw [ready_eq] at hg; simp at hg
  have hlen : ps.length ≤ (ready s).pendPrev.length := by
    have hnd : (ps.map (fun x => x.1.key)).Nodup := by
      rw [List.nodup_iff_pairwise_ne, List.pairwise_iff_getElem]
      intro i j hi hj hij e
      simp only [List.getElem_map] at e
      simp only [List.length_map] at hi hj
      have h1 := hnum i hi
      have h2 := hnum j hj
      have h3 : ps[i].1.seq = ps[j].1.seq := congrArg Prod.snd e
      omega
    have := Verif.length_le_of_subset hnd (B := (ready s).pendPrev.keys) (by
      intro k hk
      obtain ⟨x, hx, rfl⟩ := List.mem_map.1 hk
      exact (Dict.mem_keys _ _).2 ⟨x, hget x hx⟩)
    simpa [Dict.keys] using this
  have hl : lastPp (ready s) = lastPp s := rfl
  have := wt_chain_loop env ps _ (ready s) hi.ready hlen (by rw [hl]; exact hnum)
    (fun x hx => ⟨hget x hx, (hall x hx).2.2⟩) (by
      rw [hl]
      intro e he
      rw [ready_eq] at he
      rcases putAll_mem _ _ e he with he | ⟨y, hy, rfl⟩
      · have hk := (hi.prev e he).1
        have hw : Waits s e.2.1 e.2.2 := Or.inr (by rw [← hk]; exact Dict.get?_of_mem hi.nodup he)
        have := hfresh _ _ hw
        rw [hk]
        exact this
      · obtain ⟨z, hz, rfl⟩ := List.mem_map.1 (List.mem_filter.1 (List.mem_reverse.1 hy)).1
        exact hfresh z.pp z.frm (Or.inl ⟨z.missing, hz⟩)) hf
  exact this

/-! ## What goes wrong -/

theorem wt_run_snoc (es : List Ev) (e : Ev) : run init (es ++ [e]) = step (run init es) e := by
  simp [run]

theorem wt_receive_gap {s : State} (hi : Inv s) (p : PP) (frm : Nat) (hv : p.view = s.viewNo) (hn : (lastPp s).2 + 1 < p.seq)
    (hu : ∀ r ∈ p.reqs, s.reqs.has r = true) (hf : s.viewNo = 0 ∨ s.prevCert < s.lastOrdered.2) :
    receive s good p frm = { s with pendPrev := s.pendPrev.set p.key (p, frm) } := by
  have ho := lastOrdered_le s
  have na : notAfter p.key s.lastOrdered = false := by
    apply Bool.eq_false_iff.2
    rw [Ne, notAfter_iff]
    simp only [PP.key]
    omega
  have hin : inPlace s p = true := by
    simp only [inPlace, na, Bool.false_and, Bool.not_false, Bool.and_true, Bool.and_eq_true, decide_eq_true_eq,
      Bool.not_eq_true', Bool.and_eq_false_iff, decide_eq_false_iff_not]
    refine ⟨⟨by omega, hv⟩, ?_⟩
    omega
  have hu : someUnknown s p = false := by
    apply Bool.eq_false_iff.2
    intro h
    simp only [someUnknown, List.any_eq_true, Bool.not_eq_true'] at h
    obtain ⟨r, hr, h⟩ := h
    rw [hu r hr] at h
    exact absurd h (by simp)
  have hx : isNext s p.key = false := by
    apply Bool.eq_false_iff.2
    rw [Ne, isNext_iff]
    simp only [PP.key]
    omega
  have hh := wt_not_has hi p hv (by omega)
  have : ¬ p.seq < (lastPp s).2 := by omega
  unfold receive
  rw [hin, na, hh, hu, hx]
  simp [this, good, enqueue]

/-- Of two PRE-PREPAREs with the same key that come too early, the first is lost: the second takes its place. -/
theorem C102_overwritten (es : List Ev) (p q : PP) (frm frm' : Nat) :
    let s := run init es
    p.key = q.key → (p, frm) ≠ (q, frm') → p.view = s.viewNo → (lastPp s).2 + 1 < p.seq →
    (∀ r, r ∈ p.reqs ∨ r ∈ q.reqs → s.reqs.has r = true) → (s.viewNo = 0 ∨ s.prevCert < s.lastOrdered.2) → ¬ Waits s p frm →
    Waits (run init (es ++ [.recv p frm good])) p frm ∧
    ¬ Waits (run init (es ++ [.recv p frm good] ++ [.recv q frm' good])) p frm ∧
    Waits (run init (es ++ [.recv p frm good] ++ [.recv q frm' good])) q frm' := by
  intro s hk hne hv hn hr hf hnw
  have hi : Inv s := inv_init.run es
  have e1 : run init (es ++ [.recv p frm good]) = { s with pendPrev := s.pendPrev.set p.key (p, frm) } := by
    rw [wt_run_snoc, wt_recv hi]
    exact wt_receive_gap hi p frm hv hn (fun r h => hr r (Or.inl h)) hf
  have hi1 : Inv (run init (es ++ [.recv p frm good])) := inv_init.run _
  have hqs : q.seq = p.seq := (congrArg Prod.snd hk).symm
  have hqv : q.view = p.view := (congrArg Prod.fst hk).symm
  have e2 : run init (es ++ [.recv p frm good] ++ [.recv q frm' good]) =
      { s with pendPrev := (s.pendPrev.set p.key (p, frm)).set q.key (q, frm') } := by
    rw [wt_run_snoc, wt_recv hi1]
    rw [e1] at hi1 ⊢
    exact wt_receive_gap hi1 q frm' (hqv.trans hv) (by rw [hqs]; exact hn) (fun r h => hr r (Or.inr h)) hf
  rw [e1, e2]
  refine ⟨Or.inr ?_, ?_, Or.inr ?_⟩
  · simp only [Dict.get?_set, if_true]
  · rintro (h | h)
    · exact hnw (Or.inl h)
    · simp only [Dict.get?_set, hk, if_true, Option.some.injEq] at h
      exact hne h.symm
  · simp only [Dict.get?_set, if_true]

theorem wt_putAll_append (l m : List Item) (d : Dict Key (PP × Nat)) : putAll (l ++ m) d = putAll m (putAll l d) := by
  simp [putAll]

theorem wt_putAll_other (l : List Item) (k : Key) (hl : ∀ e ∈ l, e.pp.key ≠ k) : ∀ (d : Dict Key (PP × Nat)),
    (putAll l d).get? k = d.get? k := by
  induction l with
  | nil => intro d; rfl
  | cons e l ih =>
    intro d
    show (putAll l (d.set e.pp.key (e.pp, e.frm))).get? k = _
    rw [ih (fun e' he' => hl e' (List.mem_cons_of_mem _ he')), Dict.get?_set, if_neg (hl e (by simp))]

theorem wt_loop_stays {s : State} (hi : Inv s) (env : Env) (n : Nat) (k : Key) (v : PP × Nat) (b : Nat) (hb : b ≤ s.given.length)
    (h : s.pendPrev.get? k = some v) : (loop env n s).pendPrev.get? k = some v ∨ v ∈ (loop env n s).given.drop b := by
  refine loop_ind (fun _ s s' => b ≤ s.given.length → (s.pendPrev.get? k = some v ∨ v ∈ s.given.drop b) → (s'.pendPrev.get? k = some v ∨ v ∈ s'.given.drop b)) env
    (fun _ _ _ h => h) (fun _ _ _ _ _ h => h) ?_ n s hi hb (Or.inl h)
  intro n s k' p frm s' hi hl hc hk ih hb h
  apply ih
  · rw [receive_given]; simp [popped]; omega
  · rw [receive_given, receive_prev]
    · have hd : (popped s k' p frm).given.drop b = s.given.drop b ++ [(p, frm)] := by
        simp only [popped]
        rw [List.drop_append_of_le_length hb]
      rw [hd]
      rcases h with h | h
      · by_cases c : k' = k
        · right
          have := Dict.get?_of_mem hi.nodup (lowest_some hl).1
          rw [c, h] at this
          simp only [Option.some.injEq] at this
          rw [this]; simp
        · left
          simp only [popped, Dict.get?_erase]
          rw [if_neg c]
          exact h
      · exact Or.inr (List.mem_append_left _ h)
    · rw [hk]; exact hc

/-- Of the PRE-PREPAREs with the same key that wait for requests, the first to come is kept when it gets its requests, and takes
the place of one in the second queue: all others that have them are lost. -/
theorem C102_first_wins (es : List Ev) (env : Env) (p : PP) (frm : Nat) (m : List Nat) (a b : List Item) :
    let s := run init es
    let s' := run init (es ++ [.service env])
    s.pendFin = a ++ ⟨p, frm, m⟩ :: b → (∀ e ∈ a, e.pp.key ≠ p.key) → (∀ r ∈ m, s.reqs.get? r = some true) →
    s'.pendPrev.get? p.key = some (p, frm) ∨ (p, frm) ∈ s'.given.drop s.given.length := by
  intro s s' hp ha hm
  have hi : Inv s := inv_init.run es
  have hs : s' = dequeue s env := (wt_run_snoc es _).trans (wt_service hi env)
  rw [hs]
  refine wt_loop_stays hi.ready env _ p.key (p, frm) _ (Nat.le_refl _) ?_
  rw [ready_eq]
  have ht : (trim s ⟨p, frm, m⟩).missing = [] := by
    apply List.filter_eq_nil_iff.2
    intro r hr
    simp [isFinalised, hm r hr]
  show (putAll _ s.pendPrev).get? p.key = some (p, frm)
  rw [hp]
  simp only [List.map_append, List.map_cons, List.filter_append, List.reverse_append]
  rw [wt_putAll_append]
  have hc : ((trim s ⟨p, frm, m⟩ :: b.map (trim s)).filter (fun e => decide (e.missing = []))) =
      trim s ⟨p, frm, m⟩ :: (b.map (trim s)).filter (fun e => decide (e.missing = [])) := by
    rw [List.filter_cons, if_pos (decide_eq_true ht)]
  rw [hc, List.reverse_cons, wt_putAll_append, wt_putAll_other]
  · show (Dict.set _ _ _).get? p.key = _
    rw [Dict.get?_set]
    exact if_pos rfl
  · intro e he
    obtain ⟨x, hx, rfl⟩ := List.mem_map.1 (List.mem_filter.1 (List.mem_reverse.1 he)).1
    exact ha x hx

/-- Nothing limits how often the same PRE-PREPARE is kept. It is given again once. -/
theorem C102_unbounded (n : Nat) (d r frm : Nat) (env : Env) :
    let p : PP := ⟨0, 1, d, [r]⟩
    let es := List.replicate (n + 1) (Ev.recv p frm good)
    (run init es).pendFin.length = n + 1 ∧
    (run init (es ++ [.learn r, .finalise r, .service env])).given = [(p, frm)] := by
  intro p es
  have h1 : ∀ m, run init (List.replicate m (Ev.recv p frm good)) =
      { init with pendFin := List.replicate m ⟨p, frm, [r]⟩ } := by
    intro m
    induction m with
    | zero => rfl
    | succ m ih =>
      rw [List.replicate_succ', wt_run_snoc, ih]
      have hr : receive { init with pendFin := List.replicate m ⟨p, frm, [r]⟩ } good p frm =
          { init with pendFin := List.replicate m ⟨p, frm, [r]⟩ ++ [⟨p, frm, [r]⟩] } := by
        simp [receive, good, inPlace, init, notAfter, PP.key, lastPp, highest, someUnknown, notFinalised, isFinalised, enqueue, p,
          Dict.has]
      have hstep : step { init with pendFin := List.replicate m ⟨p, frm, [r]⟩ } (.recv p frm good) =
          receive { init with pendFin := List.replicate m ⟨p, frm, [r]⟩ } good p frm := by simp [step, init]
      rw [hstep, hr]
      congr 1
      rw [← List.replicate_succ']
  refine ⟨by rw [h1]; simp, ?_⟩
  have h2 : run init (es ++ [.learn r, .finalise r, .service env]) =
      dequeue { init with reqs := [(r, true)], pendFin := List.replicate (n + 1) ⟨p, frm, [r]⟩ } env := by
    have : run init (es ++ [.learn r, .finalise r, .service env]) = run (run init es) [.learn r, .finalise r, .service env] := by
      simp [run]
    rw [this, h1]
    simp [run, step, init, Dict.has, Dict.set, Dict.get?_cons]
  rw [h2]
  have h3 : ready { init with reqs := [(r, true)], pendFin := List.replicate (n + 1) ⟨p, frm, [r]⟩ } =
      { init with reqs := [(r, true)], pendPrev := [(p.key, (p, frm))] } := by
    rw [ready_eq]
    have ht : ∀ t : State, t.reqs = [(r, true)] → trim t ⟨p, frm, [r]⟩ = ⟨p, frm, []⟩ := by
      intro t e
      simp [trim, isFinalised, Dict.get?_cons, e]
    have hput : ∀ m, putAll (List.replicate m ⟨p, frm, []⟩) [(p.key, (p, frm))] = [(p.key, (p, frm))] := by
      intro m
      induction m with
      | zero => rfl
      | succ m ih =>
        rw [List.replicate_succ]
        show putAll (List.replicate m ⟨p, frm, []⟩) (Dict.set [(p.key, (p, frm))] p.key (p, frm)) = _
        have : Dict.set [(p.key, (p, frm))] p.key (p, frm) = [(p.key, (p, frm))] := by simp [Dict.set]
        rw [this]; exact ih
    have hall : putAll (List.replicate (n + 1) ⟨p, frm, []⟩) [] = [(p.key, (p, frm))] := by
      rw [List.replicate_succ]
      exact hput n
    simp only [List.map_replicate, init]
    rw [ht _ rfl]
    congr 1
    · simp
    · rw [List.filter_replicate_of_pos (by simp), List.reverse_replicate]
      exact hall
  rw [dequeue, h3]
  show (loop env 1 { init with reqs := [(r, true)], pendPrev := [(p.key, (p, frm))] }).given = _
  rw [loop]
  simp [lowest, canDequeue, isNext, PP.key, p, canBeInView, init, loop, receive_given]

/-- A PRE-PREPARE in the second queue that is not newer than the last accepted one, and not ordered, holds up all that wait with
higher numbers: when the queues are serviced nothing is given. -/
theorem C102_blocked (es : List Ev) (env : Env) (p : PP) (frm : Nat) :
    let s := run init es
    let s' := run init (es ++ [.service env])
    s.pendPrev.get? p.key = some (p, frm) → (∀ q f, Waits s q f → p.seq ≤ q.seq) →
    s.lastOrdered.2 < p.seq → p.seq ≤ (lastPp s).2 → p.seq ≠ 1 →
    s'.given = s.given ∧ s'.took = s.took := by
  intro s s' hp hmin ho hl h1
  have hi : Inv s := inv_init.run es
  have hs : s' = dequeue s env := (wt_run_snoc es _).trans (wt_service hi env)
  rw [hs]
  have hmem : p.key ∈ (ready s).pendPrev.keys := by
    rw [ready_eq]
    show p.key ∈ (putAll _ s.pendPrev).keys
    have : ∀ (l : List Item) (d : Dict Key (PP × Nat)), p.key ∈ d.keys → p.key ∈ (putAll l d).keys := by
      intro l
      induction l with
      | nil => intro d h; exact h
      | cons e l ih =>
        intro d h
        apply ih
        obtain ⟨v, hv⟩ := (Dict.mem_keys _ _).1 h
        apply (Dict.mem_keys _ _).2
        rw [Dict.get?_set]
        split
        · exact ⟨_, rfl⟩
        · exact ⟨v, hv⟩
    exact this _ _ ((Dict.mem_keys _ _).2 ⟨_, hp⟩)
  have hmin' : ∀ e ∈ (ready s).pendPrev, p.seq ≤ e.1.2 := by
    intro e he
    rw [ready_eq] at he
    rcases putAll_mem _ _ e he with he | ⟨y, hy, rfl⟩
    · have hk := (hi.prev e he).1
      have := hmin e.2.1 e.2.2 (Or.inr (by rw [← hk]; exact Dict.get?_of_mem hi.nodup he))
      rw [hk]; exact this
    · obtain ⟨z, hz, rfl⟩ := List.mem_map.1 (List.mem_filter.1 (List.mem_reverse.1 hy)).1
      exact hmin z.pp z.frm (Or.inl ⟨z.missing, hz⟩)
  obtain ⟨⟨k0, v0⟩, hx, hxk⟩ := List.mem_map.1 hmem
  have hlow : ∃ v, lowest (ready s).pendPrev = some (p.key, v) := by
    cases hq : lowest (ready s).pendPrev with
    | none => rw [lowest_none hq] at hx; exact absurd hx (by simp)
    | some e =>
      obtain ⟨hm, hlo⟩ := lowest_some hq
      have h1 := Bool.eq_false_iff.1 (hlo _ hx)
      have h2 := hmin' e hm
      obtain ⟨hk, hv, _⟩ := hi.ready.prev e hm
      obtain ⟨hk', hv', _⟩ := hi.ready.prev _ hx
      rw [hxk] at hk'
      have g1 : v0.1.view = p.view := (congrArg Prod.fst hk').symm
      have g2 : e.1.1 = e.2.1.view := by rw [hk]; rfl
      rw [Ne, keyLt_iff] at h1
      simp only at hxk hv' h1
      rw [hxk] at h1
      simp only [PP.key] at h1
      refine ⟨e.2, ?_⟩
      have : e.1 = p.key := by
        apply Prod.ext
        · show e.1.1 = p.view; omega
        · show e.1.2 = p.seq; omega
      rw [← this]
  obtain ⟨v, hlow⟩ := hlow
  have hc : canDequeue (ready s) p.key = false := by
    apply Bool.eq_false_iff.2
    intro h
    simp only [canDequeue, Bool.or_eq_true, isNext_iff, notAfter_iff] at h
    have e1 : (lastPp (ready s)).2 = (lastPp s).2 := rfl
    have e2 : (ready s).lastOrdered = s.lastOrdered := rfl
    rw [e1, e2] at h
    simp only [PP.key] at h
    omega
  have : dequeue s env = ready s := by
    unfold dequeue
    cases hn : (ready s).pendPrev.length with
    | zero => rfl
    | succ n =>
      rw [loop_succ hi.ready, hlow]
      obtain ⟨q, f⟩ := v
      dsimp only
      rw [if_neg (by simp [hc])]
  rw [this]
  exact ⟨rfl, rfl⟩

/-- A PRE-PREPARE that waits for requests waits until they are finalised, while the same PRE-PREPARE is accepted if it comes again when they are only
known. -/
theorem C102_waits_longer (es : List Ev) (env : Env) (p : PP) (frm : Nat) (m : List Nat) (r : Nat) :
    let s := run init es
    ⟨p, frm, m⟩ ∈ s.pendFin → r ∈ m → s.reqs.get? r = some false → (∀ x ∈ p.reqs, s.reqs.has x = true) →
    p.seq = (lastPp s).2 + 1 → (s.viewNo = 0 ∨ s.prevCert < s.lastOrdered.2) →
    (∃ m', ⟨p, frm, m'⟩ ∈ (run init (es ++ [.service env])).pendFin ∧ r ∈ m') ∧
    (run init (es ++ [.recv p frm good])).prePrepares.get? p.key = some p := by
  intro s hm hr hf hk hn hv
  have hi : Inv s := inv_init.run es
  obtain ⟨hpv, hp0, _⟩ := hi.fin _ hm
  simp only at hpv hp0
  refine ⟨?_, ?_⟩
  · have hs : run init (es ++ [.service env]) = dequeue s env := (wt_run_snoc es _).trans (wt_service hi env)
    rw [hs]
    have hin : r ∈ (trim s ⟨p, frm, m⟩).missing := List.mem_filter.2 ⟨hr, by simp [isFinalised, hf]⟩
    refine ⟨(trim s ⟨p, frm, m⟩).missing, ?_, hin⟩
    apply loop_fin hi.ready
    rw [ready_eq]
    refine List.mem_filter.2 ⟨List.mem_map.2 ⟨_, hm, rfl⟩, ?_⟩
    apply decide_eq_true
    intro e
    have hin : r ∈ ([] : List Nat) := e ▸ hin
    exact absurd hin (by simp)
  · rw [wt_run_snoc, wt_recv hi]
    have hu : someUnknown s p = false := by
      apply Bool.eq_false_iff.2
      intro h
      simp only [someUnknown, List.any_eq_true, Bool.not_eq_true'] at h
      obtain ⟨x, hx, h⟩ := h
      rw [hk x hx] at h
      exact absurd h (by simp)
    have : receive s good p frm = accept s p :=
      wt_receive_ok good p frm hpv hp0 hn (wt_not_has hi p hpv (by omega)) hu hv rfl rfl rfl rfl
    show (receive s good p frm).prePrepares.get? p.key = some p
    rw [this]
    show (Dict.set _ _ _).get? _ = _
    rw [Dict.get?_set, if_pos rfl]

/-! ## The hypotheses are met -/

/-- The third and the second PRE-PREPARE come before the first; the third waits for a request. -/
def wtEarly : List Ev :=
  [.recv ⟨0, 3, 30, [7]⟩ 1 good, .recv ⟨0, 2, 20, []⟩ 1 good, .service good, .recv ⟨0, 1, 10, []⟩ 1 good, .learn 7, .finalise 7]

example : Waits (run init wtEarly) ⟨0, 3, 30, [7]⟩ 1 ∧ Waits (run init wtEarly) ⟨0, 2, 20, []⟩ 1 ∧
    (lastPp (run init wtEarly)).2 = 1 ∧ Complete (run init wtEarly) ⟨0, 3, 30, [7]⟩ ∧ Complete (run init wtEarly) ⟨0, 2, 20, []⟩ ∧
    (run init (wtEarly ++ [.service good])).given = [(⟨0, 2, 20, []⟩, 1), (⟨0, 3, 30, [7]⟩, 1)] ∧
    (run init (wtEarly ++ [.service good])).took.map (fun t => t.pp.seq) = [1, 2, 3] := by
  refine ⟨Or.inl ⟨[7], by decide⟩, Or.inr (by decide), by decide, by unfold Complete; decide, by unfold Complete; decide, by decide, by decide⟩

/-- Nothing else waits, and all that waits is newer than the last. -/
example : ∀ p frm, Waits (run init wtEarly) p frm → (p, frm) = (⟨0, 3, 30, [7]⟩, 1) ∨ (p, frm) = (⟨0, 2, 20, []⟩, 1) := by
  intro p frm h
  have h1 : (run init wtEarly).pendFin = [⟨⟨0, 3, 30, [7]⟩, 1, [7]⟩] := by decide
  have h2 : (run init wtEarly).pendPrev = [((0, 2), (⟨0, 2, 20, []⟩, 1))] := by decide
  unfold Waits at h
  rw [h1, h2] at h
  rcases h with ⟨m, h⟩ | h
  · left; simp at h; simp [h]
  · right
    rw [Dict.get?_cons] at h
    split at h
    · simp at h; simp [h]
    · simp at h

/-- The events after the first two are quiet for both. -/
example : ∀ e ∈ wtEarly.drop 2, Quiet 0 ⟨0, 3, 30, [7]⟩ 1 e := by
  intro e he
  simp only [wtEarly, List.drop, List.mem_cons, List.not_mem_nil, or_false] at he
  rcases he with rfl | rfl | rfl | rfl <;> simp [Quiet, PP.key]

/-- Two of the same number: the first in the second queue is lost. -/
example : (run init [.recv ⟨0, 2, 20, []⟩ 1 good, .recv ⟨0, 2, 21, []⟩ 1 good, .recv ⟨0, 1, 10, []⟩ 1 good, .service good]).prePrepares.map
    (fun e => e.2.digest) = [10, 21] := by decide

/-- Two of the same number that wait for requests: the second is lost. -/
example : (run init [.recv ⟨0, 1, 10, [7]⟩ 1 good, .recv ⟨0, 1, 11, [8]⟩ 1 good, .learn 7, .finalise 7, .learn 8, .finalise 8,
    .service good]).given.map (fun x => x.1.digest) = [10] := by decide

/-- The second PRE-PREPARE comes twice, with other requests; the later one holds up the fourth, though the third is there. -/
def wtStale : List Ev :=
  [.recv ⟨0, 2, 20, []⟩ 1 good, .recv ⟨0, 2, 21, [7]⟩ 1 good, .recv ⟨0, 1, 10, []⟩ 1 good, .service good, .learn 7, .finalise 7,
   .service good, .recv ⟨0, 4, 40, []⟩ 1 good, .recv ⟨0, 3, 30, []⟩ 1 good]

example : (run init wtStale).pendPrev.get? (0, 2) = some (⟨0, 2, 21, [7]⟩, 1) ∧ (run init wtStale).lastOrdered.2 < 2 ∧
    2 ≤ (lastPp (run init wtStale)).2 ∧ (run init wtStale).pendFin = [] ∧ (run init wtStale).pendPrev.keys = [(0, 2), (0, 4)] ∧
    (run init (wtStale ++ [.service good])).prePrepares.keys = [(0, 1), (0, 2), (0, 3)] ∧
    (run init (wtStale ++ [.service good, .ordered (0, 2), .service good])).prePrepares.keys = [(0, 1), (0, 2), (0, 3), (0, 4)] := by
  decide

/-- A PRE-PREPARE that waits for a request which is known by now. -/
example : let s := run init [.recv ⟨0, 1, 10, [7]⟩ 1 good, .learn 7]
    s.pendFin = [⟨⟨0, 1, 10, [7]⟩, 1, [7]⟩] ∧ s.reqs.get? 7 = some false ∧ (lastPp s).2 = 0 := by decide

/-- A view change and a catchup clear the queues. -/
example : (run init (wtStale ++ [.viewChange 1])).pendPrev = [] ∧ (run init (wtStale ++ [.caughtUp 1 (1, 2)])).pendPrev = [] ∧
    (run init (wtStale ++ [.caughtUp 0 (0, 2)])).pendPrev.keys = [(0, 2), (0, 4)] ∧
    (run init (wtStale ++ [.caughtUp 0 (0, 2)])).prePrepares.keys = [(0, 3)] := by decide

end Verif.Props
