import Verif.Proofs.ReqQueueOrder
/-! When an instance goes on, and when a request is in one place only. -/
namespace Verif.ReqQueue
open Verif

/-! ## The ledgers do not change -/

theorem step_hasQ {c : Cfg} {s : St} {e : Ev} {x : St × List Out} (h : step c s e = some x) (l : Nat) :
    x.1.queues.has l = s.queues.has l := by
  have one : ∀ {s' : St} {m : Nat} {q q' : List Req}, s.queues.get? m = some q → s'.queues = s.queues.set m q' →
      s'.queues.has l = s.queues.has l := by
    intro s' m q q' hq h
    rw [h, has_set]
    by_cases e : l = m
    · subst e; simp [Dict.has, hq]
    · simp [e]
  cases e with
  | propagated r =>
    cases h
    simp only [propagated]
    split <;> rfl
  | finalised r => cases h; rfl
  | forgotten r => cases h; rfl
  | ready r =>
    simp only [step, ready] at h
    split at h
    · cases h; rfl
    · cases h
    · split at h
      · cases h
      · rename_i q hq
        cases h
        exact one hq rfl
  | set => cases h; rfl
  | tick now old v =>
    exact tick_rel (R := fun s s' _ => s'.queues.has l = s.queues.has l) (fun _ => rfl) (fun h1 h2 => h2.trans h1)
      (fun s b m => rfl) (fun h => (sendBatch_run h).hasQ l) h
  | accept pp =>
    cases h
    simp only [accept]
    split
    · split <;> rfl
    · rfl
  | order k =>
    cases h
    simp only [order]
    split
    · rfl
    · split
      · exact (discardAll_fields _ _ _).1.hasQ l
      · rfl
  | revert => cases h; exact (revert_same s).hasQ l
  | viewChange v =>
    cases h
    simp only [viewChange]
    split
    · exact (revert_same s).hasQ l
    · rfl
  | gc k => cases h; exact has_map ..
  | caughtUp k =>
    cases h
    have all : ∀ (es : List (K3 × PP)) (x : St × List Out), (es.foldl caughtUpOne x).1.queues.has l = x.1.queues.has l := by
      intro es
      induction es with
      | nil => intro x; rfl
      | cons e es ih => intro x; exact (ih _).trans ((discardAll_fields _ _ _).1.hasQ l)
    simp only [caughtUp]
    split
    · split
      · exact all _ _
      · split <;> rfl
    · rfl
  | fetched m r => cases h; exact (discard_fields s m r).1.hasQ l

theorem discard_keysQ (s : St) (l : Nat) (r : Req) : (discard s l r).queues.keys = s.queues.keys := by
  unfold discard
  split
  · rfl
  · rename_i q hq
    exact keys_set _ _ _ (by simp [Dict.has, hq])

theorem discardAll_keysQ (l : Nat) (rs : List Req) : ∀ (s : St), (discardAll s l rs).queues.keys = s.queues.keys := by
  induction rs with
  | nil => intro s; rfl
  | cons r rs ih => intro s; exact (ih _).trans (discard_keysQ s l r)

theorem revertOne_keysQ (s : St) (k : K3) : (revertOne s k).queues.keys = s.queues.keys := by
  unfold revertOne
  split
  · rfl
  · dsimp only
    split
    · rfl
    · split
      · rfl
      · rename_i q hq
        exact keys_set _ _ _ (by simp [Dict.has, hq])

theorem revert_keysQ (s : St) : (revert s).queues.keys = s.queues.keys := by
  unfold revert
  generalize (sortDown s.batches.keys).takeWhile (fun k => later s.lastOrdered k) = ks
  induction ks generalizing s with
  | nil => rfl
  | cons k ks ih => exact (ih _).trans (revertOne_keysQ s k)

theorem step_keysQ {c : Cfg} {s : St} {e : Ev} {x : St × List Out} (h : step c s e = some x) :
    x.1.queues.keys = s.queues.keys := by
  cases e with
  | propagated r =>
    cases h
    simp only [propagated]
    split <;> rfl
  | finalised r => cases h; rfl
  | forgotten r => cases h; rfl
  | ready r =>
    simp only [step, ready] at h
    split at h
    · cases h; rfl
    · cases h
    · split at h
      · cases h
      · rename_i q hq
        cases h
        exact keys_set _ _ _ (by simp [Dict.has, hq])
  | set => cases h; rfl
  | tick now old v =>
    exact tick_rel (R := fun s s' _ => s'.queues.keys = s.queues.keys) (fun _ => rfl) (fun h1 h2 => h2.trans h1)
      (fun s b m => rfl) (fun h => (sendBatch_run h).keysQ) h
  | accept pp =>
    cases h
    simp only [accept]
    split
    · split <;> rfl
    · rfl
  | order k =>
    cases h
    simp only [order]
    split
    · rfl
    · split
      · exact discardAll_keysQ _ _ _
      · rfl
  | revert => cases h; exact revert_keysQ s
  | viewChange v =>
    cases h
    simp only [viewChange]
    split
    · exact revert_keysQ s
    · rfl
  | gc k => cases h; simp [gc, Dict.keys, Function.comp_def]
  | caughtUp k =>
    cases h
    have all : ∀ (es : List (K3 × PP)) (x : St × List Out), (es.foldl caughtUpOne x).1.queues.keys = x.1.queues.keys := by
      intro es
      induction es with
      | nil => intro x; rfl
      | cons e es ih => intro x; exact (ih _).trans (discardAll_keysQ _ _ _)
    simp only [caughtUp]
    split
    · split
      · exact all _ _
      · split <;> rfl
    · rfl
  | fetched m r => cases h; exact discard_keysQ s m r

theorem run_keysQ {c : Cfg} : ∀ {es : List Ev} {s : St} {x : St × List Out}, run c s es = some x → x.1.queues.keys = s.queues.keys := by
  intro es
  induction es with
  | nil => intro s x h; simp only [run, Option.some.injEq] at h; subst h; rfl
  | cons e es ih =>
    intro s x h
    rw [run] at h
    split at h
    · cases h
    · rename_i a ha
      split at h
      · cases h
      · rename_i b hb
        cases h
        exact (ih hb).trans (step_keysQ ha)

/-! ## An instance goes on while only requests with enough PROPAGATEs come -/

/-- Every request in a queue or a kept PRE-PREPARE is one of `F`. -/
structure G (F : Req → Prop) (s : St) : Prop where
  queue : ∀ r, Queued s r → F r
  sent : ∀ e ∈ s.sent, ∀ r ∈ e.2.reqs, F r
  got : ∀ e ∈ s.got, ∀ r ∈ e.2.reqs, F r

theorem G.sub {F : Req → Prop} {s s' : St} (g : G F s) (h1 : ∀ r, Queued s' r → Queued s r)
    (h2 : ∀ e ∈ s'.sent, e ∈ s.sent) (h3 : ∀ e ∈ s'.got, e ∈ s.got) : G F s' :=
  ⟨fun r h => g.queue r (h1 r h), fun e he => g.sent e (h2 e he), fun e he => g.got e (h3 e he)⟩

theorem G.pp {F : Req → Prop} {s : St} (g : G F s) {k : K3} {pp : PP} (h : s.pp k = some pp) : ∀ r ∈ pp.reqs, F r := by
  rcases List.mem_append.1 (pp_mem h) with h | h
  · exact g.sent _ h
  · exact g.got _ h

theorem revertOne_G {F : Req → Prop} (s : St) (k : K3) (g : G F s) : G F (revertOne s k) := by
  have hs := revertOne_same s k
  refine ⟨?_, by rw [hs.sent]; exact g.sent, by rw [hs.got]; exact g.got⟩
  unfold revertOne
  split
  · exact g.queue
  · dsimp only
    split
    · exact g.queue
    · rename_i pp hp
      split
      · exact g.queue
      · rename_i q hq
        rintro r ⟨m, p, hm, hr⟩
        dsimp only at hm
        rw [get_set] at hm
        split at hm
        · cases hm
          rcases (foldl_addQ_mem _ _).1 hr with h | h
          · exact g.queue r ⟨_, q, hq, h⟩
          · exact g.pp hp r h
        · exact g.queue r ⟨m, p, hm, hr⟩

theorem revert_G {F : Req → Prop} (s : St) (g : G F s) : G F (revert s) := by
  unfold revert
  generalize (sortDown s.batches.keys).takeWhile (fun k => later s.lastOrdered k) = ks
  induction ks generalizing s with
  | nil => exact g
  | cons k ks ih => exact ih _ (revertOne_G s k g)

theorem discard_sub (s : St) (l : Nat) (a : Req) : ∀ r, Queued (discard s l a) r → Queued s r := by
  rintro r ⟨m, p, hm, hr⟩
  have := (discard_q s l a m).subset
  unfold St.q at this
  rw [hm] at this
  have := this hr
  cases h : s.queues.get? m with
  | none => rw [h] at this; simp at this
  | some q => rw [h] at this; exact ⟨m, q, h, this⟩

theorem discardAll_sub (l : Nat) (rs : List Req) : ∀ (s : St), ∀ r, Queued (discardAll s l rs) r → Queued s r := by
  induction rs with
  | nil => intro s r h; exact h
  | cons a rs ih => intro s r h; exact discard_sub s l a r (ih _ r h)

theorem discardAll_G {F : Req → Prop} (l : Nat) (rs : List Req) (s : St) (g : G F s) : G F (discardAll s l rs) := by
  obtain ⟨h1, _, _⟩ := discardAll_fields l rs s
  exact g.sub (discardAll_sub l rs s) (by rw [h1.sent]; exact fun _ h => h) (by rw [h1.got]; exact fun _ h => h)

theorem caughtUpAll_G {F : Req → Prop} (es : List (K3 × PP)) : ∀ (x : St × List Out), G F x.1 → G F (es.foldl caughtUpOne x).1 := by
  induction es with
  | nil => intro x g; exact g
  | cons e es ih =>
    intro x g
    refine ih _ ?_
    unfold caughtUpOne
    exact discardAll_G _ _ _ (g.sub (fun _ h => h) (fun _ h => (Dict.mem_erase h).1) (fun _ h => (Dict.mem_erase h).1))

theorem sendBatch_G {F : Req → Prop} {c : Cfg} {v : List Req → Req → Verdict} {s : St} {l : Nat} {x : St × List Out}
    (h : sendBatch c v s l = some x) (g : G F s) : G F x.1 := by
  obtain ⟨q, t, hq, ht, h1, h2⟩ := sendBatch_spec h
  refine ⟨fun r hr => g.queue r (sendBatch_sub h r hr), ?_, by rw [h1]; exact g.got⟩
  rw [h1]
  intro e he r hr
  rcases Dict.mem_set he with he | rfl
  · exact g.sent e he r hr
  · rcases ht.known r hr with h | ⟨h, _⟩
    · simp at h
    · exact g.queue r ⟨l, q, hq, h⟩

theorem step_G {F : Req → Prop} {c : Cfg} {s : St} {e : Ev} {x : St × List Out} (h : step c s e = some x) (g : G F s)
    (hr : ∀ r, e = .ready r → F r) (ha : ∀ pp, e = .accept pp → ∀ r ∈ pp.reqs, F r) : G F x.1 := by
  have same : ∀ {s' : St}, s'.queues = s.queues → s'.sent = s.sent → s'.got = s.got → G F s' := by
    intro s' h1 h2 h3
    refine g.sub ?_ (by rw [h2]; exact fun _ h => h) (by rw [h3]; exact fun _ h => h)
    intro r hr
    exact (queued_iff h1 r).1 hr
  cases e with
  | propagated r =>
    cases h
    simp only [propagated]
    split
    · exact g
    · exact same rfl rfl rfl
  | finalised r => cases h; exact same rfl rfl rfl
  | forgotten r => cases h; exact same rfl rfl rfl
  | ready r =>
    simp only [step, ready] at h
    split at h
    · cases h; exact g
    · cases h
    · split at h
      · cases h
      · rename_i q hq
        cases h
        refine ⟨?_, g.sent, g.got⟩
        rintro a ⟨m, p, hm, hp⟩
        dsimp only at hm
        rw [get_set] at hm
        split at hm
        · cases hm
          rcases addQ_mem.1 hp with h | rfl
          · exact g.queue a ⟨_, q, hq, h⟩
          · exact hr _ rfl
        · exact g.queue a ⟨m, p, hm, hp⟩
  | set => cases h; exact same rfl rfl rfl
  | tick now old v =>
    exact tick_rel (R := fun s s' _ => G F s → G F s') (fun _ g => g) (fun h1 h2 g => h2 (h1 g))
      (fun s b m g => g.sub (fun _ h => h) (fun _ h => h) (fun _ h => h)) (fun h g => sendBatch_G h g) h g
  | accept pp =>
    cases h
    have hp := ha pp rfl
    simp only [accept]
    split
    · split
      · refine ⟨g.queue, ?_, g.got⟩
        intro e he r hr
        rcases Dict.mem_set he with he | rfl
        · exact g.sent e he r hr
        · exact hp r hr
      · refine ⟨g.queue, g.sent, ?_⟩
        intro e he r hr
        rcases Dict.mem_set he with he | rfl
        · exact g.got e he r hr
        · exact hp r hr
    · exact g
  | order k =>
    cases h
    simp only [order]
    split
    · exact g
    · split
      · exact discardAll_G _ _ _ (same rfl rfl rfl)
      · exact g
  | revert => cases h; exact revert_G s g
  | viewChange v =>
    cases h
    simp only [viewChange]
    split
    · exact (revert_G s g).sub (fun _ h => h) (fun _ h => by simp [clearAll] at h) (fun _ h => by simp [clearAll] at h)
    · exact g.sub (fun _ h => h) (fun _ h => by simp [clearAll] at h) (fun _ h => by simp [clearAll] at h)
  | gc k =>
    cases h
    refine g.sub ?_ (fun e he => (List.mem_filter.1 he).1) (fun e he => (List.mem_filter.1 he).1)
    rintro r ⟨m, p, hm, hp⟩
    have : (gc s k).1.queues.get? m = (s.queues.get? m).map _ := get_map ..
    rw [this] at hm
    obtain ⟨q, hq, rfl⟩ := Option.map_eq_some_iff.1 hm
    exact ⟨m, q, hq, (List.mem_filter.1 hp).1⟩
  | caughtUp k =>
    cases h
    simp only [caughtUp]
    split
    · split
      · exact caughtUpAll_G _ _ (same rfl rfl rfl)
      · split
        · exact g
        · exact g.sub (fun _ h => h) (fun _ h => by simp at h) (fun _ h => by simp at h)
    · exact g
  | fetched l r => cases h; exact discardAll_G l [r] s g

theorem step_reqs {c : Cfg} {s : St} {e : Ev} {x : St × List Out} (h : step c s e = some x) (hf : ∀ r, e ≠ .forgotten r) {r : Req}
    (hr : s.reqs.get? r = some true ∨ e = .finalised r) : x.1.reqs.get? r = some true := by
  have disc : ∀ (l : Nat) (rs : List Req) (s : St), (discardAll s l rs).reqs = s.reqs := fun l rs s => (discardAll_fields l rs s).1.reqs
  have all : ∀ (es : List (K3 × PP)) (x : St × List Out), (es.foldl caughtUpOne x).1.reqs = x.1.reqs := by
    intro es
    induction es with
    | nil => intro x; rfl
    | cons e es ih => intro x; exact (ih _).trans (disc _ _ _)
  have keep : x.1.reqs = s.reqs → (∀ r, e ≠ .finalised r) → x.1.reqs.get? r = some true := by
    intro h h'
    rw [h]; exact hr.resolve_right (h' r)
  cases e with
  | propagated a =>
    cases h
    have hr0 := hr.resolve_right (by simp)
    simp only [propagated]
    split
    · exact hr0
    · rename_i hn
      dsimp only
      rw [get_set]
      split
      · rename_i e; subst e
        exact absurd (by simp [Dict.has, hr0]) hn
      · exact hr0
  | finalised a =>
    cases h
    simp only [finalised]
    rw [get_set]
    split
    · rfl
    · rename_i hne
      rcases hr with h | h
      · exact h
      · cases h; exact absurd rfl hne
  | forgotten a => exact absurd rfl (hf a)
  | ready a =>
    refine keep ?_ (by simp)
    simp only [step, ready] at h
    split at h
    · cases h; rfl
    · cases h
    · split at h <;> cases h; rfl
  | set => cases h; exact keep rfl (by simp)
  | tick now old v =>
    refine keep ?_ (by simp)
    exact tick_rel (R := fun s s' _ => s'.reqs = s.reqs) (fun _ => rfl) (fun h1 h2 => h2.trans h1)
      (fun s b m => rfl) (fun h => (sendBatch_run h).reqs) h
  | accept pp =>
    refine keep ?_ (by simp)
    cases h
    simp only [accept]
    split
    · split <;> rfl
    · rfl
  | order k =>
    refine keep ?_ (by simp)
    cases h
    simp only [order]
    split
    · rfl
    · split
      · exact disc _ _ _
      · rfl
  | revert => cases h; exact keep (revert_same s).reqs (by simp)
  | viewChange v =>
    refine keep ?_ (by simp)
    cases h
    simp only [viewChange]
    split
    · exact (revert_same s).reqs
    · rfl
  | gc k => cases h; exact keep rfl (by simp)
  | caughtUp k =>
    refine keep ?_ (by simp)
    cases h
    simp only [caughtUp]
    split
    · split
      · exact all _ _
      · split <;> rfl
    · rfl
  | fetched l a => cases h; exact keep (discard_fields s l a).1.reqs (by simp)

theorem run_snoc {c : Cfg} {s : St} (e : Ev) : ∀ {es : List Ev} {y : St × List Out}, run c s es = some y →
    run c s (es ++ [e]) = match step c y.1 e with
      | none => none
      | some z => some (z.1, y.2 ++ z.2) := by
  intro es
  induction es generalizing s with
  | nil =>
    intro y h
    simp only [run, Option.some.injEq] at h; subst h
    simp only [List.nil_append, run]
    split <;> simp_all
  | cons a es ih =>
    intro y h
    rw [run] at h
    split at h
    · cases h
    · rename_i x hx
      split at h
      · cases h
      · rename_i z hz
        cases h
        rw [List.cons_append, run, hx]
        dsimp only
        rw [ih hz]
        cases step c z.1 e <;> simp

/-- What holds while only requests with enough PROPAGATEs come. -/
theorem run_goes {c : Cfg} {ls : List Nat} (h1 : 1 ∈ ls) (es : List Ev) :
    (∀ r, .forgotten r ∉ es) →
    (∀ es1 r es2, es = es1 ++ .ready r :: es2 → .finalised r ∈ es1 ∧ c.ledgerOf r ∈ ls) →
    (∀ es1 pp es2, es = es1 ++ .accept pp :: es2 → ∀ r ∈ pp.reqs, .finalised r ∈ es1) →
    (∀ now old v, .tick now old v ∈ es → ∀ l ∈ old, l ∈ ls) →
    ∃ x, run c (start ls) es = some x ∧ (∀ r, .finalised r ∈ es → x.1.reqs.get? r = some true) ∧
      G (fun r => .finalised r ∈ es) x.1 ∧ ∀ l ∈ ls, x.1.queues.has l = true := by
  induction es using snoc_induction with
  | nil =>
    intro _ _ _ _
    refine ⟨_, rfl, by simp, ⟨?_, by simp [start], by simp [start]⟩, ?_⟩
    · rintro r ⟨l, q, hq, hr⟩
      have := Dict.mem_of_get? hq
      simp [start] at this
      obtain ⟨_, _, _, h⟩ := this
      rw [h] at hr; simp at hr
    · intro l hl
      rw [has_mem_keys]
      simpa [start, Dict.keys, Function.comp_def] using hl
  | snoc es e ih =>
    intro hf hr ha ht
    obtain ⟨x, hx, h2, h3, h4⟩ := ih (fun r h => hf r (List.mem_append_left _ h))
      (fun es1 r es2 h => hr es1 r (es2 ++ [e]) (by rw [h]; simp))
      (fun es1 pp es2 h => ha es1 pp (es2 ++ [e]) (by rw [h]; simp))
      (fun now old v h => ht now old v (List.mem_append_left _ h))
    have hstep : ∃ z, step c x.1 e = some z := by
      cases hs : step c x.1 e with
      | some z => exact ⟨z, rfl⟩
      | none =>
        exfalso
        cases e with
        | ready r =>
          obtain ⟨g1, g2⟩ := hr es r [] rfl
          simp only [step, ready, h2 r g1] at hs
          obtain ⟨q, hq⟩ := (Dict.has_iff _ _).1 (h4 _ g2)
          rw [hq] at hs
          cases hs
        | tick now old v =>
          rcases tick_none hs with ⟨l, hl, h⟩ | ⟨r, hq, h⟩
          · have : l ∈ ls := by
              rcases List.mem_cons.1 hl with rfl | hl
              · exact h1
              · exact ht now old v (by simp) l hl
            rw [h4 l this] at h; cases h
          · rw [h2 r (h3.queue r hq)] at h; cases h
        | _ => simp [step] at hs
    obtain ⟨z, hz⟩ := hstep
    refine ⟨_, by rw [run_snoc e hx, hz], ?_, ?_, ?_⟩
    · intro r hr'
      refine step_reqs hz (fun r h => hf r (by simp [h])) ?_
      rcases List.mem_append.1 hr' with h | h
      · exact .inl (h2 r h)
      · simp at h; exact .inr h.symm
    · have : G (fun r => .finalised r ∈ es) z.1 := step_G hz h3 (fun r h => (hr es r [] (by rw [h])).1)
        (fun pp h => ha es pp [] (by rw [h]))
      exact ⟨fun r h => List.mem_append_left _ (this.queue r h), fun e he r h => List.mem_append_left _ (this.sent e he r h),
        fun e he r h => List.mem_append_left _ (this.got e he r h)⟩
    · intro l hl
      dsimp only
      rw [step_hasQ hz]; exact h4 l hl

/-! ## One place for a request -/

/-- A request is in one place: in the queue of its ledger or in one batch of its ledger. -/
structure U (c : Cfg) (s : St) (Q : List Req) : Prop where
  came : ∀ r, Held s r → r ∈ Q
  own : ∀ l q r, s.queues.get? l = some q → r ∈ q → l = c.ledgerOf r
  batch : ∀ k r, InBatch s k r → s.batches.get? k = some (c.ledgerOf r)
  apart : ∀ k r, Queued s r → ¬ InBatch s k r
  one : ∀ k k' r, InBatch s k r → InBatch s k' r → k = k'

/-- Requests only leave. -/
structure Shrink (s s' : St) : Prop where
  queue : ∀ l q', s'.queues.get? l = some q' → ∃ q, s.queues.get? l = some q ∧ ∀ r ∈ q', r ∈ q
  batch : ∀ k r, InBatch s' k r → InBatch s k r ∧ s'.batches.get? k = s.batches.get? k

theorem Shrink.queued {s s' : St} (h : Shrink s s') {r : Req} (hr : Queued s' r) : Queued s r := by
  obtain ⟨l, q', hq, hr⟩ := hr
  obtain ⟨q, hq, hs⟩ := h.queue l q' hq
  exact ⟨l, q, hq, hs r hr⟩

theorem Shrink.trans {s s' s'' : St} (h : Shrink s s') (h' : Shrink s' s'') : Shrink s s'' := by
  refine ⟨?_, ?_⟩
  · intro l q' hq
    obtain ⟨q, h1, h2⟩ := h'.queue l q' hq
    obtain ⟨p, h3, h4⟩ := h.queue l q h1
    exact ⟨p, h3, fun r hr => h4 r (h2 r hr)⟩
  · intro k r hr
    obtain ⟨h1, h2⟩ := h'.batch k r hr
    obtain ⟨h3, h4⟩ := h.batch k r h1
    exact ⟨h3, h2.trans h4⟩

theorem U.shrink {c : Cfg} {s s' : St} {Q : List Req} (u : U c s Q) (h : Shrink s s') : U c s' Q := by
  refine ⟨?_, ?_, ?_, ?_, ?_⟩
  · rintro r (hr | ⟨k, hr⟩)
    · exact u.came r (.inl (h.queued hr))
    · exact u.came r (.inr ⟨k, (h.batch k r hr).1⟩)
  · intro l q' r hq hr
    obtain ⟨q, hq, hs⟩ := h.queue l q' hq
    exact u.own l q r hq (hs r hr)
  · intro k r hr
    obtain ⟨h1, h2⟩ := h.batch k r hr
    rw [h2]; exact u.batch k r h1
  · intro k r hq hr
    exact u.apart k r (h.queued hq) (h.batch k r hr).1
  · intro k k' r h1 h2
    exact u.one k k' r (h.batch k r h1).1 (h.batch k' r h2).1

theorem Shrink.of_eq {s s' : St} (h1 : s'.queues = s.queues) (h2 : s'.batches = s.batches) (h3 : s'.sent = s.sent)
    (h4 : s'.got = s.got) (h5 : s.lastOrdered.2 ≤ s'.lastOrdered.2) : Shrink s s' := by
  refine ⟨?_, ?_⟩
  · intro l q hq; rw [h1] at hq; exact ⟨q, hq, fun _ h => h⟩
  · rintro k r ⟨a, b, pp, hp, hr⟩
    refine ⟨⟨?_, by rw [← h2]; exact b, pp, ?_, hr⟩, by rw [h2]⟩
    · simp [later] at a ⊢; omega
    · unfold St.pp at hp ⊢
      rw [h3, h4] at hp
      exact hp

theorem discardAll_shrink (l : Nat) (rs : List Req) (s : St) : Shrink s (discardAll s l rs) := by
  obtain ⟨h1, h2, _⟩ := discardAll_fields l rs s
  refine ⟨?_, ?_⟩
  · intro m q' hq
    have := (discardAll_q l rs m s).subset
    unfold St.q at this
    rw [hq] at this
    cases h : s.queues.get? m with
    | none =>
      have hh := h1.hasQ m
      simp [Dict.has, hq, h] at hh
    | some q => rw [h] at this; exact ⟨q, rfl, fun r hr => this hr⟩
  · intro k r hr
    refine ⟨?_, by rw [h2]⟩
    unfold InBatch at hr ⊢
    rw [h1.lastOrdered, h2, h1.pp] at hr; exact hr

theorem caughtUpAll_shrink (es : List (K3 × PP)) : ∀ (x : St × List Out), Shrink x.1 (es.foldl caughtUpOne x).1 := by
  induction es with
  | nil => intro x; exact Shrink.of_eq rfl rfl rfl rfl (Nat.le_refl _)
  | cons e es ih =>
    intro x
    refine Shrink.trans ?_ (ih _)
    unfold caughtUpOne
    refine Shrink.trans ?_ (discardAll_shrink _ _ _)
    refine ⟨fun l q h => ⟨q, h, fun _ h => h⟩, ?_⟩
    rintro k r ⟨a, b, pp, hp, hr⟩
    dsimp only at b
    rw [has_erase] at b
    simp at b
    refine ⟨⟨a, b.2, pp, ?_, hr⟩, by dsimp only; rw [get_erase, if_neg b.1]⟩
    unfold St.pp at hp ⊢
    dsimp only at hp
    rw [has_erase, get_erase, get_erase] at hp
    simp only [b.1, decide_false, Bool.not_false, Bool.true_and, if_false] at hp
    exact hp

theorem clearAll_shrink (s : St) (v : Nat) : Shrink s { clearAll s with view := v } := by
  refine ⟨fun l q h => ⟨q, h, fun _ h => h⟩, ?_⟩
  rintro k r ⟨_, b, _⟩
  simp [clearAll, Dict.has] at b

theorem sendBatch_U {c : Cfg} {v : List Req → Req → Verdict} {s : St} {l : Nat} {x : St × List Out} {Q : List Req}
    (h : sendBatch c v s l = some x) (n : N s) (u : U c s Q) : U c x.1 Q := by
  obtain ⟨q, t, hq, ht, h1, h2⟩ := sendBatch_spec h
  obtain ⟨used, hu, ⟨new, hn, hs⟩, _⟩ := ht.split
  have hnew : t.reqs = new := by simpa using hn
  have hnq := n.queue l q hq
  have hused : ∀ r ∈ t.reqs, r ∈ q := by
    intro r hr; rw [hu]; exact List.mem_append_left _ (hs.subset (hnew ▸ hr))
  have hqueue : ∀ m p, x.1.queues.get? m = some p → ∃ p0, s.queues.get? m = some p0 ∧ (∀ r ∈ p, r ∈ p0) ∧
      (m = l → ∀ r ∈ p, r ∉ t.reqs) := by
    intro m p hm
    rw [h1] at hm
    dsimp only at hm
    rw [get_set] at hm
    split at hm
    · rename_i e; subst e
      cases hm
      refine ⟨q, hq, fun r hr => by rw [hu]; exact List.mem_append_right _ hr, fun _ r hr hr' => ?_⟩
      rw [hu] at hnq
      exact (List.nodup_append.1 hnq).2.2 r (hs.subset (hnew ▸ hr')) r hr rfl
    · exact ⟨p, hm, fun _ h => h, fun e => absurd e (by assumption)⟩
  have hbatch : ∀ k r, InBatch x.1 k r → (k = (s.view, s.lastPp + 1) ∧ r ∈ t.reqs) ∨ (k ≠ (s.view, s.lastPp + 1) ∧ InBatch s k r) := by
    rintro k r ⟨a, b, pp, hp, hr⟩
    rw [h1] at a b hp
    dsimp only at a b
    by_cases e : k = (s.view, s.lastPp + 1)
    · refine .inl ⟨e, ?_⟩
      unfold St.pp at hp
      dsimp only at hp
      rw [has_set, get_set, e] at hp
      simp at hp
      rw [← hp] at hr
      exact hr
    · refine .inr ⟨e, a, ?_, pp, ?_, hr⟩
      · rw [has_set] at b; simpa [e] using b
      · unfold St.pp at hp ⊢
        dsimp only at hp
        rw [has_set, get_set] at hp
        simp only [e, decide_false, Bool.false_or, if_false] at hp
        exact hp
  refine ⟨?_, ?_, ?_, ?_, ?_⟩
  · rintro r (⟨m, p, hm, hr⟩ | ⟨k, hr⟩)
    · obtain ⟨p0, g1, g2, _⟩ := hqueue m p hm
      exact u.came r (.inl ⟨m, p0, g1, g2 r hr⟩)
    · rcases hbatch k r hr with ⟨_, h⟩ | ⟨_, h⟩
      · exact u.came r (.inl ⟨l, q, hq, hused r h⟩)
      · exact u.came r (.inr ⟨k, h⟩)
  · intro m p r hm hr
    obtain ⟨p0, g1, g2, _⟩ := hqueue m p hm
    exact u.own m p0 r g1 (g2 r hr)
  · intro k r hr
    rw [h1]
    dsimp only
    rw [get_set]
    rcases hbatch k r hr with ⟨e, h⟩ | ⟨e, h⟩
    · rw [if_pos e, ← u.own l q r hq (hused r h)]
    · rw [if_neg e]; exact u.batch k r h
  · rintro k r ⟨m, p, hm, hr⟩ hb
    obtain ⟨p0, g1, g2, g3⟩ := hqueue m p hm
    rcases hbatch k r hb with ⟨e, h⟩ | ⟨e, h⟩
    · have : m = l := (u.own m p0 r g1 (g2 r hr)).trans (u.own l q r hq (hused r h)).symm
      exact g3 this r hr h
    · exact u.apart k r ⟨m, p0, g1, g2 r hr⟩ h
  · intro k k' r a b
    rcases hbatch k r a with ⟨e, h⟩ | ⟨e, h⟩
    · rcases hbatch k' r b with ⟨e', h'⟩ | ⟨e', h'⟩
      · rw [e, e']
      · exact absurd h' (u.apart k' r ⟨l, q, hq, hused r h⟩)
    · rcases hbatch k' r b with ⟨e', h'⟩ | ⟨e', h'⟩
      · exact absurd h (u.apart k r ⟨l, q, hq, hused r h'⟩)
      · exact u.one k k' r h h'

theorem revertOne_U {c : Cfg} {s : St} {k : K3} {Q : List Req} (hk : later s.lastOrdered k = true) (u : U c s Q) : U c (revertOne s k) Q := by
  have hs := revertOne_same s k
  have hb := revertOne_batches s k
  have hin : ∀ j r, InBatch (revertOne s k) j r → j ≠ k ∧ InBatch s j r := by
    rintro j r ⟨a, b, pp, hp, hr⟩
    unfold Dict.has at b
    rw [hb] at b
    split at b
    · cases b
    · rename_i hne
      rw [hs.lastOrdered] at a
      rw [hs.pp] at hp
      exact ⟨hne, a, b, pp, hp, hr⟩
  -- a request in a queue was there or comes from the batch which is reverted
  have hq : ∀ l q r, (revertOne s k).queues.get? l = some q → r ∈ q →
      (∃ q0, s.queues.get? l = some q0 ∧ r ∈ q0) ∨ (s.batches.get? k = some l ∧ InBatch s k r) := by
    intro l q r hq hr
    cases hbk : s.batches.get? k with
    | none => unfold revertOne at hq; rw [hbk] at hq; exact .inl ⟨q, hq, hr⟩
    | some m =>
      cases hp : s.pp k with
      | none => unfold revertOne at hq; rw [hbk, hp] at hq; exact .inl ⟨q, hq, hr⟩
      | some pp =>
        cases hqm : s.queues.get? m with
        | none => unfold revertOne at hq; rw [hbk, hp] at hq; dsimp only at hq; rw [hqm] at hq; exact .inl ⟨q, hq, hr⟩
        | some q0 =>
          unfold revertOne at hq; rw [hbk, hp] at hq; dsimp only at hq; rw [hqm] at hq; dsimp only at hq
          rw [get_set] at hq
          split at hq
          · rename_i e; subst e
            cases hq
            rcases (foldl_addQ_mem _ _).1 hr with h | h
            · exact .inl ⟨q0, hqm, h⟩
            · exact .inr ⟨rfl, hk, by simp [Dict.has, hbk], pp, hp, h⟩
          · exact .inl ⟨q, hq, hr⟩
  refine ⟨?_, ?_, ?_, ?_, ?_⟩
  · rintro r (⟨l, q, h, hr⟩ | ⟨j, h⟩)
    · rcases hq l q r h hr with ⟨q0, h1, h2⟩ | ⟨_, h2⟩
      · exact u.came r (.inl ⟨l, q0, h1, h2⟩)
      · exact u.came r (.inr ⟨k, h2⟩)
    · exact u.came r (.inr ⟨j, (hin j r h).2⟩)
  · intro l q r h hr
    rcases hq l q r h hr with ⟨q0, h1, h2⟩ | ⟨h1, h2⟩
    · exact u.own l q0 r h1 h2
    · have := u.batch k r h2
      rw [h1] at this; cases this; rfl
  · intro j r h
    obtain ⟨h1, h2⟩ := hin j r h
    rw [hb, if_neg h1]; exact u.batch j r h2
  · rintro j r ⟨l, q, h, hr⟩ hj
    obtain ⟨h1, h2⟩ := hin j r hj
    rcases hq l q r h hr with ⟨q0, h3, h4⟩ | ⟨_, h4⟩
    · exact u.apart j r ⟨l, q0, h3, h4⟩ h2
    · exact h1 (u.one j k r h2 h4)
  · intro j j' r a b
    exact u.one j j' r (hin j r a).2 (hin j' r b).2

theorem revertKeys_U {c : Cfg} {Q : List Req} (ks : List K3) : ∀ (s : St), (∀ k ∈ ks, later s.lastOrdered k = true) → U c s Q →
    U c (ks.foldl revertOne s) Q := by
  induction ks with
  | nil => intro s _ u; exact u
  | cons k ks ih =>
    intro s h u
    refine ih _ ?_ (revertOne_U (h k List.mem_cons_self) u)
    intro j hj
    rw [(revertOne_same s k).lastOrdered]
    exact h j (List.mem_cons_of_mem _ hj)

theorem revert_U {c : Cfg} {s : St} {Q : List Req} (u : U c s Q) : U c (revert s) Q := by
  refine revertKeys_U _ s ?_ u
  intro k hk
  have := List.all_takeWhile (p := fun k => later s.lastOrdered k) (l := sortDown s.batches.keys)
  exact List.all_eq_true.1 this k hk

theorem U.mono {c : Cfg} {s : St} {Q Q' : List Req} (u : U c s Q) (h : ∀ r ∈ Q, r ∈ Q') : U c s Q' :=
  ⟨fun r hr => h r (u.came r hr), u.own, u.batch, u.apart, u.one⟩

theorem step_U {c : Cfg} {s : St} {e : Ev} {x : St × List Out} {Q : List Req} (h : step c s e = some x) (w : W s) (n : N s)
    (u : U c s Q) (ha : ∀ pp, e ≠ .accept pp) (hn : (Q ++ queueds x.2).Nodup) : U c x.1 (Q ++ queueds x.2) := by
  have up : ∀ {s' : St} {Q' : List Req}, U c s' Q → U c s' (Q ++ Q') := fun u => u.mono fun r hr => List.mem_append_left _ hr
  cases e with
  | propagated r =>
    cases h
    refine up ?_
    simp only [propagated]
    split
    · exact u
    · exact u.shrink (Shrink.of_eq rfl rfl rfl rfl (Nat.le_refl _))
  | finalised r => cases h; exact up (u.shrink (Shrink.of_eq rfl rfl rfl rfl (Nat.le_refl _)))
  | forgotten r => cases h; exact up (u.shrink (Shrink.of_eq rfl rfl rfl rfl (Nat.le_refl _)))
  | ready a =>
    simp only [step, ready] at h
    split at h
    · cases h; exact up u
    · cases h
    · split at h
      · cases h
      · rename_i q hq
        cases h
        simp only [queueds] at hn ⊢
        have hnew : a ∉ Q := by
          intro h
          exact (List.nodup_append.1 hn).2.2 a h a (by simp) rfl
        have hb : ∀ k r, InBatch { s with queues := s.queues.set (c.ledgerOf a) (addQ q a) } k r → InBatch s k r := fun k r h => h
        have hqs : ∀ m p r, (s.queues.set (c.ledgerOf a) (addQ q a)).get? m = some p → r ∈ p →
            (∃ p0, s.queues.get? m = some p0 ∧ r ∈ p0) ∨ (m = c.ledgerOf a ∧ r = a) := by
          intro m p r hm hr
          rw [get_set] at hm
          split at hm
          · rename_i e
            cases hm
            rcases addQ_mem.1 hr with h | h
            · exact .inl ⟨q, by rw [e]; exact hq, h⟩
            · exact .inr ⟨e, h⟩
          · exact .inl ⟨p, hm, hr⟩
        refine ⟨?_, ?_, u.batch, ?_, u.one⟩
        · rintro r (⟨m, p, hm, hr⟩ | ⟨k, h⟩)
          · rcases hqs m p r hm hr with ⟨p0, h1, h2⟩ | ⟨_, rfl⟩
            · exact List.mem_append_left _ (u.came r (.inl ⟨m, p0, h1, h2⟩))
            · simp
          · exact List.mem_append_left _ (u.came r (.inr ⟨k, h⟩))
        · intro m p r hm hr
          rcases hqs m p r hm hr with ⟨p0, h1, h2⟩ | ⟨h, rfl⟩
          · exact u.own m p0 r h1 h2
          · exact h
        · rintro k r ⟨m, p, hm, hr⟩ hk
          rcases hqs m p r hm hr with ⟨p0, h1, h2⟩ | ⟨h, rfl⟩
          · exact u.apart k r ⟨m, p0, h1, h2⟩ hk
          · exact hnew (u.came r (.inr ⟨k, hk⟩))
  | set => cases h; exact up (u.shrink (Shrink.of_eq rfl rfl rfl rfl (Nat.le_refl _)))
  | tick now old v =>
    refine up ?_
    exact (tick_rel (R := fun s s' _ => W s ∧ N s ∧ U c s Q → W s' ∧ N s' ∧ U c s' Q) (fun _ h => h) (fun h1 h2 h => h2 (h1 h))
      (fun s b m h => ⟨⟨h.1.1, h.1.2, h.1.3, h.1.4, h.1.5, h.1.6, h.1.7⟩, h.2.1.of_eq rfl,
        h.2.2.shrink (Shrink.of_eq rfl rfl rfl rfl (Nat.le_refl _))⟩)
      (fun hs h => ⟨sendBatch_W hs h.1, sendBatch_N hs h.2.1, sendBatch_U hs h.2.1 h.2.2⟩) h ⟨w, n, u⟩).2.2
  | accept pp => exact absurd rfl (ha pp)
  | order k =>
    cases h
    refine up ?_
    simp only [order]
    split
    · exact u
    · split
      · rename_i hk
        unfold isNext at hk
        simp only [Bool.and_eq_true, later, decide_eq_true_eq] at hk
        exact u.shrink (Shrink.trans (s' := setOrdered s k) (Shrink.of_eq rfl rfl rfl rfl (Nat.le_of_lt hk.1)) (discardAll_shrink _ _ (setOrdered s k)))
      · exact u
  | revert => cases h; exact up (revert_U u)
  | viewChange v =>
    cases h
    refine up ?_
    simp only [viewChange]
    split
    · exact (revert_U u).shrink (clearAll_shrink _ _)
    · exact u.shrink (clearAll_shrink _ _)
  | gc k =>
    cases h
    refine up (u.shrink ⟨?_, ?_⟩)
    · intro l q' hq
      have : (gc s k).1.queues.get? l = (s.queues.get? l).map _ := get_map ..
      rw [this] at hq
      obtain ⟨q, hq', rfl⟩ := Option.map_eq_some_iff.1 hq
      exact ⟨q, hq', fun r hr => (List.mem_filter.1 hr).1⟩
    · have hbat : ∀ j, (gc s k).1.batches.get? j = if j ∉ ((s.sent ++ s.got).map Prod.fst).filter (fun j => !later k j) then
          s.batches.get? j else none := by
        intro j
        have := filter_has s.batches (fun j => decide (j ∉ ((s.sent ++ s.got).map Prod.fst).filter (fun j => !later k j))) j
        simp only [decide_eq_true_eq] at this
        exact this
      have hsent : ∀ j, (gc s k).1.sent.get? j = if later k j then s.sent.get? j else none := fun j => filter_has s.sent (later k) j
      have hgot : ∀ j, (gc s k).1.got.get? j = if later k j then s.got.get? j else none := fun j => filter_has s.got (later k) j
      rintro j r ⟨a, b, pp, hp, hr⟩
      have hb := b
      unfold Dict.has at hb
      rw [hbat] at hb
      have hlk : later k j = true := by
        cases e : later k j
        · unfold St.pp Dict.has at hp
          rw [hsent, hgot, e] at hp
          simp at hp
        · rfl
      split at hb
      · rename_i hin
        refine ⟨⟨a, hb, pp, ?_, hr⟩, by rw [hbat, if_pos hin]⟩
        unfold St.pp Dict.has at hp ⊢
        rw [hsent, hgot, if_pos hlk, if_pos hlk] at hp
        exact hp
      · cases hb
  | caughtUp k =>
    cases h
    refine up ?_
    simp only [caughtUp]
    split
    · rename_i hk
      split
      · refine u.shrink (Shrink.trans (s' := setOrdered s k) (Shrink.of_eq rfl rfl rfl rfl ?_) (caughtUpAll_shrink _ (setOrdered s k, [])))
        simp [later] at hk
        exact Nat.le_of_lt hk
      · split
        · exact u
        · refine u.shrink ⟨fun l q h => ⟨q, h, fun _ h => h⟩, ?_⟩
          rintro j r ⟨_, _, pp, hp, _⟩
          simp [St.pp, Dict.has, Dict.get?] at hp
    · exact u
  | fetched l r => cases h; exact up (u.shrink (discardAll_shrink l [r] s))

theorem start_U (c : Cfg) (ls : List Nat) : U c (start ls) [] := by
  have hq : ∀ l q r, (start ls).queues.get? l = some q → r ∉ q := by
    intro l q r hq hr
    have := Dict.mem_of_get? hq
    simp [start] at this
    obtain ⟨_, _, _, h⟩ := this
    rw [h] at hr; simp at hr
  have hb : ∀ k r, ¬ InBatch (start ls) k r := by
    rintro k r ⟨_, b, _⟩
    simp [start, Dict.has] at b
  refine ⟨?_, fun l q r h hr => absurd hr (hq l q r h), fun k r h => absurd h (hb k r), fun k r _ h => absurd h (hb k r),
    fun k _ r h => absurd h (hb k r)⟩
  rintro r (⟨l, q, h, hr⟩ | ⟨k, h⟩)
  · exact absurd hr (hq l q r h)
  · exact absurd h (hb k r)

theorem run_U {c : Cfg} : ∀ {es : List Ev} {s : St} {x : St × List Out} {Q : List Req}, run c s es = some x → W s → N s → U c s Q →
    (∀ pp, .accept pp ∉ es) → (Q ++ queueds x.2).Nodup → U c x.1 (Q ++ queueds x.2) := by
  intro es
  induction es with
  | nil =>
    intro s x Q h w n u _ hn
    simp only [run, Option.some.injEq] at h; subst h
    simpa [queueds] using u
  | cons e es ih =>
    intro s x Q h w n u ha hn
    rw [run] at h
    split at h
    · cases h
    · rename_i a hs
      split at h
      · cases h
      · rename_i b hb
        cases h
        dsimp only at hn ⊢
        rw [queueds_append, ← List.append_assoc] at hn ⊢
        exact ih hb (step_W hs w) (step_N hs n)
          (step_U hs w n u (fun pp h => ha pp (by rw [h]; exact List.mem_cons_self)) (List.nodup_append.1 hn).1)
          (fun pp h => ha pp (List.mem_cons_of_mem _ h)) hn

/-! ## Why requests leave -/

/-- Why a request left: what the event and the state say about it. -/
def Cause (c : Cfg) (s : St) (e : Ev) (r : Req) : Why → Prop
  | .ordered => ∃ k pp, e = .order k ∧ s.pp k = some pp ∧ r ∈ pp.reqs ∧ isNext s k = true
  | .checkpointed => ∃ k j pp, e = .gc k ∧ (j, pp) ∈ s.sent ++ s.got ∧ j.2 ≤ k.2 ∧ r ∈ pp.reqs
  | .caughtUp => (∃ l, e = .fetched l r) ∨ ∃ k j pp, e = .caughtUp k ∧ (j, pp) ∈ s.sent ++ s.got ∧ j.2 ≤ k.2 ∧ r ∈ pp.reqs
  | .forgotten => (∃ now old v, e = .tick now old v) ∧ Queued s r ∧ s.reqs.get? r = none
  | .already => c.master = true ∧ Queued s r ∧ ∃ now old v l b, e = .tick now old v ∧ v l b r = .suspicious

theorem caughtUpAll_lefts (es : List (K3 × PP)) : ∀ (x : St × List Out) (o : Out), o ∈ (es.foldl caughtUpOne x).2 →
    o ∈ x.2 ∨ ∃ e ∈ es, ∃ r ∈ e.2.reqs, o = .left r .caughtUp := by
  induction es with
  | nil => intro x o h; exact .inl h
  | cons e es ih =>
    intro x o h
    rcases ih _ _ h with h | ⟨f, hf, h⟩
    · rcases List.mem_append.1 h with h | h
      · exact .inl h
      · obtain ⟨r, hr, rfl⟩ := List.mem_map.1 h
        exact .inr ⟨e, List.mem_cons_self, r, hr, rfl⟩
    · exact .inr ⟨f, List.mem_cons_of_mem _ hf, h⟩

theorem sendAll_lefts {c : Cfg} {v : Nat → List Req → Req → Verdict} {skip : St → List Nat → Nat → Bool} :
    ∀ {ls : List Nat} {x : St × List Nat} {y : (St × List Nat) × List Out}, sendAll c v skip ls x = some y →
      y.1.1.reqs = x.1.reqs ∧ (∀ r, Queued y.1.1 r → Queued x.1 r) ∧ ∀ r why, Out.left r why ∈ y.2 →
        Queued x.1 r ∧ (why = .forgotten ∧ x.1.reqs.get? r = none ∨ why = .already ∧ c.master = true ∧ ∃ l b, v l b r = .suspicious) := by
  intro ls
  induction ls with
  | nil => intro x y h; simp only [sendAll, Option.some.injEq] at h; subst h; exact ⟨rfl, fun _ h => h, by simp⟩
  | cons l ls ih =>
    intro x y h
    rw [sendAll] at h
    split at h
    · exact ih h
    · split at h
      · cases h
      · rename_i a ha
        split at h
        · cases h
        · rename_i b hb
          cases h
          obtain ⟨g1, g2, g3⟩ := ih hb
          have hr := (sendBatch_run ha).reqs
          have hs := sendBatch_sub ha
          refine ⟨g1.trans hr, fun r h => hs r (g2 r h), ?_⟩
          intro r why hw
          rcases List.mem_append.1 hw with hw | hw
          · obtain ⟨q, t, hq, ht, h1, h2⟩ := sendBatch_spec ha
            rw [h2] at hw
            rcases List.mem_append.1 hw with hw | hw
            · obtain ⟨e, he, h⟩ := List.mem_map.1 hw
              cases h
              obtain ⟨g, e1, e2⟩ := ht.gone0
              obtain ⟨e3, e4⟩ := e2 e (by rw [e1] at he; simpa using he)
              refine ⟨⟨l, q, hq, e3⟩, ?_⟩
              rcases e4 with h | ⟨h, b, h'⟩
              · exact .inl h
              · unfold verdict at h'
                split at h'
                · exact .inr ⟨h, by assumption, l, b, h'⟩
                · cases h'
            · simp at hw
          · obtain ⟨h3, h4⟩ := g3 r why hw
            refine ⟨hs r h3, ?_⟩
            rw [hr] at h4; exact h4

theorem tick_lefts {c : Cfg} {v : Nat → List Req → Req → Verdict} {now : Nat} {old : List Nat} {s : St} {x : St × List Out}
    (h : tick c v now old s = some x) {r : Req} {why : Why} (hw : Out.left r why ∈ x.2) :
    Queued s r ∧ (why = .forgotten ∧ s.reqs.get? r = none ∨ why = .already ∧ c.master = true ∧ ∃ l b, v l b r = .suspicious) := by
  unfold tick at h
  split at h
  · split at h
    · cases h
    · rename_i a ha
      split at h
      · cases h
      · rename_i b hb
        split at h
        · cases h
        · rename_i z hz
          cases h
          obtain ⟨a1, a2, a3⟩ := sendAll_lefts ha
          obtain ⟨b1, b2, b3⟩ := sendAll_lefts hb
          rcases List.mem_append.1 hw with hw | hw
          · exact a3 r why hw
          · rcases List.mem_append.1 hw with hw | hw
            · obtain ⟨h1, h2⟩ := b3 r why hw
              rw [a1] at h2
              exact ⟨a2 r h1, h2⟩
            · unfold primariesBatch at hz
              split at hz
              · obtain ⟨h1, h2⟩ := (sendAll_lefts hz).2.2 r why hw
                dsimp only at h2
                rw [b1, a1] at h2
                exact ⟨a2 r (b2 r h1), h2⟩
              · cases hz; simp at hw
  · cases h; simp at hw

theorem step_left {c : Cfg} {s : St} {e : Ev} {x : St × List Out} (h : step c s e = some x) {r : Req} {why : Why}
    (hw : Out.left r why ∈ x.2) : Cause c s e r why := by
  cases e with
  | propagated a => cases h; simp at hw
  | finalised a => cases h; simp at hw
  | forgotten a => cases h; simp at hw
  | ready a =>
    simp only [step, ready] at h
    split at h
    · cases h; simp at hw
    · cases h
    · split at h <;> cases h; simp at hw
  | set => cases h; simp at hw
  | tick now old v =>
    obtain ⟨h1, ⟨rfl, h2⟩ | ⟨rfl, h2, l, b, h3⟩⟩ := tick_lefts h hw
    · exact ⟨⟨now, old, v, rfl⟩, h1, h2⟩
    · exact ⟨h2, h1, now, old, v, l, b, rfl, h3⟩
  | accept pp => cases h; simp at hw
  | order k =>
    cases h
    unfold order at hw
    split at hw
    · simp at hw
    · rename_i pp hp
      split at hw
      · rename_i hn
        obtain ⟨a, ha, h⟩ := List.mem_map.1 hw
        cases h
        exact ⟨k, pp, rfl, hp, ha, hn⟩
      · simp at hw
  | revert => cases h; simp at hw
  | viewChange v => cases h; simp at hw
  | gc k =>
    cases h
    obtain ⟨a, ha, h⟩ := List.mem_map.1 hw
    cases h
    obtain ⟨pp, hp, hr⟩ := List.mem_flatMap.1 ha
    obtain ⟨e, he, h⟩ := List.mem_filterMap.1 hp
    split at h
    · cases h
    · rename_i hl
      cases h
      simp [later] at hl
      exact ⟨k, e.1, e.2, rfl, he, hl, hr⟩
  | caughtUp k =>
    cases h
    unfold caughtUp at hw
    split at hw
    · split at hw
      · rcases caughtUpAll_lefts _ _ _ hw with h | ⟨e, he, a, ha, h⟩
        · simp at h
        · cases h
          have : e ∈ s.sent ++ s.got ∧ later k e.1 = false := by
            simp only [List.mem_append, List.mem_filter, Bool.and_eq_true, Bool.not_eq_true'] at he ⊢
            rcases he with ⟨h1, h2, _⟩ | ⟨h1, h2⟩
            · exact ⟨.inr h1, h2⟩
            · exact ⟨.inl h1, h2⟩
          simp [later] at this
          exact .inr ⟨k, e.1, e.2, rfl, by simpa using this.1, this.2, ha⟩
      · split at hw <;> simp at hw
    · simp at hw
  | fetched l a =>
    cases h
    simp at hw
    obtain ⟨rfl, rfl⟩ := hw
    exact .inl ⟨l, rfl⟩

end Verif.ReqQueue
