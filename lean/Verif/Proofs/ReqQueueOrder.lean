import Verif.Proofs.ReqQueueSend
/-! The order in which requests are taken, when an instance stops, and in how many places a request is. -/
namespace Verif.ReqQueue
open Verif

/-! ## Queues have no request twice, and always the same ledgers -/

structure N (s : St) : Prop where
  keys : s.queues.keys.Nodup
  queue : ∀ l q, s.queues.get? l = some q → q.Nodup

theorem dropQ_sublist (q : List Req) (r : Req) : (dropQ q r).Sublist q := List.filter_sublist

theorem N.set {s s' : St} {l : Nat} {q q' : List Req} (n : N s) (hq : s.queues.get? l = some q) (hn : q'.Nodup)
    (h : s'.queues = s.queues.set l q') : N s' := by
  refine ⟨by rw [h, keys_set _ _ _ (by simp [Dict.has, hq])]; exact n.keys, ?_⟩
  intro m p hm
  rw [h, get_set] at hm
  split at hm
  · cases hm; exact hn
  · exact n.queue m p hm

theorem N.of_eq {s s' : St} (n : N s) (h : s'.queues = s.queues) : N s' := by
  refine ⟨by rw [h]; exact n.keys, ?_⟩
  rw [h]; exact n.queue

theorem revertOne_N (s : St) (k : K3) (n : N s) : N (revertOne s k) := by
  unfold revertOne
  split
  · exact n
  · dsimp only
    split
    · exact n.of_eq rfl
    · split
      · exact n.of_eq rfl
      · rename_i q hq
        exact n.set hq (foldl_addQ_nodup _ (n.queue _ q hq)) rfl

theorem revert_N (s : St) (n : N s) : N (revert s) := by
  unfold revert
  generalize (sortDown s.batches.keys).takeWhile (fun k => later s.lastOrdered k) = ks
  induction ks generalizing s with
  | nil => exact n
  | cons k ks ih => exact ih _ (revertOne_N s k n)

theorem discard_N (s : St) (l : Nat) (r : Req) (n : N s) : N (discard s l r) := by
  unfold discard
  split
  · exact n
  · rename_i q hq
    exact n.set hq ((n.queue l q hq).sublist (dropQ_sublist q r)) rfl

theorem discardAll_N (l : Nat) (rs : List Req) : ∀ (s : St), N s → N (discardAll s l rs) := by
  induction rs with
  | nil => intro s n; exact n
  | cons r rs ih => intro s n; exact ih _ (discard_N s l r n)

theorem sendBatch_N {c : Cfg} {v : List Req → Req → Verdict} {s : St} {l : Nat} {x : St × List Out}
    (h : sendBatch c v s l = some x) (n : N s) : N x.1 := by
  obtain ⟨q, t, hq, ht, _, _, h3, _⟩ := sents_one h
  obtain ⟨used, hu, _⟩ := ht.split
  refine n.set hq ?_ h3
  have := n.queue l q hq
  rw [hu] at this
  exact (List.nodup_append.1 this).2.1

theorem caughtUpAll_N (es : List (K3 × PP)) : ∀ (x : St × List Out), N x.1 → N (es.foldl caughtUpOne x).1 := by
  induction es with
  | nil => intro x n; exact n
  | cons e es ih =>
    intro x n
    refine ih _ ?_
    unfold caughtUpOne
    exact discardAll_N _ _ _ (n.of_eq rfl)

theorem step_N {c : Cfg} {s : St} {e : Ev} {x : St × List Out} (h : step c s e = some x) (n : N s) : N x.1 := by
  cases e with
  | propagated r =>
    cases h
    simp only [propagated]
    split
    · exact n
    · exact n.of_eq rfl
  | finalised r => cases h; exact n.of_eq rfl
  | forgotten r => cases h; exact n.of_eq rfl
  | ready r =>
    simp only [step, ready] at h
    split at h
    · cases h; exact n
    · cases h
    · split at h
      · cases h
      · rename_i q hq
        cases h
        exact n.set hq (addQ_nodup (n.queue _ q hq)) rfl
  | set => cases h; exact n.of_eq rfl
  | tick now old v =>
    exact tick_rel (R := fun s s' _ => N s → N s') (fun _ n => n) (fun h1 h2 n => h2 (h1 n)) (fun s b m n => n.of_eq rfl)
      (fun h n => sendBatch_N h n) h n
  | accept pp =>
    cases h
    simp only [accept]
    split
    · split <;> exact n.of_eq rfl
    · exact n
  | order k =>
    cases h
    simp only [order]
    split
    · exact n
    · split
      · exact discardAll_N _ _ _ (n.of_eq rfl)
      · exact n
  | revert => cases h; exact revert_N s n
  | viewChange v =>
    cases h
    simp only [viewChange]
    split
    · exact (revert_N s n).of_eq rfl
    · exact n.of_eq rfl
  | gc k =>
    cases h
    refine ⟨?_, ?_⟩
    · have : (gc s k).1.queues.keys = s.queues.keys := by simp [gc, Dict.keys, Function.comp_def]
      rw [this]; exact n.keys
    · intro l q hq
      have : (gc s k).1.queues.get? l = (s.queues.get? l).map _ := get_map ..
      rw [this] at hq
      obtain ⟨p, hp, rfl⟩ := Option.map_eq_some_iff.1 hq
      exact (n.queue l p hp).sublist List.filter_sublist
  | caughtUp k =>
    cases h
    simp only [caughtUp]
    split
    · split
      · exact caughtUpAll_N _ _ (n.of_eq rfl)
      · split
        · exact n
        · exact n.of_eq rfl
    · exact n
  | fetched l r => cases h; exact discard_N s l r n

theorem start_N {ls : List Nat} (h : ls.Nodup) : N (start ls) := by
  refine ⟨by simpa [start, Dict.keys, Function.comp_def] using h, ?_⟩
  intro l q hq
  have := Dict.mem_of_get? hq
  simp [start] at this
  obtain ⟨_, _, _, h⟩ := this
  rw [h]; simp

theorem run_N {c : Cfg} : ∀ {es : List Ev} {s : St} {x : St × List Out}, run c s es = some x → N s → N x.1 := by
  intro es
  induction es with
  | nil => intro s x h w; simp only [run, Option.some.injEq] at h; subst h; exact w
  | cons e es ih =>
    intro s x h w
    rw [run] at h
    split at h
    · cases h
    · rename_i a ha
      split at h
      · cases h
      · rename_i b hb
        cases h
        exact (ih hb (step_N ha w) : N b.1)

/-- A run in two parts. -/
theorem run_append {c : Cfg} : ∀ {es fs : List Ev} {s : St} {x : St × List Out}, run c s (es ++ fs) = some x →
    ∃ y z, run c s es = some y ∧ run c y.1 fs = some z ∧ x = (z.1, y.2 ++ z.2) := by
  intro es
  induction es with
  | nil => intro fs s x h; exact ⟨(s, []), x, rfl, h, rfl⟩
  | cons e es ih =>
    intro fs s x h
    rw [List.cons_append, run] at h
    split at h
    · cases h
    · rename_i a ha
      split at h
      · cases h
      · rename_i b hb
        cases h
        obtain ⟨y, z, h1, h2, h3⟩ := ih hb
        refine ⟨(y.1, a.2 ++ y.2), z, ?_, h2, ?_⟩
        · rw [run, ha]; dsimp only; rw [h1]
        · rw [h3]; simp

/-- What is sent is sent by a `tick`. -/
theorem step_sents {c : Cfg} {s : St} {e : Ev} {x : St × List Out} (h : step c s e = some x) {pp : PP} (hp : Out.sent pp ∈ x.2) :
    ∃ now old v, e = .tick now old v := by
  cases e with
  | tick now old v => exact ⟨now, old, v, rfl⟩
  | ready r =>
    simp only [step, ready] at h
    split at h
    · cases h; simp at hp
    · cases h
    · split at h
      · cases h
      · cases h; simp at hp
  | order k =>
    cases h
    simp only [order] at hp
    split at hp
    · simp at hp
    · split at hp <;> simp at hp
  | gc k => cases h; simp [gc] at hp
  | caughtUp k =>
    cases h
    obtain ⟨_, _, h⟩ := caughtUp_outs c s k _ hp
    cases h
  | _ => cases h; simp at hp

/-- What a batch which is sent consists of. -/
theorem sent_shape {c : Cfg} {v : Nat → List Req → Req → Verdict} {now : Nat} {old : List Nat} {s : St} {x : St × List Out}
    (h : tick c v now old s = some x) (n : N s) : ∀ pp, Out.sent pp ∈ x.2 →
      pp.reqs.length ≤ c.maxSize ∧ pp.reqs.Nodup ∧ ∀ r ∈ pp.reqs, s.reqs.get? r = some true ∧ Queued s r := by
  refine (tick_rel (R := fun s s' o => N s → (N s' ∧ s'.reqs = s.reqs ∧ (∀ r, Queued s' r → Queued s r) ∧ ∀ pp, Out.sent pp ∈ o →
      pp.reqs.length ≤ c.maxSize ∧ pp.reqs.Nodup ∧ ∀ r ∈ pp.reqs, s.reqs.get? r = some true ∧ Queued s r)) ?_ ?_ ?_ ?_ h n).2.2.2
  · intro s n; exact ⟨n, rfl, fun _ h => h, by simp⟩
  · intro s s' s'' o o' h1 h2 n
    obtain ⟨n1, e1, f1, g1⟩ := h1 n
    obtain ⟨n2, e2, f2, g2⟩ := h2 n1
    refine ⟨n2, e2.trans e1, fun r hr => f1 r (f2 r hr), ?_⟩
    intro pp hp
    rcases List.mem_append.1 hp with hp | hp
    · exact g1 pp hp
    · obtain ⟨a, b, d⟩ := g2 pp hp
      refine ⟨a, b, fun r hr => ⟨?_, f1 r (d r hr).2⟩⟩
      rw [← e1]; exact (d r hr).1
  · intro s b m n; exact ⟨n.of_eq rfl, rfl, fun r h => h, by simp⟩
  · intro s l x hx n
    obtain ⟨q, t, hq, ht, h1, h2, h3, h4, h5, h6, _⟩ := sents_one hx
    obtain ⟨used, hu, ⟨new, hn, hs⟩, _⟩ := ht.split
    refine ⟨sendBatch_N hx n, h6, ?_, ?_⟩
    · rintro r ⟨m, p, hm, hr⟩
      rw [h3, get_set] at hm
      split at hm
      · cases hm
        exact ⟨l, q, hq, by rw [hu]; exact List.mem_append_right _ hr⟩
      · exact ⟨m, p, hm, hr⟩
    · intro pp hp
      rw [← mem_sents, h1] at hp
      simp at hp
      subst hp
      dsimp only
      have hnq := n.queue l q hq
      have hnew : t.reqs = new := by simpa using hn
      refine ⟨ht.size (by simp), ?_, ?_⟩
      · rw [hnew]
        rw [hu] at hnq
        exact (List.nodup_append.1 hnq).1.sublist hs
      · intro r hr
        rcases ht.known r hr with h | ⟨h, h'⟩
        · simp at h
        · exact ⟨h', l, q, hq, h⟩

/-! ## First come, first taken -/

/-- The requests of the batches of a ledger, in the order in which they were sent. -/
def sentOf (l : Nat) (o : List Out) : List Req := (sents o).flatMap (fun pp => if pp.ledger = l then pp.reqs else [])

/-- The requests put into the queue of a ledger, in the order of their coming. -/
def cameFor (c : Cfg) (l : Nat) (o : List Out) : List Req := (queueds o).filter (fun r => c.ledgerOf r = l)

/-- The queue of a ledger. -/
def St.q (s : St) (l : Nat) : List Req := (s.queues.get? l).getD []

/-- Requests leave a queue in the order in which they came into it. -/
def Fifo (c : Cfg) (l : Nat) (s s' : St) (o : List Out) : Prop := (sentOf l o ++ s'.q l).Sublist (s.q l ++ cameFor c l o)

theorem Fifo.trans {c : Cfg} {l : Nat} {s s' s'' : St} {o o' : List Out} (h : Fifo c l s s' o) (h' : Fifo c l s' s'' o') :
    Fifo c l s s'' (o ++ o') := by
  unfold Fifo sentOf cameFor at *
  rw [sents_append, queueds_append, List.flatMap_append, List.filter_append, List.append_assoc]
  refine (List.Sublist.append (List.Sublist.refl _) h').trans ?_
  rw [← List.append_assoc, ← List.append_assoc]
  exact List.Sublist.append h (List.Sublist.refl _)

theorem Fifo.of_sublist {c : Cfg} {l : Nat} {s s' : St} {o : List Out} (ho : sents o = []) (h : (s'.q l).Sublist (s.q l)) :
    Fifo c l s s' o := by
  unfold Fifo sentOf
  rw [ho]
  exact h.trans (List.sublist_append_left _ _)

theorem sendBatch_fifo {c : Cfg} {v : List Req → Req → Verdict} {s : St} {l m : Nat} {x : St × List Out}
    (h : sendBatch c v s m = some x) : Fifo c l s x.1 x.2 := by
  obtain ⟨q, t, hq, ht, h1, h2, h3, _⟩ := sents_one h
  obtain ⟨used, hu, ⟨new, hn, hs⟩, _⟩ := ht.split
  unfold Fifo sentOf cameFor St.q
  rw [h1, h2, h3, get_set]
  simp only [List.flatMap_cons, List.flatMap_nil, List.append_nil, List.filter_nil]
  have hnew : t.reqs = new := by simpa using hn
  by_cases e : l = m
  · subst e
    simp only [if_true, hq, Option.getD_some]
    rw [hu, hnew]
    exact List.Sublist.append hs (List.Sublist.refl _)
  · have e' : m ≠ l := fun h => e h.symm
    simp [e, e']

theorem discard_q (s : St) (m : Nat) (r : Req) (l : Nat) : ((discard s m r).q l).Sublist (s.q l) := by
  unfold discard
  split
  · exact List.Sublist.refl _
  · rename_i q hq
    unfold St.q
    dsimp only
    rw [get_set]
    split
    · rename_i e; subst e
      rw [hq]; exact dropQ_sublist q r
    · exact List.Sublist.refl _

theorem discardAll_q (m : Nat) (rs : List Req) (l : Nat) : ∀ (s : St), ((discardAll s m rs).q l).Sublist (s.q l) := by
  induction rs with
  | nil => intro s; exact List.Sublist.refl _
  | cons r rs ih => intro s; exact (ih _).trans (discard_q s m r l)

theorem caughtUpAll_q (es : List (K3 × PP)) (l : Nat) : ∀ (x : St × List Out), ((es.foldl caughtUpOne x).1.q l).Sublist (x.1.q l) := by
  induction es with
  | nil => intro x; exact List.Sublist.refl _
  | cons e es ih =>
    intro x
    refine (ih _).trans ?_
    unfold caughtUpOne
    exact discardAll_q _ _ l _

theorem step_fifo {c : Cfg} {s : St} {e : Ev} {x : St × List Out} (h : step c s e = some x) (l : Nat)
    (h1 : e ≠ .revert) (h2 : ∀ v, e ≠ .viewChange v) : Fifo c l s x.1 x.2 := by
  cases e with
  | propagated r =>
    cases h
    refine Fifo.of_sublist rfl ?_
    simp only [propagated]
    split <;> exact List.Sublist.refl _
  | finalised r => cases h; exact Fifo.of_sublist rfl (List.Sublist.refl _)
  | forgotten r => cases h; exact Fifo.of_sublist rfl (List.Sublist.refl _)
  | ready r =>
    simp only [step, ready] at h
    split at h
    · cases h; exact Fifo.of_sublist rfl (List.Sublist.refl _)
    · cases h
    · split at h
      · cases h
      · rename_i q hq
        cases h
        unfold Fifo sentOf cameFor St.q
        simp only [sents, queueds, List.flatMap_nil, List.nil_append]
        rw [get_set]
        by_cases e : l = c.ledgerOf r
        · subst e
          simp only [if_true, Option.getD_some, hq]
          unfold addQ
          split
          · exact List.sublist_append_left _ _
          · simp
        · have e' : c.ledgerOf r ≠ l := fun h => e h.symm
          simp [e, e']
  | set => cases h; exact Fifo.of_sublist rfl (List.Sublist.refl _)
  | tick now old v =>
    exact tick_rel (R := Fifo c l) (fun _ => Fifo.of_sublist rfl (List.Sublist.refl _)) (fun h1 h2 => h1.trans h2)
      (fun s b m => Fifo.of_sublist rfl (List.Sublist.refl _)) (fun h => sendBatch_fifo h) h
  | accept pp =>
    cases h
    refine Fifo.of_sublist rfl ?_
    simp only [accept]
    split
    · split <;> exact List.Sublist.refl _
    · exact List.Sublist.refl _
  | order k =>
    cases h
    refine Fifo.of_sublist ?_ ?_
    · simp only [order]
      split
      · rfl
      · split
        · exact (lefts_sents (by intro a ha; obtain ⟨r, _, rfl⟩ := List.mem_map.1 ha; exact ⟨_, _, rfl⟩)).1
        · rfl
    · simp only [order]
      split
      · exact List.Sublist.refl _
      · split
        · exact discardAll_q _ _ l _
        · exact List.Sublist.refl _
  | revert => exact absurd rfl h1
  | viewChange v => exact absurd rfl (h2 v)
  | gc k =>
    cases h
    refine Fifo.of_sublist ?_ ?_
    · exact (lefts_sents (by intro a ha; obtain ⟨r, _, rfl⟩ := List.mem_map.1 ha; exact ⟨_, _, rfl⟩)).1
    · unfold St.q
      have : (gc s k).1.queues.get? l = (s.queues.get? l).map _ := get_map ..
      rw [this]
      cases s.queues.get? l
      · exact List.Sublist.refl _
      · exact List.filter_sublist
  | caughtUp k =>
    cases h
    refine Fifo.of_sublist (lefts_sents (caughtUp_outs c s k)).1 ?_
    simp only [caughtUp]
    split
    · split
      · exact caughtUpAll_q _ l _
      · split <;> exact List.Sublist.refl _
    · exact List.Sublist.refl _
  | fetched m r => cases h; exact Fifo.of_sublist rfl (discard_q s m r l)

theorem run_fifo {c : Cfg} (l : Nat) : ∀ {es : List Ev} {s : St} {x : St × List Out}, run c s es = some x →
    (∀ e ∈ es, e ≠ .revert ∧ ∀ v, e ≠ .viewChange v) → Fifo c l s x.1 x.2 := by
  intro es
  induction es with
  | nil =>
    intro s x h _; simp only [run, Option.some.injEq] at h; subst h
    exact Fifo.of_sublist rfl (List.Sublist.refl _)
  | cons e es ih =>
    intro s x h he
    rw [run] at h
    split at h
    · cases h
    · rename_i a ha
      split at h
      · cases h
      · rename_i b hb
        cases h
        exact (step_fifo ha l (he e List.mem_cons_self).1 (he e List.mem_cons_self).2).trans
          (ih hb fun e' h => he e' (List.mem_cons_of_mem _ h))

/-! ## When an instance stops -/

theorem sendBatch_none {c : Cfg} {v : List Req → Req → Verdict} {s : St} {l : Nat} (h : sendBatch c v s l = none) :
    s.queues.has l = false ∨ ∃ r, Queued s r ∧ s.reqs.get? r = some false := by
  unfold sendBatch at h
  split at h
  · rename_i hq; exact .inl (by simp [Dict.has, hq])
  · rename_i q hq
    split at h
    · rename_i hc
      obtain ⟨r, hr, hf⟩ := consume_none _ _ _ _ _ hc
      exact .inr ⟨r, ⟨l, q, hq, hr⟩, hf⟩
    · cases h

theorem sendBatch_sub {c : Cfg} {v : List Req → Req → Verdict} {s : St} {l : Nat} {x : St × List Out}
    (h : sendBatch c v s l = some x) : ∀ r, Queued x.1 r → Queued s r := by
  obtain ⟨q, t, hq, ht, _, _, h3, _⟩ := sents_one h
  obtain ⟨used, hu, _⟩ := ht.split
  rintro r ⟨m, p, hm, hr⟩
  rw [h3, get_set] at hm
  split at hm
  · cases hm
    exact ⟨l, q, hq, by rw [hu]; exact List.mem_append_right _ hr⟩
  · exact ⟨m, p, hm, hr⟩

theorem sendAll_none {c : Cfg} {v : Nat → List Req → Req → Verdict} {skip : St → List Nat → Nat → Bool} :
    ∀ {ls : List Nat} {x : St × List Nat}, sendAll c v skip ls x = none →
      (∃ l ∈ ls, x.1.queues.has l = false) ∨ ∃ r, Queued x.1 r ∧ x.1.reqs.get? r = some false := by
  intro ls
  induction ls with
  | nil => intro x h; simp [sendAll] at h
  | cons l ls ih =>
    intro x h
    have up : ((∃ l ∈ ls, x.1.queues.has l = false) ∨ ∃ r, Queued x.1 r ∧ x.1.reqs.get? r = some false) →
        (∃ m ∈ l :: ls, x.1.queues.has m = false) ∨ ∃ r, Queued x.1 r ∧ x.1.reqs.get? r = some false := by
      rintro (⟨m, h, h'⟩ | h)
      · exact .inl ⟨m, List.mem_cons_of_mem _ h, h'⟩
      · exact .inr h
    rw [sendAll] at h
    split at h
    · exact up (ih h)
    · split at h
      · rename_i hs
        rcases sendBatch_none hs with h | h
        · exact .inl ⟨l, List.mem_cons_self, h⟩
        · exact .inr h
      · rename_i a ha
        split at h
        · rename_i hb
          have r := sendBatch_run ha
          refine up ?_
          rcases ih hb with ⟨m, hm, h⟩ | ⟨b, hq, hf⟩
          · exact .inl ⟨m, hm, by rw [r.hasQ] at h; exact h⟩
          · exact .inr ⟨b, sendBatch_sub ha b hq, by dsimp only at hf; rw [r.reqs] at hf; exact hf⟩
        · cases h

theorem sendAll_sub {c : Cfg} {v : Nat → List Req → Req → Verdict} {skip : St → List Nat → Nat → Bool} {ls : List Nat}
    {x : St × List Nat} {y : (St × List Nat) × List Out} (h : sendAll c v skip ls x = some y) : ∀ r, Queued y.1.1 r → Queued x.1 r :=
  sendAll_rel (R := fun s s' _ => ∀ r, Queued s' r → Queued s r) (fun _ _ h => h) (fun h1 h2 r h => h1 r (h2 r h))
    (fun h => sendBatch_sub h) h

/-- The call fails only when a queue holds a request which is known but has not enough
PROPAGATEs, or a ledger without a queue is to be refreshed. -/
theorem tick_none {c : Cfg} {v : Nat → List Req → Req → Verdict} {now : Nat} {old : List Nat} {s : St}
    (h : tick c v now old s = none) :
    (∃ l ∈ 1 :: old, s.queues.has l = false) ∨ ∃ r, Queued s r ∧ s.reqs.get? r = some false := by
  unfold tick at h
  split at h
  · split at h
    · rename_i ha
      rcases sendAll_none ha with ⟨l, hl, h⟩ | h
      · rw [(has_mem_keys _ _).2 hl] at h; cases h
      · exact .inr h
    · rename_i a ha
      obtain ⟨_, _, r1, _⟩ := sendAll_run ha
      have q1 := sendAll_sub ha
      split at h
      · rename_i hb
        rcases sendAll_none hb with ⟨l, hl, h⟩ | ⟨r, h1, h2⟩
        · refine .inl ⟨l, List.mem_cons_of_mem _ ?_, by rw [r1.hasQ] at h; exact h⟩
          split at hl
          · exact hl
          · simp at hl
        · exact .inr ⟨r, q1 r h1, by rw [r1.reqs] at h2; exact h2⟩
      · rename_i b hb
        obtain ⟨_, _, r2, _⟩ := sendAll_run hb
        have q2 := sendAll_sub hb
        split at h
        · rename_i hd
          unfold primariesBatch at hd
          split at hd
          · rcases sendAll_none hd with ⟨l, hl, h⟩ | ⟨r, h1, h2⟩
            · simp at hl; subst hl
              exact .inl ⟨1, List.mem_cons_self, by rw [r2.hasQ, r1.hasQ] at h; exact h⟩
            · exact .inr ⟨r, q1 r (q2 r h1), by dsimp only at h2; rw [r2.reqs, r1.reqs] at h2; exact h2⟩
          · cases hd
        · cases h
  · cases h

end Verif.ReqQueue
