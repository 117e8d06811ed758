import Verif.Proofs.ReqQueueOnce
/-!
# C88: requests which are ready to be ordered are kept, and ordered in batches, in turn

`Queued s r`: the request is in a queue of the instance. `InBatch s k r`: it is in the batch with
this key, which is not ordered yet. `Held s r`: one of the two. `Cause c s e r why`: the event gives
this reason for the request to be let go.
-/
namespace Verif.Props
open Verif Verif.ReqQueue

/-! ## Nothing is lost on the master instance -/

/-- C88. On the master instance a request which was queued, or is in a queue or in a batch which is not ordered, still
is after any further events (batches sent, reverted, ordered, view changes, catchups, checkpoints), unless it was let go. -/
theorem C88_kept {c : Cfg} (hc : c.master = true) {ls : List Nat} {es fs : List Ev} {e : Ev} {x y z : St × List Out} {r : Req}
    (hx : run c (start ls) es = some x) (hy : step c x.1 e = some y) (hz : run c y.1 fs = some z)
    (hr : Held x.1 r ∨ Out.queued r ∈ y.2) : Held z.1 r ∨ ∃ why, Out.left r why ∈ y.2 ++ z.2 := by
  have w := run_W hx (start_W ls)
  obtain ⟨h1, h2⟩ := step_kept hc hy w
  have h3 := (run_kept hc hz (step_W hy w)).1
  have : Held y.1 r ∨ ∃ why, Out.left r why ∈ y.2 := by
    rcases hr with hr | hr
    · exact h1 r hr
    · exact .inl (h2 r hr)
  rcases this with h | ⟨why, h⟩
  · rcases h3 r h with h | ⟨why, h⟩
    · exact .inl h
    · exact .inr ⟨why, List.mem_append_right _ h⟩
  · exact .inr ⟨why, List.mem_append_left _ h⟩

/-- C88. A request is let go only for a reason: its batch is ordered now, or is covered by a stable checkpoint or by what
was caught up, or its transaction was fetched, or the node has dropped the request, or validation says that it was
ordered before. -/
theorem C88_left {c : Cfg} {s : St} {e : Ev} {x : St × List Out} (h : step c s e = some x) {r : Req} {why : Why}
    (hw : Out.left r why ∈ x.2) : Cause c s e r why := step_left h hw

/-- A new request for which enough PROPAGATEs come. -/
def comes (r : Req) : List Ev := [.propagated r, .finalised r, .ready r]

/-- A master instance with batches of two requests. -/
def rqCfg : Cfg := { master := true, maxSize := 2, maxWait := 3, maxInFlight := some 4, freshness := false, ledgerOf := fun r => r % 3 }

/-- All requests are valid. -/
def allOk : Nat → List Req → Req → Verdict := fun _ _ _ => .ok

def rolePrimary : Ev := .set true true false true false 0
def roleOther : Ev := .set false true false true false 0

/-- Requests 1, 4 and 7 come; 1 and 4 go into a batch which is reverted by a view change; 4 and 7 are held and 1, which another
primary puts into a batch, leaves when it is ordered. -/
def rqEvents : List Ev :=
  [rolePrimary] ++ comes 1 ++ comes 4 ++ comes 7 ++ [.tick 10 [] allOk, .viewChange 1, roleOther, .accept ⟨(1, 1), 1, [1], []⟩, .order (1, 1)]

example : (run rqCfg (start [0, 1, 2]) rqEvents).map (fun x => (x.1.queues, x.1.lastOrdered)) =
    some ([(0, []), (1, [7, 4]), (2, [])], (1, 1)) := by decide +kernel

example : (run rqCfg (start [0, 1, 2]) rqEvents).map Prod.snd =
    some [.queued 1, .queued 4, .queued 7, .sent ⟨(0, 1), 1, [1, 4], []⟩, .left 1 .ordered] := by decide +kernel

/-- A backup instance is not the same: a view change takes the requests of its open batches away from its primary. -/
theorem C88_backup_loses : ∃ es x, run { rqCfg with master := false } (start [0, 1, 2]) es = some x ∧ Out.queued 1 ∈ x.2 ∧
    (∀ why, Out.left 1 why ∉ x.2) ∧ ¬ Held x.1 1 := by
  refine ⟨[rolePrimary] ++ comes 1 ++ [.tick 10 [] allOk, .viewChange 1], _, rfl, by decide +kernel, ?_, ?_⟩
  · intro why h
    cases why <;> revert h <;> decide +kernel
  · rintro (⟨l, q, hq, hr⟩ | ⟨k, _, h, _⟩)
    · have hm := Dict.mem_of_get? hq
      have : ∀ e ∈ [(0, []), (1, []), (2, ([] : List Req))], 1 ∉ e.2 := by decide
      exact this (l, q) hm hr
    · cases h

/-! ## What is sent -/

/-- C88. A batch which is sent has at most `Max3PCBatchSize` requests, none twice, all of which were in a queue and have enough
PROPAGATEs. -/
theorem C88_batch {c : Cfg} {ls : List Nat} (hls : ls.Nodup) {es : List Ev} {e : Ev} {x y : St × List Out} (hx : run c (start ls) es = some x)
    (hy : step c x.1 e = some y) {pp : PP} (hp : Out.sent pp ∈ y.2) :
    pp.reqs.length ≤ c.maxSize ∧ pp.reqs.Nodup ∧ ∀ r ∈ pp.reqs, x.1.reqs.get? r = some true ∧ Queued x.1 r := by
  obtain ⟨now, old, v, rfl⟩ := step_sents hy hp
  exact sent_shape hy (run_N hx (start_N hls)) pp hp

/-- C88. One call sends at most one batch for each ledger, with the numbers which follow the last one, for ledgers of the node. So, in the
view of the last ordered batch, it may be ahead of what is ordered by the limit and the number of ledgers less one. -/
theorem C88_numbers {c : Cfg} {ls : List Nat} (hls : ls.Nodup) {es : List Ev} {now : Nat} {old : List Nat} {v : Nat → List Req → Req → Verdict}
    {x y : St × List Out} (hx : run c (start ls) es = some x) (hy : step c x.1 (.tick now old v) = some y) :
    (sents y.2).map PP.key = (List.range' (x.1.lastPp + 1) (sents y.2).length).map (fun i => (x.1.view, i)) ∧
    ((sents y.2).map PP.ledger).Nodup ∧ (∀ pp ∈ sents y.2, pp.ledger ∈ ls) ∧
    (sents y.2 ≠ [] → x.1.primary = true ∧ x.1.participating = true ∧ x.1.waiting = false) ∧
    ∀ m, c.maxInFlight = some m → x.1.lastOrdered.1 = x.1.view → ∀ pp ∈ sents y.2,
      pp.key.2 + 1 ≤ x.1.lastOrdered.2 + m + ls.length := by
  have hkeys : x.1.queues.keys = ls := by
    rw [run_keysQ hx]; simp [start, Dict.keys, Function.comp_def]
  obtain ⟨h1, h2, _, _, _, _, h3, h4, _⟩ := tick_run (h := hy) (by rw [hkeys]; exact hls)
  have h5 : ∀ pp ∈ sents y.2, pp.ledger ∈ ls := by
    intro pp hp
    have := h4 pp hp
    rw [has_mem_keys, hkeys] at this
    exact this
  have hcan : sents y.2 ≠ [] → canSend c x.1 = true := by
    intro hne
    cases hc : canSend c x.1
    · simp only [step, tick, hc, Bool.false_eq_true, if_false, Option.some.injEq] at hy
      subst hy; exact absurd rfl hne
    · rfl
  refine ⟨h1, h3, h5, ?_, ?_⟩
  · intro hne
    have := hcan hne
    unfold canSend at this
    simp only [Bool.and_eq_true, Bool.not_eq_true'] at this
    exact ⟨this.1.1.1.1.1.1.1, this.1.1.1.1.1.1.2, this.1.1.1.1.2⟩
  · intro m hm hv pp hp
    have hc := hcan (by intro h; rw [h] at hp; simp at hp)
    unfold canSend at hc
    rw [hm] at hc
    simp only [Bool.and_eq_true, Bool.not_eq_true', Bool.and_eq_false_iff, Bool.or_eq_false_iff, decide_eq_false_iff_not] at hc
    have h6 : x.1.lastPp - x.1.lastOrdered.2 < m := by
      rcases hc.2 with h | h
      · exact absurd hv.symm h
      · exact Nat.lt_of_not_le h.2
    have h7 : (sents y.2).length ≤ ls.length := by
      have := length_le_of_subset h3 (fun l hl => by
        obtain ⟨q, hq, rfl⟩ := List.mem_map.1 hl
        exact h5 q hq)
      simpa using this
    have h8 : pp.key ∈ (sents y.2).map PP.key := List.mem_map.2 ⟨pp, hp, rfl⟩
    rw [h1] at h8
    obtain ⟨i, hi, hi'⟩ := List.mem_map.1 h8
    rw [List.mem_range'_1] at hi
    rw [← hi']
    dsimp only
    omega

/-- C88. A queue which is full, or not empty when the last batch is long ago, is served by the primary: a batch is made of the requests which
are first in it, up to the size of a batch, and what is left of the queue comes after them. -/
theorem C88_served {c : Cfg} {ls : List Nat} (hls : ls.Nodup) {es : List Ev} {now : Nat} {old : List Nat} {v : Nat → List Req → Req → Verdict}
    {x y : St × List Out} (hx : run c (start ls) es = some x) (hy : step c x.1 (.tick now old v) = some y) (hc : canSend c x.1 = true)
    {l : Nat} {q : List Req} (hq : x.1.queues.get? l = some q) (hne : q ≠ [])
    (hs : q.length ≥ c.maxSize ∨ x.1.lastCreated + c.maxWait < now) :
    ∃ pp used rest, Out.sent pp ∈ y.2 ∧ pp.ledger = l ∧ y.1.queues.get? l = some rest ∧ q = used ++ rest ∧
      pp.reqs.Sublist used ∧ (pp.reqs.length = c.maxSize ∨ rest = []) ∧
      ∀ r ∈ used, r ∈ pp.reqs ∨ ∃ why, Out.left r why ∈ y.2 := by
  have hkeys : x.1.queues.keys.Nodup := by rw [run_keysQ hx]; simpa [start, Dict.keys, Function.comp_def] using hls
  obtain ⟨k, t, ht, h1, h2, h3⟩ := tick_serves hy hkeys hc hq hne hs
  obtain ⟨used, hu, ⟨new, hn, hsub⟩, _, hall⟩ := ht.split
  have hnew : t.reqs = new := by simpa using hn
  refine ⟨_, used, t.rest, h2, rfl, h1, hu, hnew ▸ hsub, ?_, ?_⟩
  · rcases ht.full with h | h
    · exact .inl (Nat.le_antisymm (ht.size (Nat.zero_le _)) h)
    · exact .inr h
  · intro r hr
    rcases hall r hr with h | ⟨why, h⟩
    · exact .inl h
    · exact .inr ⟨why, h3 r why h⟩

example : (run rqCfg (start [0, 1, 2]) ([rolePrimary] ++ comes 1 ++ comes 4 ++ comes 7 ++ comes 3 ++ [.tick 10 [] allOk])).map
      (fun x => (sents x.2, x.1.queues)) =
    some ([⟨(0, 1), 0, [3], []⟩, ⟨(0, 2), 1, [1, 4], []⟩], [(0, []), (1, [7]), (2, [])]) := by decide +kernel

/-- The limit of batches in flight is not kept: with a limit of one, one call sends three. -/
theorem C88_limit_exceeded : ∃ es x, run { rqCfg with maxInFlight := some 1 } (start [0, 1, 2]) es = some x ∧
    x.1.lastOrdered = (0, 0) ∧ (sents x.2).map PP.key = [(0, 1), (0, 2), (0, 3)] :=
  ⟨[rolePrimary] ++ comes 1 ++ comes 2 ++ comes 3 ++ [.tick 10 [] allOk], _, rfl, by decide +kernel, by decide +kernel⟩

/-! ## In turn -/

/-- C88. While no batch is reverted, the requests of a ledger are sent in the order in which they came into the queue.
Missing: histories with a revert, for which it is false (`C88_out_of_turn`). -/
theorem C88_in_turn_partial {c : Cfg} {ls : List Nat} {es : List Ev} {x : St × List Out} (hx : run c (start ls) es = some x)
    (hr : .revert ∉ es) (hv : ∀ v, .viewChange v ∉ es) (l : Nat) :
    ((sents x.2).flatMap (fun pp => if pp.ledger = l then pp.reqs else [])).Sublist
      ((queueds x.2).filter (fun r => c.ledgerOf r = l)) := by
  have := run_fifo l hx (fun e he => ⟨fun h => hr (h ▸ he), fun v h => hv v (h ▸ he)⟩)
  have hq : (start ls).q l = [] := by
    unfold St.q
    cases h : (start ls).queues.get? l with
    | none => rfl
    | some q =>
      have := Dict.mem_of_get? h
      simp [start] at this
      obtain ⟨_, _, _, h⟩ := this
      rw [h]; rfl
  unfold Fifo at this
  rw [hq, List.nil_append] at this
  exact (List.sublist_append_left _ _).trans this

example : (run rqCfg (start [0, 1, 2]) ([rolePrimary] ++ comes 1 ++ comes 4 ++ comes 7 ++ [.tick 10 [] allOk, .tick 20 [] allOk])).map
      (fun x => (sents x.2).map PP.reqs) = some [[1, 4], [7]] := by decide +kernel

/-- After a revert the requests are sent in another order than they came: the batches are taken back from the last to the
first, and each is put behind what is in the queue. -/
theorem C88_out_of_turn : ∃ es x, run { rqCfg with maxSize := 1 } (start [0, 1, 2]) es = some x ∧
    queueds x.2 = [1, 4] ∧ (sents x.2).map PP.reqs = [[1], [4], [4], [1]] :=
  ⟨[rolePrimary] ++ comes 1 ++ comes 4 ++ [.tick 10 [] allOk, .tick 20 [] allOk, .revert, .tick 30 [] allOk, .tick 40 [] allOk], _, rfl,
    by decide +kernel, by decide +kernel⟩

/-! ## One place -/

/-- C88. While an instance makes all batches itself and each request is queued once, a request is never at the same time in a queue and in a batch which
is not ordered, nor in two such batches. Missing: batches which come from others, for which it is false (`C88_in_two_batches`). -/
theorem C88_one_place_partial {c : Cfg} {ls : List Nat} (hls : ls.Nodup) {es : List Ev} {x : St × List Out} (hx : run c (start ls) es = some x)
    (ha : ∀ pp, .accept pp ∉ es) (hn : (queueds x.2).Nodup) (r : Req) :
    (∀ k, Queued x.1 r → ¬ InBatch x.1 k r) ∧ ∀ k k', InBatch x.1 k r → InBatch x.1 k' r → k = k' := by
  have u := run_U hx (start_W ls) (start_N hls) (start_U c ls) ha (by simpa using hn)
  exact ⟨fun k => u.apart k r, fun k k' => u.one k k' r⟩

example : (run rqCfg (start [0, 1, 2]) ([rolePrimary] ++ comes 1 ++ comes 4 ++ comes 7 ++ [.tick 10 [] allOk, .revert, .tick 20 [] allOk])).map
      (fun x => (queueds x.2, x.1.queues, x.1.batches.keys)) =
    some ([1, 4, 7], [(0, []), (1, [4]), (2, [])], [(0, 1)]) := by decide +kernel

/-- A request which is rejected may be in two batches which are not ordered: the new primary takes a batch of the old view over, and makes
another one of the same request, which is still in its queue. -/
theorem C88_in_two_batches : ∃ es x, run rqCfg (start [0, 1, 2]) es = some x ∧ queueds x.2 = [1] ∧ InBatch x.1 (1, 1) 1 ∧ InBatch x.1 (1, 2) 1 :=
  ⟨comes 1 ++ [.accept ⟨(0, 1), 1, [1], [0]⟩, .viewChange 1, .set true true false true false 1, .accept ⟨(1, 1), 1, [1], [0]⟩,
      .tick 10 [] (fun _ _ _ => .invalid)], _, rfl, by decide +kernel,
    ⟨by decide +kernel, by decide +kernel, ⟨(1, 1), 1, [1], [0]⟩, by decide +kernel, by decide⟩,
    ⟨by decide +kernel, by decide +kernel, ⟨(1, 2), 1, [1], [0]⟩, by decide +kernel, by decide⟩⟩

/-! ## The instance goes on -/

/-- C88. An instance goes on through every history in which the node drops no request, and every request which is queued or
in a batch from others had enough PROPAGATEs before and belongs to a ledger of the node. Missing: other histories, for which it is
false (`C88_stopped_by_dropped`, `C88_stopped_by_primary`). -/
theorem C88_goes_on_partial {c : Cfg} {ls : List Nat} (h1 : 1 ∈ ls) {es : List Ev} (hf : ∀ r, .forgotten r ∉ es)
    (hr : ∀ es1 r es2, es = es1 ++ .ready r :: es2 → .finalised r ∈ es1 ∧ c.ledgerOf r ∈ ls)
    (ha : ∀ es1 pp es2, es = es1 ++ .accept pp :: es2 → ∀ r ∈ pp.reqs, .finalised r ∈ es1)
    (ht : ∀ now old v, .tick now old v ∈ es → ∀ l ∈ old, l ∈ ls) :
    ∃ x, run c (start ls) es = some x := by
  obtain ⟨x, h, _⟩ := run_goes h1 es hf hr ha ht
  exact ⟨x, h⟩

/-- C88. An instance stops only when a request is to be queued which has too few PROPAGATEs or belongs to no ledger of the node, or, as a primary which
makes batches, when such a request is in a queue, or a ledger which the node does not have is to be refreshed. -/
theorem C88_stops {c : Cfg} {s : St} {e : Ev} (h : step c s e = none) :
    (∃ r, e = .ready r ∧ (s.reqs.get? r = some false ∨ s.queues.has (c.ledgerOf r) = false)) ∨
    ∃ now old v, e = .tick now old v ∧ canSend c s = true ∧
      ((∃ l ∈ 1 :: old, s.queues.has l = false) ∨ ∃ r, Queued s r ∧ s.reqs.get? r = some false) := by
  cases e with
  | ready r =>
    refine .inl ⟨r, rfl, ?_⟩
    simp only [step, ready] at h
    split at h
    · cases h
    · rename_i hf; exact .inl hf
    · split at h
      · rename_i hq; exact .inr (by simp [Dict.has, hq])
      · cases h
  | tick now old v =>
    refine .inr ⟨now, old, v, rfl, ?_, tick_none h⟩
    cases hc : canSend c s
    · simp [step, tick, hc] at h
    · rfl
  | _ => simp [step] at h

/-- A primary is stopped when a request which waits in its queue is dropped by the node as too old, and a late PROPAGATE for it comes. -/
theorem C88_stopped_by_dropped : ∃ es1, run rqCfg (start [0, 1, 2]) es1 ≠ none ∧
    run rqCfg (start [0, 1, 2]) (es1 ++ [.forgotten 1, .propagated 1, .tick 10 [] allOk]) = none :=
  ⟨[rolePrimary] ++ comes 1, by decide +kernel, by decide +kernel⟩

/-- The next primary is stopped by a batch of the last one with a request for which it has too few PROPAGATEs, when it is not
ordered before the view change. -/
theorem C88_stopped_by_primary : ∃ es, (∀ r, .forgotten r ∉ es) ∧ (∀ r, .ready r ∉ es) ∧ run rqCfg (start [0, 1, 2]) es = none :=
  ⟨[.propagated 1, .accept ⟨(0, 1), 1, [1], []⟩, .viewChange 1, rolePrimary, .tick 10 [] allOk], by simp [rolePrimary],
    by simp [rolePrimary], by decide +kernel⟩

/-- The hypotheses of `C88_goes_on_partial` hold for a history with all kinds of events. -/
example : ∃ x, run rqCfg (start [0, 1, 2]) ([.propagated 1, .finalised 1, .ready 1, .accept ⟨(0, 1), 1, [1], []⟩, .viewChange 1, rolePrimary,
    .tick 10 [0] allOk, .order (1, 1), .gc (1, 1), .caughtUp (1, 2), .fetched 1 1]) = some x := by
  refine C88_goes_on_partial (by decide) (by simp [rolePrimary]) ?_ ?_ ?_
  · intro es1 r es2 h
    match es1, h with
    | [a, b], h => simp [rolePrimary] at h; obtain ⟨rfl, rfl, rfl, _⟩ := h; exact ⟨by simp, by decide⟩
    | [], h => simp at h
    | [a], h => simp at h
    | a :: b :: d :: es1, h =>
      exfalso
      simp [rolePrimary] at h
      have : Ev.ready r ∈ es1 ++ .ready r :: es2 := by simp
      rw [← h.2.2.2] at this
      simp at this
  · intro es1 pp es2 h
    match es1, h with
    | [], h => simp at h
    | [a], h => simp at h
    | [a, b], h => simp at h
    | [a, b, d], h => simp [rolePrimary] at h; obtain ⟨rfl, rfl, rfl, rfl, _⟩ := h; simp
    | a :: b :: d :: e :: es1, h =>
      exfalso
      simp [rolePrimary] at h
      have : Ev.accept pp ∈ es1 ++ .accept pp :: es2 := by simp
      rw [← h.2.2.2.2] at this
      simp at this
  · intro now old v h l hl
    simp [rolePrimary] at h
    obtain ⟨_, rfl, _⟩ := h
    simp at hl; subst hl; decide

end Verif.Props
