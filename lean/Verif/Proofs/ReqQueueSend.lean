import Verif.Proofs.ReqQueueKept
/-! What one call of `send_3pc_batch` sends. -/
namespace Verif.ReqQueue
open Verif

/-- The PRE-PREPAREs among what is seen. -/
def sents : List Out → List PP
  | [] => []
  | .sent pp :: o => pp :: sents o
  | _ :: o => sents o

/-- The requests which were put into queues. -/
def queueds : List Out → List Req
  | [] => []
  | .queued r :: o => r :: queueds o
  | _ :: o => queueds o

theorem sents_append (a b : List Out) : sents (a ++ b) = sents a ++ sents b := by
  induction a with
  | nil => rfl
  | cons x a ih => cases x <;> simp [sents, ih]

theorem queueds_append (a b : List Out) : queueds (a ++ b) = queueds a ++ queueds b := by
  induction a with
  | nil => rfl
  | cons x a ih => cases x <;> simp [queueds, ih]

theorem mem_sents {pp : PP} {o : List Out} : pp ∈ sents o ↔ Out.sent pp ∈ o := by
  induction o with
  | nil => simp [sents]
  | cons x o ih => cases x <;> simp [sents, ih]

theorem mem_queueds {r : Req} {o : List Out} : r ∈ queueds o ↔ Out.queued r ∈ o := by
  induction o with
  | nil => simp [queueds]
  | cons x o ih => cases x <;> simp [queueds, ih]

theorem sents_left (g : List (Req × Why)) : sents (g.map (fun e => Out.left e.1 e.2)) = [] := by
  induction g with
  | nil => rfl
  | cons e g ih => simpa [sents] using ih

theorem queueds_left (g : List (Req × Why)) : queueds (g.map (fun e => Out.left e.1 e.2)) = [] := by
  induction g with
  | nil => rfl
  | cons e g ih => simpa [queueds] using ih

theorem lefts_sents {o : List Out} (h : ∀ a ∈ o, ∃ r why, a = Out.left r why) : sents o = [] ∧ queueds o = [] := by
  induction o with
  | nil => exact ⟨rfl, rfl⟩
  | cons a o ih =>
    obtain ⟨r, why, rfl⟩ := h a List.mem_cons_self
    exact ih fun b hb => h b (List.mem_cons_of_mem _ hb)

theorem sents_one {c : Cfg} {v : List Req → Req → Verdict} {s : St} {l : Nat} {x : St × List Out}
    (h : sendBatch c v s l = some x) : ∃ q t, s.queues.get? l = some q ∧ Took c.maxSize s.reqs (verdict c v) q {} t ∧
      sents x.2 = [⟨(s.view, s.lastPp + 1), l, t.reqs, t.bad⟩] ∧ queueds x.2 = [] ∧
      x.1.queues = s.queues.set l t.rest ∧ x.1.lastPp = s.lastPp + 1 ∧ x.1.view = s.view ∧ x.1.reqs = s.reqs ∧
      x.1.lastOrdered = s.lastOrdered ∧ x.1.lastCreated = s.lastCreated ∧
      (∀ r why, (r, why) ∈ t.gone → Out.left r why ∈ x.2) := by
  obtain ⟨q, t, hq, ht, h1, h2⟩ := sendBatch_spec h
  refine ⟨q, t, hq, ht, ?_, ?_, by rw [h1], by rw [h1], by rw [h1], by rw [h1], by rw [h1], by rw [h1], ?_⟩
  · rw [h2, sents_append, sents_left]; rfl
  · rw [h2, queueds_append, queueds_left]; rfl
  · intro r why hg
    rw [h2]; exact List.mem_append_left _ (List.mem_map.2 ⟨_, hg, rfl⟩)

/-! ## One batch for each ledger, with the next numbers -/

/-- The keys of batches which follow one another. -/
def nextKeys (v p n : Nat) : List K3 := (List.range' (p + 1) n).map (fun i => (v, i))

theorem nextKeys_append (v p m n : Nat) : nextKeys v p m ++ nextKeys v (p + m) n = nextKeys v p (m + n) := by
  unfold nextKeys
  rw [← List.map_append, ← List.range'_append]
  simp [Nat.add_right_comm]

/-- What is known after some batches were sent one after the other for the ledgers `new`. -/
structure Run (s s' : St) (o : List Out) (new : List Nat) : Prop where
  ledgers : (sents o).map PP.ledger = new
  keys : (sents o).map PP.key = nextKeys s.view s.lastPp new.length
  view : s'.view = s.view
  lastPp : s'.lastPp = s.lastPp + new.length
  lastOrdered : s'.lastOrdered = s.lastOrdered
  lastCreated : s'.lastCreated = s.lastCreated
  reqs : s'.reqs = s.reqs
  hasQ : ∀ l, s'.queues.has l = s.queues.has l
  keysQ : s'.queues.keys = s.queues.keys
  other : ∀ l, l ∉ new → s'.queues.get? l = s.queues.get? l
  known : ∀ l ∈ new, s.queues.has l = true
  queueds : queueds o = []

theorem Run.refl (s : St) : Run s s [] [] :=
  ⟨rfl, rfl, rfl, rfl, rfl, rfl, rfl, fun _ => rfl, rfl, fun _ _ => rfl, by simp, rfl⟩

theorem Run.trans {s s' s'' : St} {o o' : List Out} {n n' : List Nat} (h : Run s s' o n) (h' : Run s' s'' o' n') :
    Run s s'' (o ++ o') (n ++ n') := by
  refine ⟨?_, ?_, h'.view.trans h.view, ?_, h'.lastOrdered.trans h.lastOrdered, h'.lastCreated.trans h.lastCreated,
    h'.reqs.trans h.reqs, fun l => (h'.hasQ l).trans (h.hasQ l), h'.keysQ.trans h.keysQ, ?_, ?_, ?_⟩
  · rw [sents_append, List.map_append, h.ledgers, h'.ledgers]
  · rw [sents_append, List.map_append, h.keys, h'.keys, h.view, h.lastPp, List.length_append, nextKeys_append]
  · rw [h'.lastPp, h.lastPp, List.length_append, Nat.add_assoc]
  · intro l hl
    simp at hl
    rw [h'.other l hl.2, h.other l hl.1]
  · intro l hl
    rcases List.mem_append.1 hl with hl | hl
    · exact h.known l hl
    · rw [← h.hasQ]; exact h'.known l hl
  · rw [queueds_append, h.queueds, h'.queueds]; rfl

theorem sendBatch_run {c : Cfg} {v : List Req → Req → Verdict} {s : St} {l : Nat} {x : St × List Out}
    (h : sendBatch c v s l = some x) : Run s x.1 x.2 [l] := by
  obtain ⟨q, t, hq, ht, h1, h2, h3, h4, h5, h6, h7, h8, _⟩ := sents_one h
  refine ⟨by rw [h1]; rfl, by rw [h1]; rfl, h5, h4, h7, h8, h6, ?_, ?_, ?_, ?_, h2⟩
  · intro m
    rw [h3, has_set]
    by_cases e : m = l
    · subst e; simp [Dict.has, hq]
    · simp [e]
  · rw [h3]; exact keys_set _ _ _ (by simp [Dict.has, hq])
  · intro m hm
    simp at hm
    rw [h3, get_set, if_neg hm]
  · intro m hm
    simp at hm; subst hm
    simp [Dict.has, hq]

/-- The ledgers for which batches are sent in one pass are not those which had one. -/
theorem sendAll_run {c : Cfg} {v : Nat → List Req → Req → Verdict} {skip : St → List Nat → Nat → Bool} :
    ∀ {ls : List Nat} {x : St × List Nat} {y : (St × List Nat) × List Out}, sendAll c v skip ls x = some y →
      ∃ new, y.1.2 = x.2 ++ new ∧ Run x.1 y.1.1 y.2 new ∧ new.Sublist ls := by
  intro ls
  induction ls with
  | nil =>
    intro x y h; simp only [sendAll, Option.some.injEq] at h; subst h
    exact ⟨[], by simp, Run.refl _, List.Sublist.refl _⟩
  | cons l ls ih =>
    intro x y h
    rw [sendAll] at h
    split at h
    · obtain ⟨new, h1, h2, h3⟩ := ih h
      exact ⟨new, h1, h2, h3.cons l⟩
    · split at h
      · cases h
      · rename_i a ha
        split at h
        · cases h
        · rename_i b hb
          cases h
          obtain ⟨new, h1, h2, h3⟩ := ih hb
          refine ⟨l :: new, by rw [h1]; simp, (sendBatch_run ha).trans h2, h3.cons_cons l⟩

/-- The pass for stale ledgers leaves out ledgers which had a batch, so no ledger has two. -/
theorem sendAll_fresh {c : Cfg} {v : Nat → List Req → Req → Verdict} :
    ∀ {ls : List Nat} {x : St × List Nat} {y : (St × List Nat) × List Out}, sendAll c v skipFresh ls x = some y →
      x.2.Nodup → y.1.2.Nodup := by
  intro ls
  induction ls with
  | nil => intro x y h hn; simp only [sendAll, Option.some.injEq] at h; subst h; exact hn
  | cons l ls ih =>
    intro x y h hn
    rw [sendAll] at h
    split at h
    · exact ih h hn
    · rename_i hs
      split at h
      · cases h
      · rename_i a ha
        split at h
        · cases h
        · rename_i b hb
          cases h
          refine (ih hb ?_ : b.1.2.Nodup)
          have hl : l ∉ x.2 := by simpa [skipFresh] using hs
          exact List.nodup_append.2 ⟨hn, by simp, by rintro a ha b hb rfl; simp at hb; exact hl (hb ▸ ha)⟩

/-- A call sends at most one batch for each ledger, with the next numbers. -/
theorem tick_run {c : Cfg} {v : Nat → List Req → Req → Verdict} {now : Nat} {old : List Nat} {s : St} {x : St × List Out}
    (h : tick c v now old s = some x) (hq : s.queues.keys.Nodup) :
    (sents x.2).map PP.key = nextKeys s.view s.lastPp (sents x.2).length ∧ x.1.lastPp = s.lastPp + (sents x.2).length ∧
    x.1.view = s.view ∧ x.1.lastOrdered = s.lastOrdered ∧ x.1.reqs = s.reqs ∧ x.1.queues.keys = s.queues.keys ∧
    ((sents x.2).map PP.ledger).Nodup ∧ (∀ pp ∈ sents x.2, s.queues.has pp.ledger = true) ∧ queueds x.2 = [] := by
  unfold tick at h
  split at h
  · split at h
    · cases h
    · rename_i a ha
      split at h
      · cases h
      · rename_i b hb
        split at h
        · cases h
        · rename_i d hd
          cases h
          obtain ⟨n1, e1, r1, s1⟩ := sendAll_run ha
          obtain ⟨n2, e2, r2, s2⟩ := sendAll_run hb
          have hd1 : n1.Nodup := hq.sublist s1
          simp only [List.nil_append] at e1
          have hd2 : b.1.2.Nodup := sendAll_fresh hb (by rw [e1]; exact hd1)
          have h3 : ∃ n3, Run b.1.1 d.1.1 d.2 n3 ∧ (n1 ++ (n2 ++ n3)).Nodup := by
            unfold primariesBatch at hd
            split at hd
            · rename_i he
              obtain ⟨n3, e3, r3, s3⟩ := sendAll_run hd
              refine ⟨n3, ⟨r3.1, r3.2, r3.3, r3.4, r3.5, r3.6, r3.7, r3.8, r3.9, r3.10, r3.11, r3.12⟩, ?_⟩
              simp [e2, e1] at he
              simp [he.1.1, he.1.2]
              exact List.Nodup.sublist s3 (by simp)
            · cases hd
              refine ⟨[], Run.refl _, ?_⟩
              rw [List.append_nil, ← e1, ← e2]
              exact hd2
          obtain ⟨n3, r3, hnd⟩ := h3
          have r := r1.trans (r2.trans r3)
          have hlen : (sents (a.2 ++ (b.2 ++ d.2))).length = (n1 ++ (n2 ++ n3)).length := by
            rw [← r.ledgers, List.length_map]
          have base : ∀ s' : St, s'.view = d.1.1.view → s'.lastPp = d.1.1.lastPp → s'.lastOrdered = d.1.1.lastOrdered →
              s'.reqs = d.1.1.reqs → s'.queues = d.1.1.queues →
              (sents (a.2 ++ (b.2 ++ d.2))).map PP.key = nextKeys s.view s.lastPp (sents (a.2 ++ (b.2 ++ d.2))).length ∧
              s'.lastPp = s.lastPp + (sents (a.2 ++ (b.2 ++ d.2))).length ∧ s'.view = s.view ∧ s'.lastOrdered = s.lastOrdered ∧
              s'.reqs = s.reqs ∧ s'.queues.keys = s.queues.keys ∧
              ((sents (a.2 ++ (b.2 ++ d.2))).map PP.ledger).Nodup ∧
              (∀ pp ∈ sents (a.2 ++ (b.2 ++ d.2)), s.queues.has pp.ledger = true) ∧ queueds (a.2 ++ (b.2 ++ d.2)) = [] := by
            intro s' g1 g2 g3 g4 g5
            refine ⟨?_, ?_, g1.trans r.view, g3.trans r.lastOrdered, g4.trans r.reqs, (by rw [g5]; exact r.keysQ), ?_, ?_, r.queueds⟩
            · rw [r.keys, hlen]
            · rw [g2, r.lastPp, hlen]
            · rw [r.ledgers]; exact hnd
            · intro pp hpp
              exact r.known _ (by rw [← r.ledgers]; exact List.mem_map.2 ⟨pp, hpp, rfl⟩)
          dsimp only
          split
          · exact base _ rfl rfl rfl rfl rfl
          · exact base _ rfl rfl rfl rfl rfl
  · cases h
    refine ⟨rfl, rfl, rfl, rfl, rfl, rfl, by simp [sents], ?_, rfl⟩
    intro pp hpp; simp [sents] at hpp

/-! ## A queue which is full or waits for long is served -/

theorem sendAll_serves {c : Cfg} {v : Nat → List Req → Req → Verdict} {now : Nat} {l : Nat} {q : List Req} :
    ∀ {ls : List Nat} {x : St × List Nat} {y : (St × List Nat) × List Out}, sendAll c v (skipQueue c now) ls x = some y →
      ls.Nodup → l ∈ ls → x.1.queues.get? l = some q → skipQueue c now x.1 x.2 l = false →
      l ∈ y.1.2 ∧ ∃ k t, Took c.maxSize x.1.reqs (verdict c (v l)) q {} t ∧ y.1.1.queues.get? l = some t.rest ∧
        Out.sent ⟨k, l, t.reqs, t.bad⟩ ∈ y.2 ∧ ∀ r why, (r, why) ∈ t.gone → Out.left r why ∈ y.2 := by
  intro ls
  induction ls with
  | nil => intro x y _ _ h; simp at h
  | cons m ls ih =>
    intro x y h hnd hl hq hs
    rw [List.nodup_cons] at hnd
    rw [sendAll] at h
    by_cases e : l = m
    · subst e
      rw [hs] at h
      simp only [Bool.false_eq_true, if_false] at h
      split at h
      · cases h
      · rename_i a ha
        split at h
        · cases h
        · rename_i b hb
          cases h
          obtain ⟨n, e1, r1, s1⟩ := sendAll_run hb
          obtain ⟨q', t, hq', ht, h1, h2, h3, h4, h5, h6, h7, h8, h9⟩ := sents_one ha
          rw [hq] at hq'; cases hq'
          refine ⟨?_, (x.1.view, x.1.lastPp + 1), t, ht, ?_, ?_, ?_⟩
          · show l ∈ b.1.2
            rw [e1]; simp
          · show b.1.1.queues.get? l = _
            rw [r1.other l (fun hm => hnd.1 (s1.subset hm)), h3, get_set]; simp
          · refine List.mem_append_left _ (mem_sents.1 ?_)
            rw [h1]; simp
          · intro r why hr; exact List.mem_append_left _ (h9 r why hr)
    · have hl' : l ∈ ls := (List.mem_cons.1 hl).resolve_left e
      split at h
      · exact ih h hnd.2 hl' hq hs
      · split at h
        · cases h
        · rename_i a ha
          split at h
          · cases h
          · rename_i b hb
            cases h
            have ra := sendBatch_run ha
            have hq1 : a.1.queues.get? l = some q := by rw [ra.other l (by simpa using e)]; exact hq
            obtain ⟨g1, k, t, g2, g3, g4, g5⟩ := ih (x := (a.1, x.2 ++ [m])) hb hnd.2 hl' hq1 (by
              unfold skipQueue at hs ⊢
              dsimp only
              rw [hq1, ra.lastCreated]
              rw [hq] at hs
              exact hs)
            refine ⟨g1, k, t, by dsimp only at g2; rw [ra.reqs] at g2; exact g2, g3, List.mem_append_right _ g4, ?_⟩
            intro r why hr; exact List.mem_append_right _ (g5 r why hr)

theorem tick_serves {c : Cfg} {v : Nat → List Req → Req → Verdict} {now : Nat} {old : List Nat} {s : St} {x : St × List Out}
    (h : tick c v now old s = some x) (hnd : s.queues.keys.Nodup) (hc : canSend c s = true) {l : Nat} {q : List Req}
    (hq : s.queues.get? l = some q) (hne : q ≠ []) (hs : q.length ≥ c.maxSize ∨ s.lastCreated + c.maxWait < now) :
    ∃ k t, Took c.maxSize s.reqs (verdict c (v l)) q {} t ∧ x.1.queues.get? l = some t.rest ∧
      Out.sent ⟨k, l, t.reqs, t.bad⟩ ∈ x.2 ∧ ∀ r why, (r, why) ∈ t.gone → Out.left r why ∈ x.2 := by
  unfold tick at h
  rw [if_pos hc] at h
  split at h
  · cases h
  · rename_i a ha
    split at h
    · cases h
    · rename_i b hb
      split at h
      · cases h
      · rename_i d hd
        cases h
        have hmem : l ∈ s.queues.keys := (has_mem_keys _ _).1 (by simp [Dict.has, hq])
        obtain ⟨g1, k, t, g2, g3, g4, g5⟩ := sendAll_serves ha hnd hmem hq (by
          unfold skipQueue
          dsimp only
          rw [hq]
          have : q.isEmpty = false := by cases q; exact absurd rfl hne; rfl
          simp only [this, Bool.false_or]
          rcases hs with hs | hs
          · simp [hs]
          · simp [hs])
        have hbq : b.1.1.queues.get? l = a.1.1.queues.get? l ∧ l ∈ b.1.2 := by
          clear hd
          have : ∀ {ls : List Nat} {x : St × List Nat} {y : (St × List Nat) × List Out}, sendAll c v skipFresh ls x = some y →
              l ∈ x.2 → y.1.1.queues.get? l = x.1.queues.get? l ∧ l ∈ y.1.2 := by
            intro ls
            induction ls with
            | nil => intro x y h hl; simp only [sendAll, Option.some.injEq] at h; subst h; exact ⟨rfl, hl⟩
            | cons m ls ih =>
              intro x y h hl
              rw [sendAll] at h
              split at h
              · exact ih h hl
              · rename_i hsk
                split at h
                · cases h
                · rename_i a ha
                  split at h
                  · cases h
                  · rename_i b hb
                    cases h
                    have hne : l ≠ m := by
                      rintro rfl
                      simp [skipFresh, hl] at hsk
                    obtain ⟨h1, h2⟩ := ih hb (List.mem_append_left _ hl)
                    exact ⟨h1.trans ((sendBatch_run ha).other l (by simpa using hne)), h2⟩
          exact this hb g1
        have hdq : d.1.1.queues.get? l = b.1.1.queues.get? l := by
          unfold primariesBatch at hd
          split at hd
          · rename_i he
            simp only [Bool.and_eq_true, List.isEmpty_iff] at he
            rw [he.1] at hbq; simp at hbq
          · cases hd; rfl
        refine ⟨k, t, g2, ?_, List.mem_append_left _ g4, fun r why hr => List.mem_append_left _ (g5 r why hr)⟩
        have : d.1.1.queues.get? l = some t.rest := by rw [hdq, hbq.1, g3]
        dsimp only
        split
        · exact this
        · exact this

end Verif.ReqQueue
