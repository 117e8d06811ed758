import Verif.Proofs.Audit
/-!
# C34, C35: the audit ledger and the tracker of its batches
-/
namespace Verif.Props
open Verif.Audit
open Verif.Spec.Audit

/-! ## C35 -/

/-- The tracker of the code asked the same; with a batch it is given the size of the ledger
after the batch, which is what `post_batch_applied` passes. `total` is that size before. -/
def trackerStep (t : Tracker) (total : Nat) : Ask → Tracker × Answer
  | .apply i => (t.applyBatch i.state i.root (total + i.count), .done)
  | .commit =>
    match t.commitBatch with
    | .error _ => (t, .raised)
    | .ok ((s, r, k), t') => (t', .roots s r k)
  | .reject =>
    match t.rejectBatch with
    | .error _ => (t, .raised)
    | .ok ((s, r, k), t') => (t', .roots s r k)
  | .caughtUp s r n => (t.setLastCommitted s r n, .done)

/-- The answers of the tracker; the sizes it is given are those of the queue of batches. -/
def trackerAnswers : Tracker → Queue → List Ask → List Answer
  | _, _, [] => []
  | t, q, a :: rest => (trackerStep t q.total a).2 :: trackerAnswers (trackerStep t q.total a).1 (q.step a).1 rest

/-- The marks the tracker keeps for a queue of batches. -/
def marksOf (size : Nat) : List Item → List Mark
  | [] => []
  | i :: rest => ⟨i.state, i.root, size + i.count⟩ :: marksOf (size + i.count) rest

theorem marksOf_snoc (size : Nat) (is : List Item) (i : Item) :
    marksOf size (is ++ [i]) =
      marksOf size is ++ [⟨i.state, i.root, size + (is.map (·.count)).sum + i.count⟩] := by
  induction is generalizing size with
  | nil => simp [marksOf]
  | cons j is ih => simp [marksOf, ih, Nat.add_assoc]

theorem marksOf_last (base : Mark) (is : List Item) :
    (marksOf base.size is).getLast?.getD base =
      match is.getLast? with
      | some p => ⟨p.state, p.root, base.size + (is.map (·.count)).sum⟩
      | none => base := by
  cases h : is.getLast? with
  | none => rw [List.getLast?_eq_none_iff.1 h]; rfl
  | some p =>
    obtain ⟨l, rfl⟩ := List.getLast?_eq_some_iff.1 h
    rw [marksOf_snoc]; simp [Nat.add_assoc]

/-- The tracker holds the queue. -/
def Holds (t : Tracker) (q : Queue) : Prop :=
  t.committed = ⟨q.state, q.root, q.size⟩ ∧ t.uncommitted = marksOf q.size q.items

theorem Holds.step {t : Tracker} {q : Queue} (h : Holds t q) (a : Ask)
    (hf : match a with | .caughtUp .. => q.items = [] | _ => True) :
    (trackerStep t q.total a).2 = (q.step a).2 ∧ Holds (trackerStep t q.total a).1 (q.step a).1 := by
  obtain ⟨h1, h2⟩ := h
  cases a with
  | apply i =>
    refine ⟨rfl, h1, ?_⟩
    simp only [trackerStep, Tracker.applyBatch, Queue.step, marksOf_snoc, h2, Queue.total]
  | commit =>
    simp only [trackerStep, Tracker.commitBatch, Queue.step, h2]
    cases hi : q.items with
    | nil =>
      refine ⟨rfl, h1, ?_⟩
      show t.uncommitted = marksOf q.size q.items
      exact h2
    | cons i rest =>
      simp only [marksOf, h1]
      refine ⟨?_, rfl, rfl⟩
      congr 1
      omega
  | reject =>
    simp only [trackerStep, Tracker.rejectBatch, Queue.step, h2]
    cases hi : q.items.getLast? with
    | none =>
      have hn := List.getLast?_eq_none_iff.1 hi
      simp only [hn, marksOf, List.getLast?_nil]
      exact ⟨trivial, h1, h2⟩
    | some i =>
      obtain ⟨l, hl⟩ := List.getLast?_eq_some_iff.1 hi
      have hb := marksOf_last t.committed l
      rw [h1] at hb
      simp only [hl, marksOf_snoc, List.getLast?_append, List.getLast?_singleton, List.dropLast_concat,
        Option.some_or, h1, hb]
      refine ⟨?_, rfl, rfl⟩
      cases hp : l.getLast? with
      | none =>
        rw [List.getLast?_eq_none_iff.1 hp]
        simp only [List.map_nil, List.sum_nil]
        congr 1; omega
      | some p =>
        simp only
        congr 1; omega
  | caughtUp s r n =>
    refine ⟨rfl, rfl, ?_⟩
    simp only at hf
    simp only [trackerStep, Tracker.setLastCommitted, Queue.step, h2, hf, marksOf]

/-- **C35.** For every sequence of applied, committed and rejected batches the answers of the
tracker are those of a queue of batches: a commit gives the oldest one's roots and count, a reject
the newest one's count and the roots before it. -/
theorem C35_answers (s r : String) (n : Nat) (asks : List Ask) (hf : (Queue.mk s r n []).Fair asks) :
    trackerAnswers ⟨[], ⟨s, r, n⟩⟩ ⟨s, r, n, []⟩ asks = (Queue.mk s r n []).answers asks := by
  have hh : Holds ⟨[], ⟨s, r, n⟩⟩ ⟨s, r, n, []⟩ := ⟨rfl, rfl⟩
  generalize (⟨[], ⟨s, r, n⟩⟩ : Tracker) = t at hh
  generalize (⟨s, r, n, []⟩ : Queue) = q at hh hf ⊢
  induction asks generalizing t q with
  | nil => rfl
  | cons a rest ih =>
    obtain ⟨e, hh'⟩ := hh.step a hf.1
    simp only [trackerAnswers, Queue.answers, e]
    rw [ih _ _ hh' hf.2]

/-- Two batches, one of them empty, committed and rejected, then a catchup. -/
example : (Queue.mk "s0" "r0" 5 []).Fair
      [.apply ⟨"s1", "r1", 2⟩, .apply ⟨"s1", "r1", 0⟩, .commit, .reject, .caughtUp "s9" "r9" 9, .reject] ∧
    trackerAnswers ⟨[], ⟨"s0", "r0", 5⟩⟩ ⟨"s0", "r0", 5, []⟩
      [.apply ⟨"s1", "r1", 2⟩, .apply ⟨"s1", "r1", 0⟩, .commit, .reject, .caughtUp "s9" "r9" 9, .reject] =
      [.done, .done, .roots "s1" "r1" 2, .roots "s1" "r1" 0, .done, .raised] := by
  refine ⟨?_, by decide⟩
  simp [Queue.Fair, Queue.step]

/-! ## C34: the handler keeps one transaction per live audited batch -/

/-- How many audit transactions a batch has. -/
def auditCount (b : Batch) : Item := ⟨"", "", if b.hasAudit = true then 1 else 0⟩

theorem sum_auditCount (bs : List Batch) :
    ((bs.map auditCount).map (·.count)).sum = (audited bs).length := by
  induction bs with
  | nil => rfl
  | cons b bs ih =>
    simp only [List.map_cons, List.sum_cons, ih, audited, List.filter_cons, auditCount]
    split <;> simp <;> omega

/-- The handler agrees with the batches. -/
structure AuditInv (s : State) (l : Live) : Prop where
  good : Good s.log (audited (l.done ++ l.pending))
  com : s.committed.length = (audited l.done).length
  trk : Holds s.tracker ⟨"", "", s.committed.length, l.pending.map auditCount⟩

theorem AuditInv.len {s : State} {l : Live} (h : AuditInv s l) :
    s.uncommitted.length = (audited l.pending).length := by
  have h1 := h.good.len
  have h2 := h.com
  simp only [State.log, audited, List.filter_append, List.length_append] at h1 h2 ⊢
  omega

theorem AuditInv.apply {s : State} {l : Live} (h : AuditInv s l) {b : Batch}
    (hn : b.ledgers.keys.Nodup) (hfn : b.frozen.keys.Nodup)
    (hf : ∀ a, (audited (l.done ++ l.pending)).getLast? = some a → Follows a b) :
    ∃ s', postBatchApplied s b = .ok s' ∧ AuditInv s' (l.step (.apply b)) := by
  have ht := h.trk
  have hlen := h.len
  have hstep := (ht.step (.apply (auditCount b)) trivial).2
  simp only [trackerStep, Queue.step, Queue.total] at hstep
  rw [sum_auditCount] at hstep
  have hall : s.log.length = s.committed.length + (audited l.pending).length := by
    simp [State.log, hlen]
  unfold postBatchApplied
  split
  · next ha =>
    obtain ⟨t, hc, hg⟩ := h.good.snoc b hn hfn hf
    simp only [hc]
    refine ⟨_, rfl, ?_, h.com, ?_⟩
    · simpa [Live.step, audited, State.log, ha] using hg
    · simpa [auditCount, ha, Live.step, hall] using hstep
  · next ha =>
    refine ⟨_, rfl, ?_, h.com, ?_⟩
    · simpa [Live.step, audited, State.log, ha] using h.good
    · simpa [auditCount, ha, Live.step, hall] using hstep

theorem AuditInv.reject {s : State} {l : Live} (h : AuditInv s l) :
    (l.pending = [] ∧ postBatchRejected s = (s, some .nothingToReject) ∨
      l.pending ≠ [] ∧ (postBatchRejected s).2 = none) ∧
    AuditInv (postBatchRejected s).1 (l.step .reject) := by
  obtain ⟨hs, ht⟩ := h.trk.step .reject trivial
  have hlen := h.len
  have hg := h.good
  simp only [trackerStep, Queue.step] at hs ht
  unfold postBatchRejected
  cases hp : l.pending.getLast? with
  | none =>
    have hn := List.getLast?_eq_none_iff.1 hp
    have hr : s.tracker.rejectBatch = .error .nothingToReject := by
      unfold Tracker.rejectBatch
      rw [h.trk.2, hn]; rfl
    simp only [hr]
    refine ⟨Or.inl ⟨hn, trivial⟩, ?_⟩
    have : l.step .reject = l := by cases l; simp only at hn; subst hn; rfl
    rw [this]; exact h
  | some b =>
    obtain ⟨bs, hb⟩ := List.getLast?_eq_some_iff.1 hp
    simp only [hb, List.map_append, List.map_cons, List.map_nil, List.getLast?_append, List.getLast?_singleton,
      Option.some_or, List.dropLast_concat] at hs ht
    cases hr : s.tracker.rejectBatch with
    | error e => rw [hr] at hs; simp only at hs; cases hx : (List.map auditCount bs).getLast? <;> rw [hx] at hs <;> cases hs
    | ok x =>
      obtain ⟨⟨x1, x2, k⟩, t⟩ := x
      rw [hr] at hs ht
      simp only at hs ht
      have hk : k = (auditCount b).count := by
        cases hx : (List.map auditCount bs).getLast? <;> rw [hx] at hs <;> cases hs <;> rfl
      have hL : l.step .reject = ⟨l.done, bs⟩ := by simp [Live.step, hb]
      rw [hL]
      rw [hb] at hg hlen
      have hne : l.pending ≠ [] := by rw [hb]; simp
      by_cases ha : b.hasAudit = true
      · have hk1 : k = 1 := by rw [hk]; simp [auditCount, ha]
        have hu : s.uncommitted.length = (audited bs).length + 1 := by simpa [audited, ha] using hlen
        have hd : discardTxns s.uncommitted k = .ok (s.uncommitted.take (s.uncommitted.length - 1)) := by
          unfold discardTxns upTo
          rw [hk1, if_neg (by decide), if_neg (by omega), if_neg (by decide)]
          rfl
        simp only [hd]
        refine ⟨Or.inr ⟨hne, trivial⟩, ⟨?_, h.com, ht⟩⟩
        have := hg.take (s.committed.length + (s.uncommitted.length - 1))
        rw [show s.log = s.committed ++ s.uncommitted from rfl, List.take_length_add_append] at this
        have e : (audited (l.done ++ (bs ++ [b]))).take (s.committed.length + (s.uncommitted.length - 1)) =
            audited (l.done ++ bs) := by
          have : audited (l.done ++ (bs ++ [b])) = audited (l.done ++ bs) ++ [b] := by simp [audited, ha]
          rw [this, List.take_left']
          have := h.com
          simp only [audited, List.filter_append, List.length_append] at this hu ⊢
          omega
        rw [e] at this
        exact this
      · have hk1 : k = 0 := by rw [hk]; simp [auditCount, ha]
        have hd : discardTxns s.uncommitted k = .ok s.uncommitted := by
          unfold discardTxns; rw [if_pos hk1]
        simp only [hd]
        refine ⟨Or.inr ⟨hne, trivial⟩, ⟨?_, h.com, ht⟩⟩
        simpa [audited, ha, State.log] using hg

theorem AuditInv.commit {s : State} {l : Live} (h : AuditInv s l) :
    (l.pending = [] ∧ commitBatch s = (s, some .nothingToCommit) ∨
      l.pending ≠ [] ∧ (commitBatch s).2 = none) ∧
    AuditInv (commitBatch s).1 (l.step .commit) := by
  obtain ⟨hs, ht⟩ := h.trk.step .commit trivial
  have hlen := h.len
  have hg := h.good
  simp only [trackerStep, Queue.step] at hs ht
  unfold commitBatch
  cases hp : l.pending with
  | nil =>
    have hr : s.tracker.commitBatch = .error .nothingToCommit := by
      unfold Tracker.commitBatch
      rw [h.trk.2, hp]; rfl
    simp only [hr]
    refine ⟨Or.inl ⟨trivial, trivial⟩, ?_⟩
    have : l.step .commit = l := by
      cases l; simp only at hp; subst hp; simp [Live.step]
    rw [this]; exact h
  | cons b bs =>
    simp only [hp, List.map_cons] at hs ht
    cases hr : s.tracker.commitBatch with
    | error e => rw [hr] at hs; cases hs
    | ok x =>
      obtain ⟨⟨x1, x2, k⟩, t⟩ := x
      rw [hr] at hs ht
      simp only at hs ht
      have hk : k = (auditCount b).count := by cases hs; rfl
      have hL : l.step .commit = ⟨l.done ++ [b], bs⟩ := by simp [Live.step, hp]
      rw [hL]
      rw [hp] at hg hlen
      refine ⟨Or.inr ⟨by simp, rfl⟩, ?_⟩
      have hkk : (if 0 ≤ k then s.uncommitted.take k.toNat else s.uncommitted.take (s.uncommitted.length - (-k).toNat)) =
          s.uncommitted.take (auditCount b).count ∧
          (if 0 ≤ k then s.uncommitted.drop k.toNat else s.uncommitted.drop (s.uncommitted.length - (-k).toNat)) =
          s.uncommitted.drop (auditCount b).count := by
        rw [if_pos (by omega), if_pos (by omega), hk]; exact ⟨rfl, rfl⟩
      simp only [upTo, since, hkk]
      have hc : (s.committed ++ s.uncommitted.take (auditCount b).count).length =
          s.committed.length + (auditCount b).count := by
        have : (auditCount b).count ≤ s.uncommitted.length := by
          rw [hlen]; unfold auditCount audited; simp only [List.filter_cons]
          split <;> simp
        simp; omega
      refine ⟨?_, ?_, ?_⟩
      · show Good ((s.committed ++ s.uncommitted.take _) ++ s.uncommitted.drop _) _
        rw [List.append_assoc, List.take_append_drop]
        simpa [State.log] using hg
      · show (s.committed ++ s.uncommitted.take _).length = _
        rw [hc, h.com]
        simp only [audited, List.filter_append, List.length_append, auditCount, List.filter_cons, List.filter_nil]
        split <;> simp
      · show Holds t ⟨"", "", (s.committed ++ s.uncommitted.take _).length, bs.map auditCount⟩
        rw [hc]; exact ht

theorem AuditInv.restart {s : State} {l : Live} (h : AuditInv s l) :
    AuditInv (start s.committed) (l.step .restart) := by
  refine ⟨?_, h.com, ⟨rfl, rfl⟩⟩
  have := h.good.take s.committed.length
  have e1 : s.log.take s.committed.length = s.committed := by simp [State.log]
  have e2 : (audited (l.done ++ l.pending)).take s.committed.length = audited l.done := by
    rw [h.com]; simp [audited]
  rw [e1, e2] at this
  simpa [State.log, start, Live.step, audited] using this

theorem AuditInv.run {s : State} {l : Live} (h : AuditInv s l) (ops : List Op) (hh : History l ops) :
    AuditInv (ops.foldl (fun s o => (step s o).1) s) (ops.foldl Live.step l) := by
  induction ops generalizing s l with
  | nil => exact h
  | cons o ops ih =>
    simp only [List.foldl_cons]
    refine ih ?_ hh.2
    cases o with
    | apply b =>
      obtain ⟨s', hs', hi⟩ := h.apply hh.1.1 hh.1.2.1 hh.1.2.2
      simpa [step, hs'] using hi
    | reject => exact h.reject.2
    | commit => exact h.commit.2
    | restart => exact h.restart

theorem auditInv (ops : List Op) (hh : History ⟨[], []⟩ ops) : AuditInv (run ops) (live ops) :=
  AuditInv.run (s := start []) (l := ⟨[], []⟩) ⟨Good.nil, rfl, rfl, rfl⟩ ops hh

/-! ## C34: the theorems -/

/-- **C34, primaries and node registry.** After every history of applied, committed and rejected
batches and restarts, the audit ledger has one transaction per live batch, and following
the delta of its primaries and node registry leads to the values of that batch. -/
theorem C34_primaries_nodereg (ops : List Op) (hh : History ⟨[], []⟩ ops) :
    (run ops).log.length = (audited ((live ops).done ++ (live ops).pending)).length ∧
    (run ops).committed.length = (audited (live ops).done).length ∧
    ∀ i b, (audited ((live ops).done ++ (live ops).pending))[i]? = some b →
      follow (run ops).log (fun t => some t.primaries) i = some b.primaries ∧
      follow (run ops).log (·.nodeReg) i = b.nodeReg := by
  have h := auditInv ops hh
  refine ⟨h.good.len, h.com, fun i b hb => ?_⟩
  have hi : i < (run ops).log.length := by
    rw [h.good.len]; exact (List.getElem?_eq_some_iff.1 hb).1
  have := h.good.says i _ b (List.getElem?_eq_getElem hi) hb
  exact ⟨this.prim, this.reg⟩

/-- **C34, ledgers.** The size written for a ledger is its size; following the delta of its root
leads to its root at that batch; the batch's own ledger is written out, and so is every ledger
which grew since the last transaction; a state root is written exactly with a root written out, and
is the ledger's. For a frozen ledger the delta leads to the root of the transaction before. -/
theorem C34_ledgers (ops : List Op) (hh : History ⟨[], []⟩ ops) (i : Nat) (t : Txn) (b : Batch)
    (ht : (run ops).log[i]? = some t)
    (hb : (audited ((live ops).done ++ (live ops).pending))[i]? = some b) (lid : Nat) (h3 : lid ≠ auditId) :
    (b.frozen.has lid = false →
      t.sizes.get? lid = (b.ledgers.get? lid).map (·.size) ∧
      (∀ f, t.roots.get? lid = some f → ∃ l, b.ledgers.get? lid = some l ∧
        follow (run ops).log (·.roots.get? lid) i = some l.root) ∧
      (∀ l, b.ledgers.get? lid = some l →
        (lid = b.ledgerId → t.roots.get? lid = some (.here l.root)) ∧
        (∀ u n, 0 < i → (run ops).log[i - 1]? = some u → u.sizes.get? lid = some n → n < l.size →
          t.roots.get? lid = some (.here l.root)) ∧
        ∀ r, t.states.get? lid = some r ↔ t.roots.get? lid = some (.here l.root) ∧ r = l.state)) ∧
    (b.frozen.has lid = true → ∀ f, t.roots.get? lid = some f →
      0 < i ∧ ∃ r, follow (run ops).log (·.roots.get? lid) i = some r ∧
        follow (run ops).log (·.roots.get? lid) (i - 1) = some r) := by
  have h := auditInv ops hh
  have hs := h.good.says i t b ht hb
  refine ⟨fun hf => ⟨hs.sizes lid h3 hf, fun f => hs.roots lid f h3 hf, fun l hl => ⟨?_, fun u n => hs.grew lid l u n h3 hf hl, hs.states lid l h3 hf hl⟩⟩,
    fun hf f => hs.frozen lid f hf⟩
  rintro rfl
  exact hs.own l h3 hf hl

/-- **C34, no exception.** On no history does the handler find a delta it cannot follow: the next batch
is always given a transaction, and reject and commit raise exactly when no batch is pending. -/
theorem C34_no_exception (ops : List Op) (hh : History ⟨[], []⟩ ops) (o : Op) (hn : History (live ops) [o]) :
    (step (run ops) o).2 = none ∨
    (live ops).pending = [] ∧ (o = .reject ∧ (step (run ops) o).2 = some .nothingToReject ∨
      o = .commit ∧ (step (run ops) o).2 = some .nothingToCommit) := by
  have h := auditInv ops hh
  cases o with
  | apply b =>
    obtain ⟨s', hs', _⟩ := h.apply hn.1.1 hn.1.2.1 hn.1.2.2
    left; simp [step, hs']
  | reject =>
    rcases h.reject.1 with ⟨h1, h2⟩ | ⟨h1, h2⟩
    · right; exact ⟨h1, Or.inl ⟨rfl, by simp [step, h2]⟩⟩
    · left; exact h2
  | commit =>
    rcases h.commit.1 with ⟨h1, h2⟩ | ⟨h1, h2⟩
    · right; exact ⟨h1, Or.inr ⟨rfl, by simp [step, h2]⟩⟩
    · left; exact h2
  | restart => left; rfl

/-- A field followed by the code: the first transaction of the log with the field. -/
theorem read_field {log : List Txn} {field : Txn → Option (Field (List String))} {i : Nat} {t : Txn}
    {v : List String} (ht : log[i]? = some t) (hv : follow log field i = some v) :
    (match field t with
      | some (.here v) => some (Field.here v)
      | some (.back n) => (behind log i n).bind field
      | none => none) = some (.here v) := by
  cases hf : field t with
  | none => rw [follow_none ht hf] at hv; cases hv
  | some f =>
    cases f with
    | here w => rw [follow_here ht hf] at hv; cases hv; rfl
    | back n =>
      obtain ⟨_, h2, u, hu, hfu⟩ := follow_back ht hf hv
      simp only [behind, if_pos h2, hu, Option.bind_some, hfu]

/-- **C34, the primaries a node restores.** A node with a committed audited batch reads from the audit
ledger the primaries of the last one. -/
theorem C34_last_primaries (ops : List Op) (hh : History ⟨[], []⟩ ops) (b : Batch)
    (hb : (audited (live ops).done).getLast? = some b) :
    lastAuditedPrimaries (run ops).committed = some (.here b.primaries) := by
  have h := (auditInv ops hh).restart.good
  have e : Good (run ops).committed (audited (live ops).done) := by
    simpa [State.log, start, Live.step, audited] using h
  cases hl : (run ops).committed.getLast? with
  | none =>
    have := List.getLast?_eq_none_iff.1 hl
    have h2 := e.len
    rw [this] at h2
    rw [List.length_eq_zero_iff.1 h2.symm] at hb; cases hb
  | some t =>
    obtain ⟨h1, _, a, ha, hs⟩ := e.last hl
    rw [hb] at ha; cases ha
    have := read_field h1 hs.prim
    unfold lastAuditedPrimaries
    rw [hl]
    simp only at this ⊢
    cases hf : t.primaries with
    | here v => rw [hf] at this; exact this
    | back n =>
      rw [hf] at this
      simp only at this ⊢
      rw [← this]
      cases behind (run ops).committed ((run ops).committed.length - 1) n <;> rfl

theorem fromAudit_spec {log : List Txn} {field : Txn → Option (Field (List String))} {view pp i : Nat}
    {rest : List Txn} {j : Nat} {t : Txn} {v : List String} (hj : rest[j]? = some t)
    (ht : log[i + j]? = some t) (hv : follow log field (i + j) = some v)
    (hk : pp = t.ppSeqNo ∧ view = t.viewNo)
    (hu : ∀ (k : Nat) u, k < j → rest[k]? = some u → ¬ (pp = u.ppSeqNo ∧ view = u.viewNo)) :
    fromAuditForOrdered log field view pp i rest = some (.here v) := by
  induction rest generalizing i j with
  | nil => simp at hj
  | cons u rest ih =>
    unfold fromAuditForOrdered
    cases j with
    | zero =>
      simp only [List.getElem?_cons_zero, Option.some.injEq] at hj
      subst hj
      rw [if_pos hk]
      exact read_field (i := i) ht hv
    | succ j =>
      rw [if_neg (hu 0 u (by omega) (by simp))]
      refine ih (j := j) (i := i + 1) (by simpa using hj) ?_ ?_ (fun k w hk' hw => hu (k + 1) w (by omega) (by simpa using hw))
      · rw [show i + 1 + j = i + (j + 1) by omega]; exact ht
      · rw [show i + 1 + j = i + (j + 1) by omega]; exact hv

/-- **C34, the primaries in an Ordered message.** The primaries a replica puts into the message for an
applied batch, found by view and sequence number among the uncommitted audit transactions, are those of
the batch, if no earlier uncommitted batch has the same view and number; and so is the node registry. -/
theorem C34_ordered (ops : List Op) (hh : History ⟨[], []⟩ ops) (j : Nat) (b : Batch)
    (hb : (audited (live ops).pending)[j]? = some b)
    (hu : ∀ (k : Nat) c, k < j → (audited (live ops).pending)[k]? = some c →
      ¬ (c.ppSeqNo = b.ppSeqNo ∧ c.origView.getD c.viewNo = b.origView.getD b.viewNo)) :
    fromAuditForOrdered (run ops).log (fun t => some t.primaries) (b.origView.getD b.viewNo) b.ppSeqNo
      (run ops).committed.length (run ops).uncommitted = some (.here b.primaries) ∧
    ∀ r, b.nodeReg = some r →
      fromAuditForOrdered (run ops).log (·.nodeReg) (b.origView.getD b.viewNo) b.ppSeqNo
        (run ops).committed.length (run ops).uncommitted = some (.here r) := by
  have h := auditInv ops hh
  have key : ∀ (k : Nat) c, (audited (live ops).pending)[k]? = some c →
      ∃ u, (run ops).uncommitted[k]? = some u ∧ (run ops).log[(run ops).committed.length + k]? = some u ∧
        Says (run ops).log ((run ops).committed.length + k) u c := by
    intro k c hc
    have hk := (List.getElem?_eq_some_iff.1 hc).1
    rw [← h.len] at hk
    have hu : (run ops).log[(run ops).committed.length + k]? = some (run ops).uncommitted[k] := by
      unfold State.log
      rw [List.getElem?_append_right (by omega), Nat.add_sub_cancel_left]
      exact List.getElem?_eq_getElem hk
    refine ⟨_, List.getElem?_eq_getElem hk, hu, h.good.says _ _ _ hu ?_⟩
    unfold audited at hc ⊢
    rw [List.filter_append, List.getElem?_append_right (by rw [h.com]; simp [audited]), h.com]
    simpa [audited] using hc
  obtain ⟨t, h1, h2, hs⟩ := key j b hb
  have hne : ∀ (k : Nat) u, k < j → (run ops).uncommitted[k]? = some u →
      ¬ (b.ppSeqNo = u.ppSeqNo ∧ b.origView.getD b.viewNo = u.viewNo) := by
    intro k u hk hku
    have hjl := (List.getElem?_eq_some_iff.1 hb).1
    have hc : (audited (live ops).pending)[k]? = some (audited (live ops).pending)[k] :=
      List.getElem?_eq_getElem (by omega)
    obtain ⟨w, w1, _, ws⟩ := key k _ hc
    rw [hku] at w1; cases w1
    rw [ws.pp, ws.view]
    intro hx
    exact hu k _ hk hc ⟨hx.1.symm, hx.2.symm⟩
  have hkey : b.ppSeqNo = t.ppSeqNo ∧ b.origView.getD b.viewNo = t.viewNo := ⟨hs.pp.symm, hs.view.symm⟩
  refine ⟨fromAudit_spec h1 h2 hs.prim hkey hne, fun r hr => ?_⟩
  exact fromAudit_spec h1 h2 (by rw [hs.reg, hr]) hkey hne

/-! ## C34: the targets of a catchup -/

theorem tillLoop_get {audit : List Txn} {last : Txn} {own : Nat → Option Own} (es : Dict Nat Nat)
    (acc : Dict Nat Till) (lid : Nat) (x : Till)
    (h : (tillLoop audit last own es acc).get? lid = some x) :
    acc.get? lid = some x ∨ ∃ final, (lid, final) ∈ es ∧ tillOf audit last own lid final = some (some x) := by
  induction es generalizing acc with
  | nil => exact Or.inl h
  | cons e es ih =>
    obtain ⟨l, f⟩ := e
    unfold tillLoop at h
    split at h
    · cases h
    · rcases ih acc h with h | ⟨g, hg, hx⟩
      · exact Or.inl h
      · exact Or.inr ⟨g, List.mem_cons_of_mem _ hg, hx⟩
    · next t ht =>
      rcases ih _ h with h | ⟨g, hg, hx⟩
      · rw [Dict.get?_set] at h
        split at h
        · next he => cases h; subst he; exact Or.inr ⟨f, List.mem_cons_self, ht⟩
        · exact Or.inl h
      · exact Or.inr ⟨g, List.mem_cons_of_mem _ hg, hx⟩

/-- **C34, the targets of a catchup.** A node which has caught up the audit ledger of some history
catches every ledger up to the size and the root it had at the last audited batch. If the transaction has
no root for the ledger, the target is what the node has already. -/
theorem C34_catchup_till (ops : List Op) (hh : History ⟨[], []⟩ ops) (b : Batch)
    (hb : (audited (live ops).done).getLast? = some b) (own : Nat → Option Own) (lid : Nat)
    (h3 : lid ≠ auditId) (hf : b.frozen.has lid = false) (x : Till)
    (hx : (calcCatchupTill (run ops).committed own).get? lid = some x) :
    ∃ o l, own lid = some o ∧ b.ledgers.get? lid = some l ∧ x.start = o.size ∧ x.final = l.size ∧
      (x.hash = some l.root ∨ o.size = l.size ∧ x.hash = if 0 < l.size then some o.root else none) := by
  have h := (auditInv ops hh).restart.good
  have e : Good (run ops).committed (audited (live ops).done) := by
    simpa [State.log, start, Live.step, audited] using h
  unfold calcCatchupTill at hx
  cases hl : (run ops).committed.getLast? with
  | none => rw [hl] at hx; cases hx
  | some t =>
    rw [hl] at hx
    simp only at hx
    obtain ⟨h1, _, a, ha, hs⟩ := e.last hl
    rw [hb] at ha; cases ha
    rcases tillLoop_get _ _ _ _ hx with hx | ⟨final, hm, hx⟩
    · cases hx
    · have hsz := hs.sizes lid h3 hf
      rw [Dict.get?_of_mem hs.nodup hm] at hsz
      cases hl2 : b.ledgers.get? lid with
      | none => rw [hl2] at hsz; cases hsz
      | some l =>
        rw [hl2] at hsz
        simp only [Option.map_some, Option.some.injEq] at hsz
        subst hsz
        unfold tillOf at hx
        split at hx
        · cases hx
        · next o ho =>
          refine ⟨o, l, ho, rfl, ?_⟩
          split at hx
          · split at hx
            · cases hx
            · next hne =>
              cases hx
              exact ⟨rfl, rfl, Or.inr ⟨by simpa using Eq.symm (Decidable.not_not.1 hne), rfl⟩⟩
          · next r hr =>
            cases hx
            obtain ⟨l', hl', hfo⟩ := hs.roots lid _ h3 hf hr
            rw [hl2] at hl'; cases hl'
            rw [follow_here h1 hr] at hfo
            exact ⟨rfl, rfl, Or.inl hfo⟩
          · next n hr =>
            obtain ⟨l', hl', hfo⟩ := hs.roots lid _ h3 hf hr
            rw [hl2] at hl'; cases hl'
            obtain ⟨_, hle, u, hu, hfu⟩ := follow_back (field := (·.roots.get? lid)) h1 hr hfo
            simp only [behind, if_pos hle, hu, hfu] at hx
            cases hx
            exact ⟨rfl, rfl, Or.inl rfl⟩

theorem tillLoop_mem {audit : List Txn} {last : Txn} {own : Nat → Option Own} (es : Dict Nat Nat)
    (acc : Dict Nat Till) (hok : ∀ lid final, (lid, final) ∈ es → tillOf audit last own lid final ≠ none)
    (lid : Nat) (h : (acc.get? lid).isSome ∨ ∃ final, (lid, final) ∈ es ∧ (own lid).isSome) :
    ((tillLoop audit last own es acc).get? lid).isSome := by
  induction es generalizing acc with
  | nil =>
    rcases h with h | ⟨f, hf, _⟩
    · exact h
    · cases hf
  | cons e es ih =>
    obtain ⟨l, f⟩ := e
    have hok' := fun lid final hm => hok lid final (List.mem_cons_of_mem _ hm)
    unfold tillLoop
    split
    · next hn => exact absurd hn (hok l f List.mem_cons_self)
    · next hn =>
      refine ih acc hok' ?_
      rcases h with h | ⟨g, hg, ho⟩
      · exact Or.inl h
      · rcases List.mem_cons.1 hg with hg | hg
        · cases hg
          unfold tillOf at hn
          split at hn
          · next he => rw [he] at ho; cases ho
          · split at hn
            · split at hn <;> cases hn
            · cases hn
            · split at hn
              · cases hn
              · split at hn <;> cases hn
        · exact Or.inr ⟨g, hg, ho⟩
    · next x hx =>
      refine ih _ hok' ?_
      rcases h with h | ⟨g, hg, ho⟩
      · left; rw [Dict.get?_set]; split
        · rfl
        · exact h
      · rcases List.mem_cons.1 hg with hg | hg
        · cases hg; left; rw [Dict.get?_set, if_pos rfl]; rfl
        · exact Or.inr ⟨g, hg, ho⟩

/-- **C34, no target is missing.** If every ledger of the node without a root in the last audit transaction has
the size that transaction says, every audited ledger of the node which is not frozen gets a target: no delta
leads astray. -/
theorem C34_catchup_complete (ops : List Op) (hh : History ⟨[], []⟩ ops) (b : Batch) (t : Txn)
    (hb : (audited (live ops).done).getLast? = some b) (ht : (run ops).committed.getLast? = some t)
    (own : Nat → Option Own)
    (hs : ∀ lid o, own lid = some o → t.roots.get? lid = none → ∀ n, t.sizes.get? lid = some n → n = o.size)
    (lid : Nat) (h3 : lid ≠ auditId) (hf : b.frozen.has lid = false) (hl : (b.ledgers.get? lid).isSome)
    (ho : (own lid).isSome) :
    ((calcCatchupTill (run ops).committed own).get? lid).isSome := by
  have h := (auditInv ops hh).restart.good
  have e : Good (run ops).committed (audited (live ops).done) := by
    simpa [State.log, start, Live.step, audited] using h
  obtain ⟨h1, _, a, ha, hsy⟩ := e.last ht
  rw [hb] at ha; cases ha
  unfold calcCatchupTill
  rw [ht]
  refine tillLoop_mem _ _ ?_ _ (Or.inr ?_)
  · intro j final hm
    have hsz := Dict.get?_of_mem hsy.nodup hm
    unfold tillOf
    split
    · simp
    · next o hoj =>
      split
      · next hr => rw [if_neg (by simpa using hs j o hoj hr final hsz)]; simp
      · simp
      · next n hr =>
        have hfo : ∃ v, follow (run ops).committed (·.roots.get? j) ((run ops).committed.length - 1) = some v := by
          by_cases hj : j = auditId
          · rw [hj, hsy.noAudit] at hr; cases hr
          · cases hfz : b.frozen.has j with
            | true =>
              obtain ⟨_, v, hv, _⟩ := hsy.frozen j _ hfz hr
              exact ⟨v, hv⟩
            | false =>
              obtain ⟨l, _, hv⟩ := hsy.roots j _ hj hfz hr
              exact ⟨_, hv⟩
        obtain ⟨v, hv⟩ := hfo
        obtain ⟨_, hle, u, hu, hfu⟩ := follow_back (field := (·.roots.get? j)) h1 hr hv
        simp only [behind, if_pos hle, hu, hfu]
        simp
  · obtain ⟨l, hl⟩ := Option.isSome_iff_exists.1 hl
    have := hsy.sizes lid h3 hf
    rw [hl] at this
    exact ⟨_, Dict.mem_of_get? this, ho⟩

/-! ### An example -/

/-- Ledger 0 (pool) with three transactions, ledger 1 (domain) as given. -/
def exBatch (pp : Nat) (prim : List String) (size : Nat) (root : String) : Batch :=
  ⟨1, 0, none, pp, "d", prim, some ["A", "B"], true, [(0, ⟨3, "p3", 0, "ps"⟩), (1, ⟨size, root, 1, "s"⟩)], []⟩

/-- Three batches with the same primaries, one rejected and replaced by one with other primaries. -/
def exOps : List Op :=
  [.apply (exBatch 1 ["A"] 1 "r1"), .apply (exBatch 2 ["A"] 2 "r2"), .commit, .apply (exBatch 3 ["A"] 3 "r3"),
   .reject, .apply (exBatch 3 ["B"] 3 "q3"), .apply (exBatch 4 ["B"] 4 "q4"), .commit, .commit]

theorem exOps_history : History ⟨[], []⟩ exOps := by
  have hf : ∀ p q x r p' q' y s, x < y → Follows (exBatch p q x r) (exBatch p' q' y s) := by
    intro p q x r p' q' y s hxy
    refine ⟨?_, fun _ h => h⟩
    intro lid a b ha hb
    simp only [exBatch, Dict.get?_cons, Dict.get?_nil] at ha hb
    split at ha
    · next h => subst h; simp at hb; cases ha; subst hb; exact ⟨Nat.le_refl _, fun _ => rfl⟩
    · next h0 =>
      rw [if_neg h0] at hb
      split at ha
      · next h => rw [if_pos h] at hb; cases ha; cases hb; exact ⟨by simp; omega, fun h => by simp at h; omega⟩
      · cases ha
  have hn : ∀ p q x r, (exBatch p q x r).ledgers.keys.Nodup := by intro p q x r; simp [exBatch, Dict.keys]
  have hk : ∀ p q x r, (exBatch p q x r).frozen.keys.Nodup := by intro p q x r; simp [exBatch, Dict.keys]
  have hg : ∀ p q x r, (exBatch p q x r).hasAudit = true := fun _ _ _ _ => rfl
  simp only [exOps, History, Live.step, audited, List.nil_append, List.append_nil, List.filter_cons, List.filter_nil,
    hg, if_true, List.getLast?_nil, List.getLast?_cons, List.cons_append, List.take_succ_cons,
    List.take_zero, List.drop_succ_cons, List.drop_zero, List.dropLast, hn, hk, true_and, and_true, Option.some.injEq]
  simp [hf]

/-- In the third transaction the primaries are written out, in the others as deltas; the root of ledger 0 is a
delta over three transactions, and a node without anything is to catch up to 4 and 3 transactions. -/
example : (run exOps).log.map (·.primaries) = [.here ["A"], .back 1, .here ["B"], .back 1] ∧
    (run exOps).log.map (·.nodeReg) = [some (.here ["A", "B"]), some (.back 1), some (.back 2), some (.back 3)] ∧
    (run exOps).log.map (·.roots.get? 0) =
      [some (.here "p3"), some (.back 1), some (.back 2), some (.back 3)] ∧
    (run exOps).committed.length = 3 ∧
    lastAuditedPrimaries (run exOps).committed = some (.here ["B"]) ∧
    calcCatchupTill (run exOps).committed (fun _ => some ⟨0, "e"⟩) = [(0, ⟨0, 3, some "p3"⟩), (1, ⟨0, 3, some "q3"⟩)] := by
  decide

end Verif.Props
