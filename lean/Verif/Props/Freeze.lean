import Verif.Model.Freeze
import Verif.Props.Audit
/-!
# C53: freezing ledgers
-/
namespace Verif.Props
open Verif Verif.Freeze Verif.Audit Verif.Spec.Audit

/-- The loop on a good ledger: what is frozen stays, what is new is loaded. -/
theorem freezeLoop_spec {audit : List Txn} {t : Txn} (hload : ∀ lid, ∃ i, loadRoots audit t lid = .ok i) (ids : List Nat) :
    ∀ frozen : Dict Nat Info, ∃ r, freezeLoop audit (some t) frozen ids = .ok r ∧
      (∀ lid, frozen.has lid = true → r.get? lid = frozen.get? lid) ∧
      (∀ lid, frozen.has lid = false → lid ∉ ids → r.get? lid = none) ∧
      (∀ lid i, frozen.has lid = false → lid ∈ ids → loadRoots audit t lid = .ok i → r.get? lid = some i) := by
  induction ids with
  | nil =>
    intro frozen
    refine ⟨frozen, rfl, fun _ _ => rfl, fun lid h _ => ?_, fun lid i _ h => by simp at h⟩
    exact (Dict.has_false_iff _ _).1 h
  | cons x ids ih =>
    intro frozen
    unfold freezeLoop
    by_cases hx : frozen.has x = true
    · rw [if_pos hx]
      obtain ⟨r, h1, h2, h3, h4⟩ := ih frozen
      refine ⟨r, h1, h2, fun lid h hm => h3 lid h fun h' => hm (List.mem_cons_of_mem _ h'), fun lid i h hm hl => ?_⟩
      rcases List.mem_cons.1 hm with e | hm
      · subst e; rw [hx] at h; cases h
      · exact h4 lid i h hm hl
    · rw [if_neg hx]
      obtain ⟨i, hi⟩ := hload x
      simp only [hi]
      obtain ⟨r, h1, h2, h3, h4⟩ := ih (frozen.set x i)
      have hhas : ∀ lid, lid ≠ x → (frozen.set x i).has lid = frozen.has lid := by
        intro lid hne
        simp only [Dict.has, Dict.get?_set, if_neg (Ne.symm hne)]
      have hself : (frozen.set x i).has x = true := by simp [Dict.has, Dict.get?_set]
      refine ⟨r, h1, fun lid h => ?_, fun lid h hm => ?_, fun lid j h hm hl => ?_⟩
      · have hne : lid ≠ x := fun e => hx (e ▸ h)
        rw [h2 lid ((hhas lid hne).trans h), Dict.get?_set, if_neg (Ne.symm hne)]
      · rw [List.mem_cons, not_or] at hm
        exact h3 lid ((hhas lid hm.1).trans h) hm.2
      · by_cases e : lid = x
        · subst e
          rw [hi] at hl; cases hl
          rw [h2 lid hself, Dict.get?_set, if_pos rfl]
        · rcases List.mem_cons.1 hm with e' | hm
          · exact absurd e' e
          · exact h4 lid j ((hhas lid e).trans h) hm hl

/-- The committed part of the audit ledger says what the committed batches were. -/
theorem committed_good {ops : List Op} (hh : History ⟨[], []⟩ ops) :
    Good (run ops).committed (audited (live ops).done) := by
  have h := auditInv ops hh
  have := h.good.take (run ops).committed.length
  rw [State.log, List.take_left] at this
  rw [h.com] at this
  have h2 : audited ((live ops).done ++ (live ops).pending) = audited (live ops).done ++ audited (live ops).pending := by
    simp [audited]
  rw [h2, List.take_left] at this
  exact this

/-- The roots of every ledger can be loaded. -/
theorem loadRoots_ok {log : List Txn} {t : Txn} {b : Batch} (ht : log[log.length - 1]? = some t)
    (hs : Says log (log.length - 1) t b) (lid : Nat) :
    ∃ i, loadRoots log t lid = .ok i ∧ i.state = t.states.get? lid ∧ i.seqNo = t.sizes.get? lid ∧
      (t.roots.get? lid = none → i.root = none) ∧
      (∀ r, follow log (·.roots.get? lid) (log.length - 1) = some r → i.root = some (.here r)) := by
  unfold loadRoots
  cases hr : t.roots.get? lid with
  | none =>
    refine ⟨_, rfl, rfl, rfl, fun _ => rfl, fun r hf => ?_⟩
    rw [follow_none (field := (·.roots.get? lid)) ht hr] at hf; cases hf
  | some f =>
    cases f with
    | here v =>
      refine ⟨_, rfl, rfl, rfl, fun h => by simp at h, fun r hf => ?_⟩
      rw [follow_here (field := (·.roots.get? lid)) ht hr] at hf
      cases hf; rfl
    | back n =>
      have hv : ∃ v, follow log (·.roots.get? lid) (log.length - 1) = some v := by
        by_cases hj : lid = auditId
        · rw [hj, hs.noAudit] at hr; cases hr
        · cases hfz : b.frozen.has lid with
          | true => obtain ⟨_, v, hv, _⟩ := hs.frozen lid _ hfz hr; exact ⟨v, hv⟩
          | false => obtain ⟨l, _, hv⟩ := hs.roots lid _ hj hfz hr; exact ⟨_, hv⟩
      obtain ⟨v, hv⟩ := hv
      obtain ⟨_, hle, u, hu, hfu⟩ := follow_back (field := (·.roots.get? lid)) ht hr hv
      simp only [behind, if_pos hle, hu]
      refine ⟨_, rfl, rfl, rfl, fun h => by simp at h, fun r hf => ?_⟩
      rw [hv] at hf
      cases hf
      exact hfu

/-- **C53**, in part. On every history of the audit ledger with a committed batch, let
`b` be the last of these and `t` its audit transaction. A request to freeze ledgers, all
of them known to `t`, from a trustee, is applied. What was frozen before is unchanged,
and nothing else is frozen than what was asked. For a newly frozen ledger the record has
its size after `b`, and if the audit ledger has a root for it, its root after `b`. Its
state root after `b` is recorded if `t` has the root of the ledger written out; otherwise,
wrongly, none is recorded: see `freeze_loses_state_root`. -/
theorem freeze_record_partial (ops : List Op) (hh : History ⟨[], []⟩ ops) (b : Batch) (t : Txn) (ids : List Nat) (frozen : Dict Nat Info)
    (hb : (audited (live ops).done).getLast? = some b) (ht : (run ops).committed.getLast? = some t)
    (hids : ∀ i ∈ ids, i ∉ validLedgerIds ∧ t.sizes.has i = true) :
    ∃ r, freeze (run ops).committed frozen true ids = .ok r ∧
      (∀ lid, frozen.has lid = true → r.get? lid = frozen.get? lid) ∧
      (∀ lid, frozen.has lid = false → lid ∉ ids → r.get? lid = none) ∧
      ∀ lid, frozen.has lid = false → lid ∈ ids → b.frozen.has lid = false →
        ∃ l i, b.ledgers.get? lid = some l ∧ r.get? lid = some i ∧ i.seqNo = some l.size ∧
          (t.roots.get? lid = none ∧ i.root = none ∨ t.roots.get? lid ≠ none ∧ i.root = some (.here l.root)) ∧
          (t.roots.get? lid = some (.here l.root) ∧ i.state = some l.state ∨
            t.roots.get? lid ≠ some (.here l.root) ∧ i.state = none) := by
  have hg := committed_good hh
  obtain ⟨h1, hp, a, ha, hs⟩ := hg.last ht
  rw [hb] at ha; cases ha
  obtain ⟨r, hr, r1, r2, r3⟩ := freezeLoop_spec (fun lid => by
    obtain ⟨i, hi, _⟩ := loadRoots_ok h1 hs lid; exact ⟨i, hi⟩) ids frozen
  refine ⟨r, ?_, r1, r2, ?_⟩
  · unfold freeze check
    have hv : ids.any (fun i => validLedgerIds.contains i) = false := by
      rw [List.any_eq_false]; intro x hx; simpa using (hids x hx).1
    have hz : ids.any (fun i => !t.sizes.has i) = false := by
      rw [List.any_eq_false]; intro x hx; simp [(hids x hx).2]
    simp only [hv, Bool.false_eq_true, if_false, Bool.not_true, ht, hz, makeList]
    exact hr
  · intro lid hf hm hbf
    obtain ⟨i, hi, hist, hisz, hin, hir⟩ := loadRoots_ok h1 hs lid
    have h3 : lid ≠ auditId := fun e => (hids lid hm).1 (by rw [e]; decide)
    have hsz := hs.sizes lid h3 hbf
    have hhas := (hids lid hm).2
    cases hl : b.ledgers.get? lid with
    | none => rw [hl] at hsz; simp [Dict.has, hsz] at hhas
    | some l =>
      refine ⟨l, i, rfl, r3 lid i hf hm hi, ?_, ?_, ?_⟩
      · rw [hisz, hsz, hl]; rfl
      · cases hr' : t.roots.get? lid with
        | none => exact .inl ⟨rfl, hin hr'⟩
        | some f =>
          right
          obtain ⟨l', hl', hfo⟩ := hs.roots lid f h3 hbf hr'
          rw [hl] at hl'; cases hl'
          exact ⟨by simp, hir _ hfo⟩
      · have hst := hs.states lid l h3 hbf hl
        by_cases e : t.roots.get? lid = some (.here l.root)
        · exact .inl ⟨e, by rw [hist]; exact (hst l.state).2 ⟨e, rfl⟩⟩
        · refine .inr ⟨e, ?_⟩
          rw [hist]
          cases hx : t.states.get? lid with
          | none => rfl
          | some x => exact absurd ((hst x).1 hx).1 e

/-- Once a batch wrote to a ledger its root is known, as long as the node has the ledger and
it is not frozen. With `freeze_record_partial`, the root is then in the record. -/
theorem freeze_root_known (ops : List Op) (hh : History ⟨[], []⟩ ops) (t : Txn) (lid j : Nat) (h3 : lid ≠ auditId)
    (ht : (run ops).committed.getLast? = some t) (b : Batch) (hb : (audited (live ops).done)[j]? = some b) (hw : b.ledgerId = lid)
    (hk : ∀ i c, j ≤ i → (audited (live ops).done)[i]? = some c → c.frozen.has lid = false ∧ c.ledgers.has lid = true) :
    t.roots.get? lid ≠ none := by
  have hg := committed_good hh
  obtain ⟨h1, hp, -⟩ := hg.last ht
  have hget : ∀ (c : Batch), c.ledgers.has lid = true → ∃ l, c.ledgers.get? lid = some l := by
    intro c h
    cases hx : c.ledgers.get? lid with
    | none => simp [Dict.has, hx] at h
    | some l => exact ⟨l, rfl⟩
  have main : ∀ d u, (run ops).committed[j + d]? = some u → u.roots.get? lid ≠ none := by
    intro d
    induction d with
    | zero =>
      intro u hu
      have hs := hg.says j u b hu hb
      obtain ⟨hk1, hk2⟩ := hk j b (Nat.le_refl _) hb
      subst hw
      obtain ⟨l, hl⟩ := hget b hk2
      rw [hs.own l h3 hk1 hl]; simp
    | succ d ih =>
      intro u hu
      have hi : j + (d + 1) < (run ops).committed.length := (List.getElem?_eq_some_iff.1 hu).1
      have hc := List.getElem?_eq_getElem (l := audited (live ops).done) (i := j + (d + 1)) (by rw [← hg.len]; exact hi)
      have hs := hg.says _ u _ hu hc
      obtain ⟨hk1, hk2⟩ := hk _ _ (by omega) hc
      obtain ⟨l, hl⟩ := hget _ hk2
      have hprev := List.getElem?_eq_getElem (l := (run ops).committed) (i := j + d) (by omega)
      exact hs.keep lid l _ h3 hk1 hl (by omega) (by rw [show j + (d + 1) - 1 = j + d by omega]; exact hprev) (ih _ hprev)
  have hj : j < (run ops).committed.length := by rw [hg.len]; exact (List.getElem?_eq_some_iff.1 hb).1
  refine main ((run ops).committed.length - 1 - j) t ?_
  rw [show j + ((run ops).committed.length - 1 - j) = (run ops).committed.length - 1 by omega]
  exact h1

/-! ## What goes wrong -/

/-- A transaction with nothing in it. -/
def fzTxn : Txn := ⟨0, 0, [], [], [], .here [], none, ""⟩

/-- A batch for the ledger `lid`: the pool ledger with three transactions, the config ledger
and ledger 1001 with as many as given. -/
def fzBatch (lid pp cfg size : Nat) (frozen : Dict Nat Nat) : Batch :=
  ⟨lid, 0, none, pp, "d", ["A"], none, true,
   [(0, ⟨3, "p", 0, "ps"⟩), (2, ⟨cfg, toString cfg, if lid = 2 then 1 else 0, toString cfg⟩),
    (1001, ⟨size, toString size, if lid = 1001 then 1 else 0, toString size⟩)], frozen⟩

/-- A batch for ledger 1001, committed, and one for the config ledger, committed or not. -/
def fzOps (commit : Bool) : List Op :=
  [.apply (fzBatch 1001 1 0 1 []), .commit, .apply (fzBatch 2 2 1 1 [])] ++ if commit then [.commit] else []

theorem fzFollows {a b c d e f g h : Nat} {x y : Dict Nat Nat} (h1 : c ≤ g) (h2 : d ≤ h)
    (hf : ∀ lid, x.has lid = true → y.has lid = true) : Follows (fzBatch a b c d x) (fzBatch e f g h y) := by
  refine ⟨?_, hf⟩
  intro lid u v hu hv
  simp only [fzBatch, Dict.get?_cons, Dict.get?_nil] at hu hv
  split at hu
  · next e0 => rw [if_pos e0] at hv; cases hu; cases hv; exact ⟨Nat.le_refl _, fun _ => rfl⟩
  · next n0 =>
    rw [if_neg n0] at hv
    split at hu
    · next e0 => rw [if_pos e0] at hv; cases hu; cases hv; exact ⟨h1, fun e => by simp only at e ⊢; rw [e]⟩
    · next n1 =>
      rw [if_neg n1] at hv
      split at hu
      · next e0 => rw [if_pos e0] at hv; cases hu; cases hv; exact ⟨h2, fun e => by simp only at e ⊢; rw [e]⟩
      · cases hu

theorem fzNodup (a b c d : Nat) (x : Dict Nat Nat) : (fzBatch a b c d x).ledgers.keys.Nodup := by simp [fzBatch, Dict.keys]

theorem fzOps_history (commit : Bool) : History ⟨[], []⟩ (fzOps commit) := by
  refine ⟨⟨fzNodup _ _ _ _ _, List.nodup_nil, fun a h => by simp [audited] at h⟩, trivial,
    ⟨fzNodup _ _ _ _ _, List.nodup_nil, fun a h => ?_⟩, ?_⟩
  · have : a = fzBatch 1001 1 0 1 [] := by
      simpa [Live.step, audited, fzBatch, eq_comm] using h
    subst this
    exact fzFollows (by omega) (by omega) (fun _ h => h)
  · cases commit
    · trivial
    · exact ⟨trivial, trivial⟩

/-- **C53**, negation: the state root is not recorded if the ledger did not change in the last
committed batch, although the audit ledger has one for it. -/
theorem freeze_loses_state_root : ∃ ops t, History ⟨[], []⟩ ops ∧ t ∈ (run ops).committed ∧ t.states.get? 1001 = some "1" ∧
    freeze (run ops).committed [] true [1001] = .ok [(1001, ⟨some (.here "1"), none, some 1⟩)] :=
  ⟨fzOps true, ((run (fzOps true)).committed[0]?).getD fzTxn, fzOps_history true, by decide +kernel, by decide +kernel, by decide +kernel⟩

/-- The record depends on what the node committed, not only on what it applied: two nodes with
the same ledgers, one of which has not committed the last batch yet, make different
records of the same request, and so different states. -/
theorem freeze_depends_on_commits : ∃ ops ops', History ⟨[], []⟩ ops ∧ History ⟨[], []⟩ ops' ∧ (run ops).log = (run ops').log ∧
    freeze (run ops).committed [] true [1001] = .ok [(1001, ⟨some (.here "1"), some "1", some 1⟩)] ∧
    freeze (run ops').committed [] true [1001] = .ok [(1001, ⟨some (.here "1"), none, some 1⟩)] :=
  ⟨fzOps false, fzOps true, fzOps_history false, fzOps_history true, by decide +kernel, by decide +kernel, by decide +kernel⟩

/-- A third batch after ledger 1001 was frozen by the second. -/
def fzLater : List Op := fzOps true ++ [.apply (fzBatch 0 3 1 1 [(1001, 1)]), .commit]

theorem fzLater_history : History ⟨[], []⟩ fzLater := by
  refine ⟨⟨fzNodup _ _ _ _ _, List.nodup_nil, fun a h => by simp [audited] at h⟩, trivial,
    ⟨fzNodup _ _ _ _ _, List.nodup_nil, fun a h => ?_⟩, trivial, ⟨fzNodup _ _ _ _ _, ?_, fun a h => ?_⟩, trivial, trivial⟩
  · have : a = fzBatch 1001 1 0 1 [] := by
      simpa [Live.step, audited, fzBatch, eq_comm] using h
    subst this
    exact fzFollows (by omega) (by omega) (fun _ h => h)
  · simp [fzBatch, Dict.keys]
  · have : a = fzBatch 2 2 1 1 [] := by
      simpa [Live.step, audited, fzBatch, eq_comm] using h
    subst this
    exact fzFollows (by omega) (by omega) (fun _ h => by simp [Dict.has] at h)

/-- A node that catches up has the whole audit ledger when it applies the transaction that
froze a ledger: its record has no state root, where the record of the node that took
part in ordering has one. The two have the same ledgers. -/
theorem freeze_catchup_differs : ∃ before after, History ⟨[], []⟩ after ∧ before <+: after ∧
    freeze (run before).committed [] true [1001] = .ok [(1001, ⟨some (.here "1"), some "1", some 1⟩)] ∧
    makeList (run after).committed [] [1001] = .ok [(1001, ⟨some (.here "1"), none, some 1⟩)] :=
  ⟨fzOps false, fzLater, fzLater_history, ⟨[.commit, .apply (fzBatch 0 3 1 1 [(1001, 1)]), .commit], by simp [fzLater, fzOps]⟩, by decide +kernel, by decide +kernel⟩

/-- Two batches for the config ledger, while ledger 1001 is empty; the second freezes it. -/
def fzEmpty : List Op := [.apply (fzBatch 2 1 1 0 []), .commit, .apply (fzBatch 2 2 2 0 [])]

/-- The next audit transaction, too, depends on whether the batch that froze a ledger is
committed: with a ledger that never had a transaction the sizes differ. -/
theorem audit_depends_on_commits : ∃ (ops : List Op) (b : Batch) (u v : Txn), History ⟨[], []⟩ ops ∧
    freeze (run (ops.take 2)).committed [] true [1001] = .ok [(1001, ⟨none, none, some 0⟩)] ∧
    createTxn (run ops).log b = .ok u ∧ createTxn (run ops).log { b with frozen := [(1001, 0)] } = .ok v ∧
    u.sizes.get? 1001 = some 0 ∧ v.sizes.get? 1001 = none := by
  refine ⟨fzEmpty, fzBatch 0 3 2 0 [], (createTxn (run fzEmpty).log (fzBatch 0 3 2 0 [])).toOption.getD fzTxn,
    (createTxn (run fzEmpty).log (fzBatch 0 3 2 0 [(1001, 0)])).toOption.getD fzTxn, ?_,
    by decide +kernel, by decide +kernel, by decide +kernel, by decide +kernel, by decide +kernel⟩
  refine ⟨⟨fzNodup _ _ _ _ _, List.nodup_nil, fun a h => by simp [audited] at h⟩, trivial,
    ⟨fzNodup _ _ _ _ _, List.nodup_nil, fun a h => ?_⟩, trivial⟩
  have : a = fzBatch 2 1 1 0 [] := by
    simpa [Live.step, audited, fzBatch, eq_comm] using h
  subst this
  exact fzFollows (by omega) (by omega) (fun _ h => h)

/-- On an empty audit ledger the request passes the checks and then raises. -/
theorem freeze_first_batch_raises (lid : Nat) (h : lid ∉ validLedgerIds) :
    check [] true [lid] = none ∧ freeze [] [] true [lid] = .error .noTxn := by
  have hc : check [] true [lid] = none := by
    have : validLedgerIds.contains lid = false := by simpa using h
    simp only [check, List.any_cons, List.any_nil, this]; rfl
  refine ⟨hc, ?_⟩
  simp only [freeze, hc]; rfl

/-- What is applied came from a trustee, names none of the pool, domain, config and audit
ledgers, and only ledgers the last committed audit transaction, if there is one, knows. -/
theorem freeze_refused (audit : List Txn) (trustee : Bool) (ids : List Nat) (frozen r : Dict Nat Info)
    (hr : freeze audit frozen trustee ids = .ok r) :
    trustee = true ∧ ∀ i ∈ ids, i ≠ 0 ∧ i ≠ 1 ∧ i ≠ 2 ∧ i ≠ 3 ∧ ∀ t, audit.getLast? = some t → t.sizes.has i = true := by
  unfold freeze check at hr
  by_cases hv : ids.any (fun i => validLedgerIds.contains i) = true
  · rw [if_pos hv] at hr; cases hr
  · rw [if_neg hv] at hr
    cases trustee with
    | false => cases hr
    | true =>
      refine ⟨rfl, fun i hi => ?_⟩
      have hn : i ∉ validLedgerIds := fun h => hv (List.any_eq_true.2 ⟨i, hi, by simpa using h⟩)
      simp only [validLedgerIds, List.mem_cons, List.not_mem_nil, or_false, not_or] at hn
      refine ⟨hn.1, hn.2.1, hn.2.2.1, hn.2.2.2, fun t ht => ?_⟩
      simp only [Bool.not_true, Bool.false_eq_true, if_false, ht] at hr
      by_cases hs : ids.any (fun i => !t.sizes.has i) = true
      · rw [if_pos hs] at hr; cases hr
      · cases h : t.sizes.has i with
        | true => rfl
        | false => exact absurd (List.any_eq_true.2 ⟨i, hi, by simp [h]⟩) hs

/-- Once a ledger is in the record, requests for it are refused, whatever is frozen later. -/
theorem frozen_not_writable (audit : List Txn) (trustee : Bool) (ids : List Nat) (frozen r : Dict Nat Info)
    (hr : freeze audit frozen trustee ids = .ok r) (lid : Nat) (h : lid ∉ validLedgerIds) (hf : frozen.has lid = true ∨ lid ∈ ids) :
    writable r lid = false := by
  have main : ∀ (last : Option Txn) (ids : List Nat) (frozen : Dict Nat Info), freezeLoop audit last frozen ids = .ok r →
      frozen.has lid = true ∨ lid ∈ ids → r.has lid = true := by
    intro last ids
    induction ids with
    | nil =>
      intro frozen hl h
      cases hl
      rcases h with h | h
      · exact h
      · simp at h
    | cons x ids ih =>
      intro frozen hl h
      unfold freezeLoop at hl
      split at hl
      · next hx =>
        refine ih frozen hl ?_
        rcases h with h | h
        · exact .inl h
        · rcases List.mem_cons.1 h with e | h
          · subst e; exact .inl hx
          · exact .inr h
      · split at hl
        · cases hl
        · split at hl
          · cases hl
          · refine ih _ hl ?_
            rcases h with h | h
            · left
              by_cases e : x = lid
              · simp [Dict.has, Dict.get?_set, e]
              · simpa [Dict.has, Dict.get?_set, e] using h
            · rcases List.mem_cons.1 h with e | h
              · subst e; left; simp [Dict.has, Dict.get?_set]
              · exact .inr h
  unfold freeze at hr
  split at hr
  · cases hr
  · have := main _ _ _ hr hf
    simp [writable, this, h]

example : ∃ r, freeze (run (fzOps false)).committed [] true [1001] = .ok r ∧ writable r 1001 = false ∧ writable r 1002 = true :=
  ⟨_, rfl, by decide +kernel, by decide +kernel⟩
example : ∃ b t, (audited (live (fzOps false)).done).getLast? = some b ∧ (run (fzOps false)).committed.getLast? = some t ∧
    t.sizes.has 1001 = true ∧ b.frozen.has 1001 = false ∧ b.ledgers.get? 1001 = some ⟨1, "1", 1, "1"⟩ ∧
    t.roots.get? 1001 = some (.here "1") :=
  ⟨fzBatch 1001 1 0 1 [], ((run (fzOps false)).committed.getLast?).getD fzTxn, by decide +kernel, by decide +kernel, by decide +kernel,
    by decide +kernel, by decide +kernel, by decide +kernel⟩

end Verif.Props
