import Verif.Spec.Answers
import Verif.Proofs.Count
/-!
# Proofs about the answers to clients
-/
namespace Verif.Answers
open Verif.Propagator (Key Req Sender)

variable (cfg : Cfg)

theorem run_append (s : State) (es fs : List Ev) :
    s.run cfg (es ++ fs) = (((s.run cfg es).1.run cfg fs).1, (s.run cfg es).2 ++ ((s.run cfg es).1.run cfg fs).2) := by
  induction es generalizing s with
  | nil => simp [State.run]
  | cons e es ih => simp only [List.cons_append, State.run, ih, List.append_assoc]

theorem run_single (s : State) (e : Ev) : s.run cfg [e] = ((s.step cfg e).1, (s.step cfg e).2) := by
  simp [State.run]

theorem run_snoc (s : State) (es : List Ev) (e : Ev) :
    s.run cfg (es ++ [e]) = (((s.run cfg es).1.step cfg e).1, (s.run cfg es).2 ++ ((s.run cfg es).1.step cfg e).2) := by
  rw [run_append, run_single]

/-- An invariant of all runs. -/
theorem run_inv (P : State → Prop) (h : ∀ s e, P s → P (s.step cfg e).1) (s : State) (hs : P s) (es : List Ev) :
    P (s.run cfg es).1 := by
  induction es generalizing s with
  | nil => exact hs
  | cons e es ih => exact ih _ (h s e hs)

/-! ## What the helpers leave alone -/

/-- Two states with the same ledgers, `seqNoDB`, batches and history. -/
structure Same (s t : State) : Prop where
  byPayload : t.byPayload = s.byPayload
  byFull : t.byFull = s.byFull
  ledger : t.ledger = s.ledger
  pending : t.pending = s.pending
  history : t.history = s.history

theorem Same.refl (s : State) : Same s s := ⟨rfl, rfl, rfl, rfl, rfl⟩

theorem Same.trans {s t u : State} (h : Same s t) (g : Same t u) : Same s u :=
  ⟨g.byPayload.trans h.byPayload, g.byFull.trans h.byFull, g.ledger.trans h.ledger, g.pending.trans h.pending,
    g.history.trans h.history⟩

theorem same_write (s : State) (r : Req) (c : Client) : Same s (s.write cfg r c).1 := by
  unfold State.write
  dsimp only
  split
  · exact .refl _
  · split
    · exact ⟨rfl, rfl, rfl, rfl, rfl⟩
    · split <;> exact ⟨rfl, rfl, rfl, rfl, rfl⟩

theorem same_came (s : State) (r : Req) (c : Client) : Same s (s.came cfg r c).1 := by
  unfold State.came
  split
  · exact .refl _
  · split
    · exact .refl _
    · exact .refl _
    · split
      · exact .refl _
      · exact same_write cfg s r c

theorem same_learn (s : State) (k : Key) (c : Option Client) : Same s (s.learn k c) := by
  unfold State.learn
  split <;> exact ⟨rfl, rfl, rfl, rfl, rfl⟩

theorem same_processPropagate (s : State) (r : Req) (frm : Sender) (c : Option Client) :
    Same s (s.processPropagate cfg r frm c).1 := by
  unfold State.processPropagate
  dsimp only
  split
  · exact (same_learn s _ c).trans ⟨rfl, rfl, rfl, rfl, rfl⟩
  · split
    · exact .refl _
    · split <;> exact ⟨rfl, rfl, rfl, rfl, rfl⟩

theorem same_rejectOne (s : State) (r : Req) : Same s (s.rejectOne cfg r).1 := by
  unfold State.rejectOne
  split <;> exact ⟨rfl, rfl, rfl, rfl, rfl⟩

theorem same_rejectAll (s : State) (rs : List Req) : Same s (s.rejectAll cfg rs).1 := by
  induction rs generalizing s with
  | nil => exact .refl _
  | cons r rs ih => exact (same_rejectOne cfg s r).trans (ih _)

theorem same_replyOne (s : State) (t : Req) (l n : Nat) : Same s (s.replyOne cfg t l n).1 := by
  unfold State.replyOne
  split <;> exact ⟨rfl, rfl, rfl, rfl, rfl⟩

theorem same_replyAll (s : State) (l n : Nat) (ts : List Req) : Same s (s.replyAll cfg l n ts).1 := by
  induction ts generalizing s n with
  | nil => exact .refl _
  | cons t ts ih => exact (same_replyOne cfg s t l n).trans (ih _ _)

theorem same_clear (s : State) (k : Key) : Same s (s.clear k) := by
  unfold State.clear
  split
  · exact .refl _
  · dsimp only
    split <;> split <;> exact ⟨rfl, rfl, rfl, rfl, rfl⟩

theorem same_outdated (s : State) (k : Key) : Same s (s.outdated k) := by
  unfold State.outdated
  split <;> exact ⟨rfl, rfl, rfl, rfl, rfl⟩

/-- How the stores change at an event. -/
inductive Stores (s : State) : State → Prop
  | same {t} (h : Same s t) : Stores s t
  | pending {t} (p : List Batch) (h : Same { s with pending := p } t) : Stores s t
  | order {t} (b : Batch) (bs : List Batch) (hp : s.pending = b :: bs)
      (h : Same (((({ s with pending := bs } : State).append b.ledger b.valid).updateDb cfg b.ledger
        (numbered ((s.ledger b.ledger).length + 1) b.valid))) t) : Stores s t
  | caughtUp {t} (r : Req) (hp : s.pending = [])
      (h : Same ((s.append (cfg.ledgerOf r) [r]).updateDb cfg (cfg.ledgerOf r)
        [(r, (s.ledger (cfg.ledgerOf r)).length + 1)]) t) : Stores s t

theorem stores_step (s : State) (e : Ev) : Stores cfg s (s.step cfg e).1 := by
  cases e with
  | came r c => exact .same (same_came cfg s r c)
  | propagate r frm c =>
    show Stores cfg s (if cfg.prop.authentic r then s.processPropagate cfg r frm c else (s, [])).1
    split
    · exact .same (same_processPropagate cfg s r frm c)
    · exact .same (.refl _)
  | propRep r frm c => exact .same (same_processPropagate cfg s r frm c)
  | apply l ks =>
    show Stores cfg s (s.apply cfg l ks).1
    unfold State.apply
    split
    · exact .same (.refl _)
    · split
      · split
        · exact .same (.refl _)
        · exact .pending _ (same_rejectAll cfg _ _)
      · exact .same (.refl _)
  | revert n => exact .pending _ (.refl _)
  | order =>
    show Stores cfg s (s.order cfg).1
    unfold State.order
    split
    · exact .same (.refl _)
    · rename_i b bs hp
      refine .order b bs hp ?_
      dsimp only
      exact (same_replyAll cfg _ b.ledger _ b.valid).trans ⟨rfl, rfl, rfl, rfl, rfl⟩
  | caughtUp r =>
    show Stores cfg s (s.caughtUp cfg r)
    unfold State.caughtUp
    split
    · rename_i hp
      exact .caughtUp r (List.isEmpty_iff.mp hp) (same_clear _ _)
    · exact .same (.refl _)
  | outdated k => exact .same (same_outdated s k)
  | ordered k => exact .same ⟨rfl, rfl, rfl, rfl, rfl⟩
  | released i k => exact .same ⟨rfl, rfl, rfl, rfl, rfl⟩
  | replicas n => exact .same ⟨rfl, rfl, rfl, rfl, rfl⟩
  | viewChange b => exact .same ⟨rfl, rfl, rfl, rfl, rfl⟩
  | restart => exact .pending [] ⟨rfl, rfl, rfl, rfl, rfl⟩

/-! ## The ledgers and `seqNoDB` -/

theorem mem_numbered {n : Nat} {ts : List Req} {x : Req × Nat} :
    x ∈ numbered n ts ↔ ∃ i, ts[i]? = some x.1 ∧ x.2 = n + i := by
  induction ts generalizing n with
  | nil => simp [numbered]
  | cons t ts ih =>
    rw [numbered, List.mem_cons, ih]
    constructor
    · rintro (rfl | ⟨i, h, hi⟩)
      · exact ⟨0, rfl, rfl⟩
      · exact ⟨i + 1, h, by omega⟩
    · rintro ⟨i, h, hi⟩
      cases i with
      | zero =>
        left
        cases x
        simp only [List.getElem?_cons_zero, Option.some.injEq] at h
        simp_all
      | succ i => exact .inr ⟨i, h, by omega⟩

theorem get?_foldl_set (ts : List (Req × Nat)) (l : Nat) (d : Dict Key (Nat × Nat)) (p : Key) :
    (∃ x ∈ ts, cfg.prop.payload x.1 = p ∧
      (ts.foldl (fun d t => d.set (cfg.prop.payload t.1) (l, t.2)) d).get? p = some (l, x.2)) ∨
    ((∀ x ∈ ts, cfg.prop.payload x.1 ≠ p) ∧
      (ts.foldl (fun d t => d.set (cfg.prop.payload t.1) (l, t.2)) d).get? p = d.get? p) := by
  induction ts generalizing d with
  | nil => exact .inr ⟨fun _ h => (nomatch h), rfl⟩
  | cons t ts ih =>
    rw [List.foldl_cons]
    rcases ih (d.set (cfg.prop.payload t.1) (l, t.2)) with ⟨x, hx, hp, hg⟩ | ⟨hn, hg⟩
    · exact .inl ⟨x, List.mem_cons_of_mem _ hx, hp, hg⟩
    · rw [Dict.get?_set] at hg
      split at hg
      · rename_i hp
        exact .inl ⟨t, List.mem_cons_self, hp, hg⟩
      · rename_i hp
        refine .inr ⟨?_, hg⟩
        intro x hx
        rcases List.mem_cons.mp hx with rfl | hx
        · exact hp
        · exact hn x hx

/-- What holds of the ledgers and `seqNoDB` in all runs. -/
structure Good (s : State) : Prop where
  /-- what is recorded is in the ledger -/
  found : ∀ p l n, s.byPayload.get? p = some (l, n) → ∃ m t, n = m + 1 ∧ (s.ledger l)[m]? = some t ∧
    cfg.prop.payload t = p
  full : ∀ k, k ∈ s.byFull → ∃ l t, t ∈ s.ledger l ∧ cfg.prop.digest t = k
  /-- what is in the ledger is recorded -/
  known : (∀ l t, t ∈ s.ledger l → cfg.reqId t ≠ 0) → ∀ l t, t ∈ s.ledger l →
    s.byPayload.has (cfg.prop.payload t) = true ∧ cfg.prop.digest t ∈ s.byFull

theorem Good.same {s t : State} (h : Same s t) (g : Good cfg s) : Good cfg t := by
  obtain ⟨a, b, c⟩ := g
  constructor
  · intro p l n; rw [h.byPayload, h.ledger]; exact a p l n
  · intro k; rw [h.byFull, h.ledger]; exact b k
  · rw [h.ledger, h.byPayload, h.byFull]; exact c

theorem good_pending {s : State} (p : List Batch) (g : Good cfg s) : Good cfg { s with pending := p } :=
  ⟨g.found, g.full, g.known⟩

theorem append_ledger (s : State) (l : Nat) (ts : List Req) (j : Nat) :
    (s.append l ts).ledger j = if j = l then s.ledger l ++ ts else s.ledger j := rfl

theorem mem_append_ledger {s : State} {l : Nat} {ts : List Req} {j : Nat} {t : Req} :
    t ∈ (s.append l ts).ledger j ↔ t ∈ s.ledger j ∨ (j = l ∧ t ∈ ts) := by
  rw [append_ledger]
  split
  · rename_i h; subst h; simp
  · rename_i h; simp [h]

theorem get_append_ledger {s : State} {l : Nat} {ts : List Req} {j m : Nat} {t : Req}
    (h : (s.ledger j)[m]? = some t) : ((s.append l ts).ledger j)[m]? = some t := by
  rw [append_ledger]
  split
  · rename_i e
    subst e
    have := (List.getElem?_eq_some_iff.mp h).1
    rw [List.getElem?_append_left this]; exact h
  · exact h

theorem get_append_new {s : State} {l : Nat} {ts : List Req} {i : Nat} {t : Req} (h : ts[i]? = some t) :
    ((s.append l ts).ledger l)[(s.ledger l).length + i]? = some t := by
  rw [append_ledger, if_pos rfl, List.getElem?_append_right (by omega)]
  simpa using h

theorem updateDb_ledger (s : State) (l : Nat) (ts : List (Req × Nat)) : (s.updateDb cfg l ts).ledger = s.ledger := by
  unfold State.updateDb
  split <;> rfl

theorem numbered_fst (n : Nat) (ts : List Req) : (numbered n ts).map Prod.fst = ts := by
  induction ts generalizing n with
  | nil => rfl
  | cons t ts ih => rw [numbered, List.map_cons, ih]

theorem good_append {s : State} (g : Good cfg s) (l : Nat) (ts : List Req) :
    Good cfg ((s.append l ts).updateDb cfg l (numbered ((s.ledger l).length + 1) ts)) := by
  have hfst := numbered_fst ((s.ledger l).length + 1) ts
  constructor
  · intro p j n h
    rw [updateDb_ledger]
    have old : s.byPayload.get? p = some (j, n) → ∃ m t, n = m + 1 ∧ ((s.append l ts).ledger j)[m]? = some t ∧
        cfg.prop.payload t = p := by
      intro h
      obtain ⟨m, t, hn, hm, hp⟩ := g.found p j n h
      exact ⟨m, t, hn, get_append_ledger hm, hp⟩
    unfold State.updateDb at h
    split at h
    · replace h : ((numbered ((s.ledger l).length + 1) ts).foldl
        (fun d t => d.set (cfg.prop.payload t.1) (l, t.2)) s.byPayload).get? p = some (j, n) := h
      rcases get?_foldl_set cfg (numbered ((s.ledger l).length + 1) ts) l s.byPayload p with ⟨x, hx, hp, hg⟩ | ⟨_, hg⟩
      · rw [hg] at h
        cases h
        obtain ⟨i, hi, he⟩ := mem_numbered.mp hx
        exact ⟨(s.ledger l).length + i, x.1, by omega, get_append_new hi, hp⟩
      · rw [hg] at h
        exact old h
    · exact old h
  · intro k h
    rw [updateDb_ledger]
    have old : k ∈ s.byFull → ∃ j t, t ∈ (s.append l ts).ledger j ∧ cfg.prop.digest t = k := by
      intro h
      obtain ⟨j, t, ht, hk⟩ := g.full k h
      exact ⟨j, t, mem_append_ledger.mpr (.inl ht), hk⟩
    unfold State.updateDb at h
    split at h
    · replace h : k ∈ (numbered ((s.ledger l).length + 1) ts).map (fun t => cfg.prop.digest t.1) ++ s.byFull := h
      rcases List.mem_append.mp h with h | h
      · obtain ⟨x, hx, hk⟩ := List.mem_map.mp h
        have : x.1 ∈ ts := hfst ▸ List.mem_map_of_mem (f := Prod.fst) hx
        exact ⟨l, x.1, mem_append_ledger.mpr (.inr ⟨rfl, this⟩), hk⟩
      · exact old h
    · exact old h
  · rw [updateDb_ledger]
    intro hid j t ht
    have hall : (numbered ((s.ledger l).length + 1) ts).all (fun t => cfg.reqId t.1 ≠ 0) = true := by
      rw [List.all_eq_true]
      intro x hx
      have : x.1 ∈ ts := hfst ▸ List.mem_map_of_mem (f := Prod.fst) hx
      simpa using hid l x.1 (mem_append_ledger.mpr (.inr ⟨rfl, this⟩))
    unfold State.updateDb
    rw [if_pos hall]
    show Dict.has ((numbered ((s.ledger l).length + 1) ts).foldl
        (fun d t => d.set (cfg.prop.payload t.1) (l, t.2)) s.byPayload) (cfg.prop.payload t) = true ∧
      cfg.prop.digest t ∈ (numbered ((s.ledger l).length + 1) ts).map (fun t => cfg.prop.digest t.1) ++ s.byFull
    rcases mem_append_ledger.mp ht with h | ⟨rfl, h⟩
    · obtain ⟨h1, h2⟩ := g.known (fun j u hu => hid j u (mem_append_ledger.mpr (.inl hu))) j t h
      refine ⟨?_, List.mem_append_right _ h2⟩
      rcases get?_foldl_set cfg (numbered ((s.ledger l).length + 1) ts) l s.byPayload (cfg.prop.payload t) with
        ⟨x, _, _, hg⟩ | ⟨_, hg⟩
      · unfold Dict.has; rw [hg]; rfl
      · unfold Dict.has; rw [hg]; exact h1
    · have hx : ∃ x ∈ numbered ((s.ledger j).length + 1) ts, x.1 = t := by
        rw [← hfst] at h
        obtain ⟨x, hx, e⟩ := List.mem_map.mp h
        exact ⟨x, hx, e⟩
      obtain ⟨x, hx, rfl⟩ := hx
      refine ⟨?_, List.mem_append_left _ (List.mem_map_of_mem (f := fun t => cfg.prop.digest t.1) hx)⟩
      rcases get?_foldl_set cfg (numbered ((s.ledger j).length + 1) ts) j s.byPayload (cfg.prop.payload x.1) with
        ⟨y, _, _, hg⟩ | ⟨hn, _⟩
      · unfold Dict.has; rw [hg]; rfl
      · exact absurd rfl (hn x hx)

theorem good_step (s : State) (e : Ev) (g : Good cfg s) : Good cfg (s.step cfg e).1 := by
  cases stores_step cfg s e with
  | same h => exact g.same cfg h
  | pending p h => exact (good_pending cfg p g).same cfg h
  | order b bs hp h => exact (good_append cfg (good_pending cfg bs g) b.ledger b.valid).same cfg h
  | caughtUp r hp h => exact (good_append cfg g (cfg.ledgerOf r) [r]).same cfg h

theorem good_run (es : List Ev) : Good cfg (State.run cfg {} es).1 := by
  refine run_inv cfg (Good cfg) (good_step cfg) {} ?_ es
  constructor
  · intro p l n h; exact (nomatch h)
  · intro k h; exact (nomatch h)
  · intro _ l t h; exact (nomatch h)

/-! ## Ledgers only grow -/

theorem ledger_step (s : State) (e : Ev) (l : Nat) : ∃ ts, (s.step cfg e).1.ledger l = s.ledger l ++ ts := by
  cases stores_step cfg s e with
  | same h => rw [h.ledger]; exact ⟨[], (List.append_nil _).symm⟩
  | pending p h => rw [h.ledger]; exact ⟨[], (List.append_nil _).symm⟩
  | order b bs hp h =>
    rw [h.ledger, updateDb_ledger, append_ledger]
    split
    · rename_i e; subst e; exact ⟨_, rfl⟩
    · exact ⟨[], (List.append_nil _).symm⟩
  | caughtUp r hp h =>
    rw [h.ledger, updateDb_ledger, append_ledger]
    split
    · rename_i e; subst e; exact ⟨_, rfl⟩
    · exact ⟨[], (List.append_nil _).symm⟩

theorem ledger_run (s : State) (es : List Ev) (l : Nat) : ∃ ts, (s.run cfg es).1.ledger l = s.ledger l ++ ts := by
  induction es generalizing s with
  | nil => exact ⟨[], (List.append_nil _).symm⟩
  | cons e es ih =>
    obtain ⟨a, ha⟩ := ledger_step cfg s e l
    obtain ⟨b, hb⟩ := ih (s.step cfg e).1
    exact ⟨a ++ b, by rw [← List.append_assoc, ← ha]; exact hb⟩

theorem get_of_run {s : State} {es : List Ev} {l m : Nat} {t : Req} (h : (s.ledger l)[m]? = some t) :
    ((s.run cfg es).1.ledger l)[m]? = some t := by
  obtain ⟨ts, e⟩ := ledger_run cfg s es l
  have := (List.getElem?_eq_some_iff.mp h).1
  rw [e, List.getElem?_append_left this]; exact h

end Verif.Answers
