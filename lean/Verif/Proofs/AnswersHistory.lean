import Verif.Proofs.AnswersReject
/-!
# The history and the ledgers

What the dynamic validation looks at is what was ordered: each ledger is the part of the history that is its own.
-/
namespace Verif.Answers
open Verif.Propagator (Key Req)

variable (cfg : Cfg)

/-- Batches hold requests of their ledger, and each ledger is its part of the history. -/
structure Tied (s : State) : Prop where
  own : ∀ b ∈ s.pending, ∀ x ∈ b.reqs, cfg.ledgerOf x.1 = b.ledger
  tied : ∀ l, s.history.filter (fun r => cfg.ledgerOf r = l) = s.ledger l

variable {cfg}

theorem Tied.same {s t : State} (h : Same s t) (g : Tied cfg s) : Tied cfg t :=
  ⟨by rw [h.pending]; exact g.own, by rw [h.history, h.ledger]; exact g.tied⟩

theorem filter_own {l : Nat} {ts : List Req} (h : ∀ r ∈ ts, cfg.ledgerOf r = l) (j : Nat) :
    ts.filter (fun r => cfg.ledgerOf r = j) = if j = l then ts else [] := by
  split
  · subst j
    exact List.filter_eq_self.mpr (fun r hr => by simp [h r hr])
  · rename_i hj
    refine List.filter_eq_nil_iff.mpr (fun r hr => ?_)
    rw [h r hr]
    simp only [decide_eq_true_eq]
    exact fun e => hj e.symm

theorem updateDb_rest (s : State) (l : Nat) (ts : List (Req × Nat)) :
    (s.updateDb cfg l ts).pending = s.pending ∧ (s.updateDb cfg l ts).history = s.history ∧
    (s.updateDb cfg l ts).ledger = s.ledger := by
  unfold State.updateDb
  split <;> exact ⟨rfl, rfl, rfl⟩

theorem Tied.append {s : State} (g : Tied cfg s) {l : Nat} {ts : List Req} (h : ∀ r ∈ ts, cfg.ledgerOf r = l)
    (db : List (Req × Nat)) : Tied cfg ((s.append l ts).updateDb cfg l db) := by
  obtain ⟨h1, h2, h3⟩ := updateDb_rest (cfg := cfg) (s.append l ts) l db
  refine ⟨by rw [h1]; exact g.own, fun j => ?_⟩
  rw [h2, h3]
  show (s.history ++ ts).filter _ = if j = l then s.ledger l ++ ts else s.ledger j
  rw [List.filter_append, g.tied, filter_own h]
  split
  · subst j; rfl
  · exact List.append_nil _

theorem tied_apply {s : State} (g : Tied cfg s) (l : Nat) (ks : List Key) : Tied cfg (s.apply cfg l ks).1 := by
  rcases apply_cases cfg s l ks with e | ⟨rs, v, hr, hl, hv, e⟩
  · rw [e]; exact g
  · rw [e]
    refine Tied.same (same_rejectAll cfg _ _) ⟨?_, g.tied⟩
    intro b hb x hx
    rcases List.mem_append.mp hb with hb | hb
    · exact g.own b hb x hx
    · rw [List.mem_singleton.mp hb] at hx ⊢
      have hm : x.1 ∈ rs := by
        rw [← applyReqs_reqs cfg hv]
        exact List.mem_map_of_mem hx
      exact hl _ hm

theorem tied_step {s : State} (g : Tied cfg s) (e : Ev) : Tied cfg (s.step cfg e).1 := by
  cases e with
  | came r c => exact g.same (same_came cfg s r c)
  | propagate r frm c =>
    show Tied cfg (if cfg.prop.authentic r then s.processPropagate cfg r frm c else (s, [])).1
    split
    · exact g.same (same_processPropagate cfg s r frm c)
    · exact g
  | propRep r frm c => exact g.same (same_processPropagate cfg s r frm c)
  | apply l ks => exact tied_apply g l ks
  | revert n => exact ⟨fun b hb => g.own b (List.mem_of_mem_take hb), g.tied⟩
  | order =>
    show Tied cfg (s.order cfg).1
    unfold State.order
    split
    · exact g
    · rename_i b bs hp
      dsimp only
      have g' : Tied cfg { s with pending := bs } :=
        ⟨fun c hc => g.own c (by rw [hp]; exact List.mem_cons_of_mem _ hc), g.tied⟩
      have hv : ∀ r ∈ b.valid, cfg.ledgerOf r = b.ledger := by
        intro r hr
        obtain ⟨x, hx, rfl⟩ := List.mem_map.mp hr
        exact g.own b (by rw [hp]; exact List.mem_cons_self) x (List.mem_filter.mp hx).1
      have h := (g'.append hv (numbered ((s.ledger b.ledger).length + 1) b.valid)).same
        (same_replyAll cfg _ b.ledger ((s.ledger b.ledger).length + 1) b.valid)
      exact ⟨h.own, h.tied⟩
  | caughtUp r =>
    show Tied cfg (s.caughtUp cfg r)
    unfold State.caughtUp
    split
    · exact (g.append (fun q hq => by rw [List.mem_singleton.mp hq]) _).same (same_clear _ _)
    · exact g
  | outdated k => exact g.same (same_outdated s k)
  | ordered k => exact ⟨g.own, g.tied⟩
  | released i k => exact ⟨g.own, g.tied⟩
  | replicas n => exact ⟨g.own, g.tied⟩
  | viewChange b => exact ⟨g.own, g.tied⟩
  | restart => exact ⟨fun b hb => (nomatch hb), g.tied⟩

theorem tied_run (es : List Ev) : Tied cfg (State.run cfg {} es).1 :=
  run_inv cfg (Tied cfg) (fun _ e g => tied_step g e) {} ⟨fun _ hb => (nomatch hb), fun _ => rfl⟩ es

/-- What was ordered stays, in order. -/
theorem history_step (s : State) (e : Ev) : ∃ ts, (s.step cfg e).1.history = s.history ++ ts := by
  cases stores_step cfg s e with
  | same h => exact ⟨[], by rw [h.history, List.append_nil]⟩
  | pending p h => exact ⟨[], by rw [h.history, List.append_nil]⟩
  | order b bs hp h => exact ⟨b.valid, by rw [h.history, (updateDb_rest _ _ _).2.1]; rfl⟩
  | caughtUp r hp h => exact ⟨[r], by rw [h.history, (updateDb_rest _ _ _).2.1]; rfl⟩

end Verif.Answers
