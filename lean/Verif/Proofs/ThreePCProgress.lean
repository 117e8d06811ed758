import Verif.Proofs.ThreePCKeep
import Verif.Proofs.ViewsTPC
import Verif.Spec.Progress
/-!
# From arrivals to votes
-/
namespace Verif.TPC

variable {cfg : Cfg} {v : Nat}

/-- Only a view change changes the view. -/
theorem step_view (r : Replica) (e : Event) : (r.step cfg e).view = r.view ∨
    ∃ u, e = .startViewChange u ∧ r.view < u ∧ (r.step cfg e).view = u ∧ (r.step cfg e).out = r.out ∧
      (r.step cfg e).lastOrdered = r.lastOrdered := by
  have acc : ∀ pp w env, (r.processPrePrepare cfg pp w env).view = r.view := by
    intro pp w env
    rcases processPrePrepare_cases (cfg := cfg) r pp w env with h | ⟨r1, h1, -⟩
    · rw [h]
    · exact h1.view
  cases e with
  | deliver m w env =>
    left
    cases m with
    | prePrepare pp => exact acc pp w env
    | prepare p => exact (fr_processPrepare r p w).view
    | commit c => exact (fr_processCommit r c w).view
  | createBatch b =>
    left
    unfold Replica.step Replica.createBatch
    simp only
    split <;> rfl
  | orderStashed =>
    left
    show (r.processOutOfOrder cfg).view = r.view
    unfold Replica.processOutOfOrder
    split
    · rfl
    · have hfold : ∀ (q : List (Key × Commit)) (s : Replica × Key × List Key),
          (q.foldl (Replica.orderStashed cfg) s).1.view = s.1.view := by
        intro q
        induction q with
        | nil => intro s; rfl
        | cons e q ih =>
          intro s
          rw [List.foldl_cons, ih]
          obtain ⟨r, lo, del⟩ := s
          have t2 := (frame_tryOrder (cfg := cfg) r e.2).view
          unfold Replica.orderStashed
          simp only
          split
          · rfl
          · split
            · rfl
            · split
              · split
                · exact t2
                · exact t2
              · rfl
      exact hfold r.outOfOrder (r, r.lastOrdered, [])
  | stabilize till =>
    left
    unfold Replica.step
    simp only
    split <;> rfl
  | watermarks low high => exact .inl rfl
  | startCatchup =>
    left
    unfold Replica.step Replica.startCatchup
    simp only
    split <;> rfl
  | caughtUp k restored =>
    left
    unfold Replica.step Replica.caughtUp
    simp only
    split <;> rfl
  | startViewChange u =>
    unfold Replica.step Replica.startViewChange
    simp only
    split
    · exact .inl rfl
    · next h => exact .inr ⟨u, rfl, by omega, rfl, rfl, rfl⟩
  | acceptNewView =>
    left
    unfold Replica.step Replica.acceptNewView
    simp only
    split <;> rfl
  | oldViewPP pp env =>
    left
    unfold Replica.step Replica.oldViewPP
    simp only
    split
    · exact acc _ _ _
    · rfl

/-- What was sent stays sent. -/
theorem step_out (r : Replica) (e : Event) : ∀ m ∈ r.out, m ∈ (r.step cfg e).out := by
  cases e with
  | deliver m frm env =>
    cases m with
    | prePrepare pp => exact (quiet_processPrePrepare r pp frm env).keep
    | prepare p => exact (quiet_processPrepare r p frm).keep
    | commit c => exact (quiet_of (frame_processCommit r c frm) (frame2_processCommit r c frm)).keep
  | createBatch b => exact (quiet_createBatch r b).keep
  | orderStashed => exact (quiet_processOutOfOrder r).keep
  | stabilize till =>
    unfold Replica.step
    simp only
    split
    · exact fun _ h => h
    · exact fun _ h => h
  | watermarks a b => exact fun _ h => h
  | startCatchup =>
    unfold Replica.step Replica.startCatchup Replica.revertUnordered
    simp only
    split
    · exact fun _ h => h
    · exact fun _ h => h
  | caughtUp k l =>
    unfold Replica.step Replica.caughtUp
    simp only
    split
    · exact fun _ h => h
    · exact fun _ h => h
  | startViewChange v =>
    unfold Replica.step Replica.startViewChange
    simp only
    split
    · exact fun _ h => h
    · exact fun _ h => h
  | acceptNewView =>
    unfold Replica.step Replica.acceptNewView
    simp only
    split
    · exact fun _ h => h
    · exact fun _ h => h
  | oldViewPP pp env => exact (quiet_oldViewPP r pp env).keep

theorem run_out (a b : List Event) : ∀ m ∈ (run cfg a).out, m ∈ (run cfg (a ++ b)).out := by
  induction b using snoc_induction with
  | nil => rw [List.append_nil]; exact fun _ h => h
  | snoc b e ih =>
    rw [← List.append_assoc, run_snoc]
    exact fun m hm => step_out _ e m (ih m hm)

theorem view_mono (a b : List Event) : (run cfg a).view ≤ (run cfg (a ++ b)).view := by
  induction b using snoc_induction with
  | nil => rw [List.append_nil]; exact Nat.le_refl _
  | snoc b e ih =>
    rw [← List.append_assoc, run_snoc]
    rcases step_view (cfg := cfg) (run cfg (a ++ b)) e with h | ⟨u, -, h1, h2, -, -⟩
    · rw [h]; exact ih
    · rw [h2]; omega

/-- Something that lasts within a view is there at the end if it was there
before. -/
theorem lasts (Q : Replica → Prop) {evs a b : List Event} (he : evs = a ++ b) (hv : (run cfg evs).view = (run cfg a).view)
    (hstep : ∀ x e y, evs = (x ++ [e]) ++ y → (run cfg x).view = (run cfg evs).view →
      (run cfg (x ++ [e])).view = (run cfg x).view → Q (run cfg x) → Q (run cfg (x ++ [e])))
    (h : Q (run cfg a)) : Q (run cfg evs) := by
  have go : ∀ b c, evs = (a ++ b) ++ c → Q (run cfg (a ++ b)) := by
    intro b
    induction b using snoc_induction with
    | nil => intro c _; rw [List.append_nil]; exact h
    | snoc b e ih =>
      intro c hc
      have h1 := ih (e :: c) (by rw [hc]; simp)
      have v1 := view_mono (cfg := cfg) a b
      have v2 := view_mono (cfg := cfg) (a ++ b) [e]
      have v3 := view_mono (cfg := cfg) (a ++ (b ++ [e])) c
      rw [← hc] at v3
      rw [← List.append_assoc] at v3 ⊢
      refine hstep (a ++ b) e c (by rw [hc]; simp) (by omega) (by omega) h1
  have := go b [] (by rw [he]; simp)
  rw [he]; exact this

/-! ## What was sent -/

/-- The messages a replica sent, and what it did before. -/
structure OutI (cfg : Cfg) (D : Node → Msg → Prop) (r : Replica) : Prop where
  pd : ∀ pp, .prePrepare pp ∈ r.out → cfg.digest pp.reqs pp.origView pp.time = pp.content.digest
  ph : ∀ pp, .prePrepare pp ∈ r.out → pp.viewNo = r.view → HeldOr r pp.key
  pc : ∀ p, .prepare p ∈ r.out → cfg.top p.viewNo < p.seqNo →
    ∃ pp : PrePrepare, pp.key = p.key ∧ p.content = pp.content ∧ D (cfg.primary p.viewNo) (.prePrepare pp)
  cp : ∀ c, .commit c ∈ r.out → cfg.top c.viewNo < c.seqNo →
    cfg.primary c.viewNo = cfg.name ∨ ∃ p, .prepare p ∈ r.out ∧ p.key = c.key

/-- A PRE-PREPARE received was answered with a PREPARE. -/
theorem own_prepare {D : Node → Msg → Prop} {r : Replica} (hi : Inv cfg D r) (hl : LI cfg v (fun _ => False) r)
    {k : Key} (hk : Held r k) (hf : cfg.top r.view < k.2) :
    cfg.primary k.1 = cfg.name ∨ ∃ p : Prepare, .prepare p ∈ r.out ∧ p.key = k := by
  rcases (held_iff _ _).1 hk with ⟨pp, h⟩ | ⟨pp, h⟩
  · exact .inl (hi.pps k pp h hf).1
  · right
    obtain ⟨vs, m, h1, h2⟩ := (hasVote_iff _ _ _).1 (hl.pi.own k pp (fun x => x) h)
    obtain ⟨-, qq, -, h3⟩ := hi.vot k vs m h1 hf
    obtain ⟨-, p, p1, -, p3⟩ := h3 _ h2
    rcases p3 with p3 | p3
    · exact ⟨p, p3.2, p1⟩
    · exact absurd rfl p3.1

theorem OutI.step {D : Node → Msg → Prop} {r : Replica} (h : OutI cfg D r) (hn : 0 < cfg.cq) (e : Event)
    (hi : Inv cfg D r) (hi' : Inv cfg D (r.step cfg e)) (hl : LI cfg v (fun _ => False) r)
    (hl' : LI cfg v (fun _ => False) (r.step cfg e))
    (he : ∀ w m env, e = .deliver m w env → D w m) : OutI cfg D (r.step cfg e) := by
  rcases step_view (cfg := cfg) r e with hv | ⟨u, -, h1, h2, h3, -⟩
  · -- within the view
    have hold : ∀ pp, .prePrepare pp ∈ r.out → pp.viewNo = (r.step cfg e).view → HeldOr (r.step cfg e) pp.key :=
      fun pp hp hx => (h.ph pp hp (hx.trans hv)).step e hn hl hv
    have cpnew : ∀ c : Commit, Held (r.step cfg e) c.key → cfg.top c.viewNo < c.seqNo →
        cfg.primary c.viewNo = cfg.name ∨ ∃ p, .prepare p ∈ (r.step cfg e).out ∧ p.key = c.key := by
      intro c hk hf
      have hcv : c.key.1 = (r.step cfg e).view :=
        hi'.kv c.key (((held_iff _ _).1 hk).imp id .inl)
      exact own_prepare (k := c.key) hi' hl' hk (by rw [← hcv]; exact hf)
    rcases step_cases r e hn hl hv with c | ⟨pp, r1, w, c, hw, hb⟩ | ⟨pp, c⟩
    · -- sent messages are kept; only COMMITs are new
      have hkeep : ∀ m ∈ r.out, m ∈ (r.step cfg e).out := step_out r e
      refine ⟨?_, ?_, ?_, ?_⟩
      · intro pp hp
        rcases c.out _ hp with x | ⟨c, x, -⟩
        · exact h.pd pp x
        · cases x
      · intro pp hp hx
        rcases c.out _ hp with x | ⟨c, x, -⟩
        · exact hold pp x hx
        · cases x
      · intro p hp hf
        rcases c.out _ hp with x | ⟨c, x, -⟩
        · exact h.pc p x hf
        · cases x
      · intro m hm hf
        rcases c.out _ hm with x | ⟨c, x, y⟩
        · exact (h.cp m x hf).imp id (fun ⟨p, p1, p2⟩ => ⟨p, hkeep _ p1, p2⟩)
        · cases x; exact cpnew _ y hf
    · have hkeep : ∀ m ∈ r.out, m ∈ (r.step cfg e).out := step_out r e
      refine ⟨?_, ?_, ?_, ?_⟩
      · intro qq hp
        rcases c.outs _ hp with x | ⟨c, x, -⟩ | x
        · exact h.pd qq x
        · cases x
        · cases x
      · intro qq hp hx
        rcases c.outs _ hp with x | ⟨c, x, -⟩ | x
        · exact hold qq x hx
        · cases x
        · cases x
      · intro p hp hf
        rcases c.outs _ hp with x | ⟨c, x, -⟩ | x
        · exact h.pc p x hf
        · cases x
        · cases x
          obtain ⟨a1, a2, -, a4, -⟩ := admits_iff _ _ _ c.adm
          simp only at hf
          have hlo : r.lastOrdered.2 < pp.seqNo := by
            refine a4 ?_
            rw [hi.cert a2]
            refine cfg.cert_lt ?_
            rw [← a1]; exact hf
          have hwp := hw hlo
          rcases hb with ⟨env, hb⟩ | hb
          · refine ⟨pp, rfl, rfl, ?_⟩
            have := he _ _ _ hb
            rw [← hwp] at this
            rw [show (Prepare.viewNo ⟨pp.viewNo, pp.seqNo, pp.time, pp.content⟩) = r.view from a1]
            exact this
          · rw [a1] at hf; omega
      · intro m hm hf
        rcases c.outs _ hm with x | ⟨c, x, y⟩ | x
        · exact (h.cp m x hf).imp id (fun ⟨p, p1, p2⟩ => ⟨p, hkeep _ p1, p2⟩)
        · cases x; exact cpnew _ y hf
        · cases x
    · refine ⟨?_, ?_, ?_, ?_⟩
      · intro qq hp
        rw [c.out] at hp
        rcases List.mem_append.1 hp with x | x
        · exact h.pd qq x
        · cases List.mem_singleton.1 x; exact c.digest
      · intro qq hp hx
        have hp0 := hp
        rw [c.out] at hp
        rcases List.mem_append.1 hp with x | x
        · exact hold qq x hx
        · cases List.mem_singleton.1 x
          exact .inl ((c.held _).2 (.inr rfl))
      · intro p hp hf
        rw [c.out] at hp
        rcases List.mem_append.1 hp with x | x
        · exact h.pc p x hf
        · cases List.mem_singleton.1 x
      · intro m hm hf
        rw [c.out] at hm ⊢
        rcases List.mem_append.1 hm with x | x
        · exact (h.cp m x hf).imp id (fun ⟨p, p1, p2⟩ => ⟨p, List.mem_append.2 (.inl p1), p2⟩)
        · cases List.mem_singleton.1 x
  · refine ⟨by rw [h3]; exact h.pd, ?_, by rw [h3]; exact h.pc, by rw [h3]; exact h.cp⟩
    intro pp hp hx
    rw [h3] at hp
    have := hi.outv _ hp
    simp only [Msg.viewNo] at this
    omega

theorem OutI.mono {D D' : Node → Msg → Prop} {r : Replica} (h : OutI cfg D r) (hs : ∀ w m, D w m → D' w m) : OutI cfg D' r :=
  ⟨h.pd, h.ph, fun p hp hf => (h.pc p hp hf).imp fun _ x => ⟨x.1, x.2.1, hs _ _ x.2.2⟩, h.cp⟩

theorem Delivered.append {a b : List Event} {w : Node} {m : Msg} (h : Delivered a w m) : Delivered (a ++ b) w m :=
  h.imp fun _ x => List.mem_append.2 (.inl x)

theorem OutI.run (h0 : cfg.cert 0 = 0) (hn : 0 < cfg.cq) (evs : List Event) (hD : ∀ w m, Delivered evs w m → w ≠ cfg.name)
    (hc : Caught cfg v evs) : OutI cfg (Delivered evs) (run cfg evs) := by
  induction evs using snoc_induction with
  | nil => exact ⟨by simp [Verif.TPC.run], by simp [Verif.TPC.run], by simp [Verif.TPC.run], by simp [Verif.TPC.run]⟩
  | snoc a e ih =>
    have hDa : ∀ w m, Delivered a w m → w ≠ cfg.name := fun w m h => hD w m h.append
    have hca : Caught cfg v a := hc.prefix rfl
    have ia := Inv.run h0 a hDa
    have i' := Inv.run h0 (a ++ [e]) hD
    have l' := LI.run hn (a ++ [e]) hc
    rw [run_snoc] at i' l' ⊢
    refine OutI.step ((ih hDa hca).mono fun _ _ h => h.append) hn e (ia.mono fun _ _ h => h.append) i' (LI.run hn a hca) l' ?_
    intro w m env he
    exact ⟨env, by rw [he]; simp⟩

theorem lo_mono (hn : 0 < cfg.cq) (a b : List Event) (hc : Caught cfg v (a ++ b)) :
    (Verif.TPC.run cfg a).lastOrdered.2 ≤ (Verif.TPC.run cfg (a ++ b)).lastOrdered.2 := by
  induction b using snoc_induction with
  | nil => rw [List.append_nil]; exact Nat.le_refl _
  | snoc b e ih =>
    rw [← List.append_assoc] at hc ⊢
    have hca : Caught cfg v (a ++ b) := hc.prefix rfl
    refine Nat.le_trans (ih hca) ?_
    rw [run_snoc]
    rcases step_view (cfg := cfg) (Verif.TPC.run cfg (a ++ b)) e with h | ⟨u, -, -, -, -, h⟩
    · rcases step_cases _ e hn (LI.run hn _ hca) h with c | ⟨pp, r1, w, c, -, -⟩ | ⟨pp, c⟩
      · exact c.lo
      · exact c.lo
      · rw [c.lo]; exact Nat.le_refl _
    · rw [h]; exact Nat.le_refl _

/-! ## Ordering what has its quorums -/

/-- Rounds of the timer that orders what is next, when everything up to `s` has its
COMMITs. -/
theorem drain (hn : 0 < cfg.cq) (s m : Nat) : ∀ (r : Replica), CI cfg v (fun _ => False) r → r.participating = true → r.view = v →
    (∀ t, r.lastOrdered.2 < t → t ≤ s → ∃ x, r.commits.get? (v, t) = some x ∧ cfg.cq ≤ x.1.length) →
    s - r.lastOrdered.2 ≤ m →
    s ≤ ((List.replicate m Event.orderStashed).foldl (Replica.step cfg) r).lastOrdered.2 ∧
    (∀ p ∈ r.ordLog, p ∈ ((List.replicate m Event.orderStashed).foldl (Replica.step cfg) r).ordLog) ∧
    ∀ t, r.lastOrdered.2 < t → t ≤ s → ∃ pp, r.getPP (v, t) = some pp ∧
      pp ∈ ((List.replicate m Event.orderStashed).foldl (Replica.step cfg) r).ordLog := by
  induction m with
  | zero =>
    intro r _ _ _ _ hm
    exact ⟨by simp only [List.replicate_zero, List.foldl_nil]; omega, fun _ h => h, fun t h1 h2 => by omega⟩
  | succ m ih =>
    intro r h hp hv hq hm
    obtain ⟨h1, h2⟩ := h.processOutOfOrder hn
    have hadv : s ≤ r.lastOrdered.2 ∨ r.lastOrdered.2 < (r.processOutOfOrder cfg).lastOrdered.2 := by
      by_cases hs : s ≤ r.lastOrdered.2
      · exact .inl hs
      · exact .inr (h2.next hp hv (hq _ (by omega) (by omega)))
    have hlo := h2.fr.lo
    obtain ⟨a, b, c⟩ := ih (r.processOutOfOrder cfg) h1 (by rw [h2.fr.part]; exact hp) (by rw [h2.fr.view]; exact hv)
      (by intro t t1 t2; rw [h2.commits]; exact hq t (by omega) t2) (by omega)
    rw [List.replicate_succ, List.foldl_cons]
    refine ⟨a, fun p hx => b p (h2.logm p hx), ?_⟩
    intro t t1 t2
    by_cases ht : t ≤ (r.processOutOfOrder cfg).lastOrdered.2
    · obtain ⟨pp, x, y⟩ := h2.log t t1 ht
      rw [hv] at x
      exact ⟨pp, x, b _ y⟩
    · obtain ⟨pp, x, y⟩ := c t (by omega) t2
      rw [h2.fr.getPP] at x
      exact ⟨pp, x, y⟩

end Verif.TPC
