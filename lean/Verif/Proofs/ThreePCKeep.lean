import Verif.Proofs.ThreePCCount
/-!
# What lasts within a view
-/
namespace Verif.TPC

variable {cfg : Cfg} {v : Nat}

/-- No PRE-PREPARE comes; what is above the last ordered batch is kept. -/
structure Keep (r r' : Replica) : Prop where
  lo : r.lastOrdered.2 ≤ r'.lastOrdered.2
  held : ∀ k, r'.lastOrdered.2 < k.2 → (Held r' k ↔ Held r k)
  pv : ∀ k w, r'.lastOrdered.2 < k.2 → hasVote r.prepares k w = true → hasVote r'.prepares k w = true
  cv : ∀ k w, r'.lastOrdered.2 < k.2 → hasVote r.commits k w = true → hasVote r'.commits k w = true
  wt : Wt r r'
  out : ∀ m ∈ r'.out, m ∈ r.out ∨ ∃ c, m = .commit c ∧ Held r' c.key

theorem Keep.of {r r' : Replica} (f : Fr r r') (w : Wt r r') (m : NM r r') : Keep r r' :=
  ⟨f.lo, fun k _ => f.held k, fun k w _ => f.pv k w, fun k w _ => f.cv k w, w,
    fun x hx => (m x hx).imp id (fun ⟨c, a, b⟩ => ⟨c, a, (f.held _).2 b⟩)⟩

theorem Keep.refl (r : Replica) : Keep r r := .of (.refl r) (.same rfl rfl) (.same rfl)

/-- The parts that matter here did not change. -/
theorem Keep.same {r r' : Replica} (h1 : r'.sentPP = r.sentPP) (h2 : r'.recvPP = r.recvPP) (h3 : r'.prepares = r.prepares)
    (h4 : r'.commits = r.commits) (h5 : r'.prepWait = r.prepWait) (h6 : r'.commWait = r.commWait)
    (h7 : r'.lastOrdered = r.lastOrdered) (h8 : r'.out = r.out) : Keep r r' :=
  ⟨by rw [h7]; exact Nat.le_refl _, fun k _ => by unfold Held Replica.getPP; rw [h1, h2],
   fun k w _ h => by rw [h3]; exact h, fun k w _ h => by rw [h4]; exact h, .same h5 h6,
   fun m hm => .inl (by rw [h8] at hm; exact hm)⟩

theorem hasVote_dropped {μ : Type} (r : Replica) (p : Key → Bool) (d : Dict Key (List Node × μ)) (k : Key) (w : Node)
    (hp : p k = false) : hasVote (d.filter (fun e => !(p e.1 && (r.getPP e.1).isSome))) k w = hasVote d k w := by
  unfold hasVote
  rw [get?_dropped, hp]
  simp

/-- Forgetting what is ordered. -/
theorem Keep.dropped {r r0 r' : Replica} (p : Key → Bool) (h0 : Keep r r0) (hl : r'.lastOrdered = r0.lastOrdered)
    (hp : ∀ k, p k = true → k.2 ≤ r0.lastOrdered.2)
    (h1 : r'.sentPP = (r0.dropKeys p).sentPP) (h2 : r'.recvPP = (r0.dropKeys p).recvPP)
    (h3 : r'.prepares = (r0.dropKeys p).prepares) (h4 : r'.commits = (r0.dropKeys p).commits)
    (h5 : r'.prepWait = r0.prepWait) (h6 : r'.commWait = r0.commWait) (h8 : r'.out = r.out) : Keep r r' := by
  have hpk : ∀ k, r'.lastOrdered.2 < k.2 → p k = false := by
    intro k hk
    rw [hl] at hk
    cases h : p k with
    | false => rfl
    | true => have := hp k h; omega
  refine ⟨by rw [hl]; exact h0.lo, ?_, ?_, ?_, ?_, fun m hm => .inl (by rw [h8] at hm; exact hm)⟩
  · intro k hk
    have e : r'.getPP k = r0.getPP k := by
      have := getPP_dropKeys r0 p k
      rw [hpk k hk] at this
      simp only [Bool.false_and, Bool.false_eq_true, if_false] at this
      rw [← this]; unfold Replica.getPP; rw [h1, h2]
    rw [hl] at hk
    rw [← h0.held k hk]
    unfold Held; rw [e]
  · intro k w hk h
    rw [h3]
    show hasVote (r0.prepares.filter _) k w = true
    rw [hasVote_dropped _ _ _ _ _ (hpk k hk)]
    rw [hl] at hk
    exact h0.pv k w hk h
  · intro k w hk h
    rw [h4]
    show hasVote (r0.commits.filter _) k w = true
    rw [hasVote_dropped _ _ _ _ _ (hpk k hk)]
    rw [hl] at hk
    exact h0.cv k w hk h
  · exact ⟨by rw [h5]; exact h0.wt.pw, by rw [h6]; exact h0.wt.cw⟩

/-- The primary made a batch. -/
structure Made (cfg : Cfg) (r r' : Replica) (pp : PrePrepare) : Prop where
  prim : cfg.primary r.view = cfg.name
  view : pp.viewNo = r.view
  digest : cfg.digest pp.reqs pp.origView pp.time = pp.content.digest
  lo : r'.lastOrdered = r.lastOrdered
  held : ∀ k, Held r' k ↔ Held r k ∨ k = pp.key
  prepares : r'.prepares = r.prepares
  commits : r'.commits = r.commits
  out : r'.out = r.out ++ [.prePrepare pp]

/-- The PRE-PREPARE that an event brings, and its sender. -/
def Brings (cfg : Cfg) (r : Replica) (e : Event) (pp : PrePrepare) (w : Node) : Prop :=
  (∃ env, e = .deliver (.prePrepare pp) w env) ∨ pp.seqNo ≤ cfg.top r.view

/-- The effects an event can have within a view. -/
theorem step_cases (r : Replica) (e : Event) (hn : 0 < cfg.cq) (hl : LI cfg v (fun _ => False) r)
    (hv : (r.step cfg e).view = r.view) :
    Keep r (r.step cfg e) ∨
    (∃ pp r1 w, Accept cfg r pp r1 (r.step cfg e) ∧ (r.lastOrdered.2 < pp.seqNo → cfg.primary r.view = w) ∧ Brings cfg r e pp w) ∨
    (∃ pp, Made cfg r (r.step cfg e) pp) := by
  cases e with
  | deliver m w env =>
    cases m with
    | prePrepare pp =>
      rcases processPrePrepare_cases (cfg := cfg) r pp w env with h | ⟨r1, h1, h2⟩
      · left
        show Keep r (r.processPrePrepare cfg pp w env)
        rw [h]; exact .refl r
      · exact .inr (.inl ⟨pp, r1, w, h1, h2, .inl ⟨env, rfl⟩⟩)
    | prepare p => exact .inl (.of (fr_processPrepare r p w) (wt_processPrepare r p w) (nm_processPrepare r p w))
    | commit c => exact .inl (.of (fr_processCommit r c w) (wt_processCommit r c w) (.same (frame_processCommit r c w).out))
  | createBatch b =>
    unfold Replica.step Replica.createBatch
    simp only
    split
    · exact .inl (.refl r)
    · next hc =>
      right; right
      have hp : cfg.primary r.view = cfg.name := by
        have hc : r.canSendBatch cfg = true := by simpa using hc
        unfold Replica.canSendBatch at hc
        split at hc
        · cases hc
        · next h => simpa [Replica.isPrimary] using h
      refine ⟨_, hp, rfl, rfl, rfl, ?_, rfl, rfl, rfl⟩
      intro k
      exact held_setSent r _ _ (r.addToSentPP _) rfl rfl k
  | orderStashed =>
    left
    obtain ⟨-, h2⟩ := hl.ci.processOutOfOrder hn
    have hw : (r.processOutOfOrder cfg).prepWait = r.prepWait ∧ (r.processOutOfOrder cfg).commWait = r.commWait ∧
        (r.processOutOfOrder cfg).out = r.out := by
      unfold Replica.processOutOfOrder
      split
      · exact ⟨rfl, rfl, rfl⟩
      · have hfold : ∀ (q : List (Key × Commit)) (s : Replica × Key × List Key),
            (q.foldl (Replica.orderStashed cfg) s).1.prepWait = s.1.prepWait ∧
            (q.foldl (Replica.orderStashed cfg) s).1.commWait = s.1.commWait ∧
            (q.foldl (Replica.orderStashed cfg) s).1.out = s.1.out := by
          intro q
          induction q with
          | nil => intro s; exact ⟨rfl, rfl, rfl⟩
          | cons e q ih =>
            intro s
            rw [List.foldl_cons]
            obtain ⟨a, b, c⟩ := ih (Replica.orderStashed cfg s e)
            have : (Replica.orderStashed cfg s e).1.prepWait = s.1.prepWait ∧
                (Replica.orderStashed cfg s e).1.commWait = s.1.commWait ∧
                (Replica.orderStashed cfg s e).1.out = s.1.out := by
              obtain ⟨r, lo, del⟩ := s
              have t := commWait_tryOrder (cfg := cfg) r e.2
              have t2 := (frame_tryOrder (cfg := cfg) r e.2).out
              unfold Replica.orderStashed
              simp only
              split
              · exact ⟨rfl, rfl, rfl⟩
              · split
                · exact ⟨rfl, rfl, rfl⟩
                · split
                  · split
                    · exact ⟨t.2, t.1, t2⟩
                    · exact ⟨t.2, t.1, t2⟩
                  · exact ⟨rfl, rfl, rfl⟩
            exact ⟨a.trans this.1, b.trans this.2.1, c.trans this.2.2⟩
        exact hfold r.outOfOrder (r, r.lastOrdered, [])
    exact .of h2.fr (.same hw.1 hw.2.1) (.same hw.2.2)
  | stabilize till =>
    left
    unfold Replica.step
    simp only
    split
    · next h =>
      refine Keep.dropped (fun k => k.2 ≤ till) (.refl r) rfl ?_ rfl rfl rfl rfl rfl rfl rfl
      intro k hk
      have : k.2 ≤ till := of_decide_eq_true hk
      omega
    · exact .refl r
  | watermarks low high => exact .inl (.same rfl rfl rfl rfl rfl rfl rfl rfl)
  | startCatchup =>
    left
    unfold Replica.step Replica.startCatchup Replica.revertUnordered
    simp only
    split
    · exact .refl r
    · exact .same rfl rfl rfl rfl rfl rfl rfl rfl
  | caughtUp k restored =>
    left
    unfold Replica.step Replica.caughtUp
    simp only
    split
    · next hk =>
      have h0 : Keep r (r.setLastOrdered k) :=
        ⟨Nat.le_of_lt hk, fun _ _ => Iff.rfl, fun _ _ _ h => h, fun _ _ _ h => h, .same rfl rfl, fun _ h => .inl h⟩
      refine Keep.dropped (fun j => j.2 ≤ k.2) h0 rfl ?_ rfl rfl rfl rfl rfl rfl rfl
      intro j hj
      exact of_decide_eq_true hj
    · exact .same rfl rfl rfl rfl rfl rfl rfl rfl
  | startViewChange u =>
    left
    unfold Replica.step Replica.startViewChange at hv ⊢
    simp only at hv ⊢
    split
    · exact .refl r
    · next hu =>
      rw [if_neg hu] at hv
      simp only at hv
      omega
  | acceptNewView =>
    left
    unfold Replica.step Replica.acceptNewView
    simp only
    split
    · exact .same rfl rfl rfl rfl rfl rfl rfl rfl
    · exact .refl r
  | oldViewPP pp env =>
    unfold Replica.step Replica.oldViewPP
    simp only
    split
    · next ht =>
      rcases processPrePrepare_cases (cfg := cfg) r { pp with viewNo := r.view } (cfg.primary r.view) env with h | ⟨r1, h1, h2⟩
      · left
        rw [h]; exact .refl r
      · exact .inr (.inl ⟨_, r1, _, h1, h2, .inr ht⟩)
    · exact .inl (.refl r)

/-! ## One step -/

/-- The batch is pre-prepared here or ordered. -/
def HeldOr (r : Replica) (k : Key) : Prop := Held r k ∨ k.2 ≤ r.lastOrdered.2

theorem HeldOr.step {r : Replica} {k : Key} (h : HeldOr r k) (e : Event) (hn : 0 < cfg.cq) (hl : LI cfg v (fun _ => False) r)
    (hv : (r.step cfg e).view = r.view) : HeldOr (r.step cfg e) k := by
  rcases step_cases r e hn hl hv with c | ⟨pp, r1, w, c, -, -⟩ | ⟨pp, c⟩
  · by_cases hk : k.2 ≤ (r.step cfg e).lastOrdered.2
    · exact .inr hk
    · rcases h with h | h
      · exact .inl ((c.held k (by omega)).2 h)
      · exact .inr (Nat.le_trans h c.lo)
  · exact h.imp (fun x => (c.held' k).2 (.inl x)) (fun x => Nat.le_trans x c.lo)
  · exact h.imp (fun x => (c.held k).2 (.inl x)) (fun x => by rw [c.lo]; exact x)

/-- The PREPARE is counted or waits for the PRE-PREPARE. -/
def GotP (cfg : Cfg) (r : Replica) (p : Prepare) (w : Node) : Prop :=
  VoteP r p.key w ∨ (¬ Held r p.key ∧ cfg.primary r.view ≠ cfg.name ∧ ∃ q, r.prepWait.get? p.key = some q ∧ (p, w) ∈ q)

/-- The COMMIT is counted or waits for the PRE-PREPARE. -/
def GotC (cfg : Cfg) (r : Replica) (c : Commit) (w : Node) : Prop :=
  VoteC r c.key w ∨ (¬ Held r c.key ∧ cfg.primary r.view ≠ cfg.name ∧ ∃ q, r.commWait.get? c.key = some q ∧ (c, w) ∈ q)

theorem GotP.step {r : Replica} {p : Prepare} {w : Node} (h : GotP cfg r p w) (e : Event) (hn : 0 < cfg.cq)
    (hl : LI cfg v (fun _ => False) r) (hv : (r.step cfg e).view = r.view) (hw : w ≠ cfg.primary r.view)
    (hc : ∀ pp, (r.step cfg e).getPP p.key = some pp → p.content = pp.content) : GotP cfg (r.step cfg e) p w := by
  rcases step_cases r e hn hl hv with c | ⟨pp, r1, w', c, -, -⟩ | ⟨pp, c⟩
  · by_cases hk : p.key.2 ≤ (r.step cfg e).lastOrdered.2
    · exact .inl (.inr hk)
    · have hk : (r.step cfg e).lastOrdered.2 < p.key.2 := by omega
      rcases h with (h | h) | ⟨h1, h2, q, h3, h4⟩
      · exact .inl (.inl (c.pv _ _ hk h))
      · exact .inl (.inr (Nat.le_trans h c.lo))
      · obtain ⟨q', x, y⟩ := c.wt.pw _ q _ h1 h3 h4
        exact .inr ⟨fun z => h1 ((c.held _ hk).1 z), by rw [hv]; exact h2, q', x, y⟩
  · rcases h with (h | h) | ⟨h1, h2, q, h3, h4⟩
    · exact .inl (.inl (c.fr.pv _ _ (by rw [c.prepares]; exact h)))
    · exact .inl (.inr (Nat.le_trans h c.lo))
    · by_cases hk : p.key = pp.key
      · exact .inl (c.prep h2 hk h3 h4 hw hc)
      · have hh : ¬ Held (r.step cfg e) p.key := fun z => ((c.held' _).1 z).elim h1 hk
        obtain ⟨q', x, y⟩ := (c.wt _ hh).1 q _ h3 h4
        exact .inr ⟨hh, by rw [hv]; exact h2, q', x, y⟩
  · rcases h with (h | h) | ⟨h1, h2, q, h3, h4⟩
    · exact .inl (.inl (by rw [c.prepares]; exact h))
    · exact .inl (.inr (by rw [c.lo]; exact h))
    · exact absurd c.prim h2

theorem GotC.step {r : Replica} {m : Commit} {w : Node} (h : GotC cfg r m w) (e : Event) (hn : 0 < cfg.cq)
    (hl : LI cfg v (fun _ => False) r) (hv : (r.step cfg e).view = r.view)
    (hno : ¬ Held r m.key → hasVote r.prepares m.key cfg.name = false)
    (hc : ∀ pp, (r.step cfg e).getPP m.key = some pp → blsAccepts pp m = true) : GotC cfg (r.step cfg e) m w := by
  rcases step_cases r e hn hl hv with c | ⟨pp, r1, w', c, -, -⟩ | ⟨pp, c⟩
  · by_cases hk : m.key.2 ≤ (r.step cfg e).lastOrdered.2
    · exact .inl (.inr hk)
    · have hk : (r.step cfg e).lastOrdered.2 < m.key.2 := by omega
      rcases h with (h | h) | ⟨h1, h2, q, h3, h4⟩
      · exact .inl (.inl (c.cv _ _ hk h))
      · exact .inl (.inr (Nat.le_trans h c.lo))
      · obtain ⟨q', x, y⟩ := c.wt.cw _ q _ h1 h3 h4
        exact .inr ⟨fun z => h1 ((c.held _ hk).1 z), by rw [hv]; exact h2, q', x, y⟩
  · rcases h with (h | h) | ⟨h1, h2, q, h3, h4⟩
    · exact .inl (.inl (c.fr.cv _ _ (by rw [c.commits]; exact h)))
    · exact .inl (.inr (Nat.le_trans h c.lo))
    · by_cases hk : m.key = pp.key
      · exact .inl (c.comm h2 (by rw [← hk]; exact hno h1) hk h3 h4 hc)
      · have hh : ¬ Held (r.step cfg e) m.key := fun z => ((c.held' _).1 z).elim h1 hk
        obtain ⟨q', x, y⟩ := (c.wt _ hh).2 q _ h3 h4
        exact .inr ⟨hh, by rw [hv]; exact h2, q', x, y⟩
  · rcases h with (h | h) | ⟨h1, h2, q, h3, h4⟩
    · exact .inl (.inl (by rw [c.commits]; exact h))
    · exact .inl (.inr (by rw [c.lo]; exact h))
    · exact absurd c.prim h2

/-! ## Arrival -/

theorem GotP.arrive {r : Replica} (p : Prepare) (w : Node) (ha : r.admits p.viewNo p.seqNo = true ∨ p.seqNo ≤ r.lastOrdered.2)
    (hp : cfg.primary r.view = cfg.name → HeldOr r p.key)
    (hc : ∀ pp, r.getPP p.key = some pp → p.content = pp.content) (hw : w ≠ cfg.primary r.view) :
    GotP cfg (r.processPrepare cfg p w) p w := by
  have f := fr_processPrepare (cfg := cfg) r p w
  by_cases hk : Held r p.key
  · exact .inl (vote_processPrepare r p w ha hk hc hw)
  · by_cases hlo : p.key.2 ≤ r.lastOrdered.2
    · exact .inl (.inr (Nat.le_trans hlo f.lo))
    · have hnp : cfg.primary r.view ≠ cfg.name := fun x => (hp x).elim hk hlo
      rcases ha with ha | ha
      · by_cases hvt : hasVote r.prepares p.key w = true
        · exact .inl (.inl (f.pv _ _ hvt))
        · refine .inr ⟨fun z => hk ((f.held _).1 z), by rw [f.view]; exact hnp, ?_⟩
          have hnone : r.getPP p.key = none := by
            cases h : r.getPP p.key with
            | none => rfl
            | some x => exact absurd ⟨x, h⟩ hk
          unfold Replica.processPrepare
          rw [ha]
          simp only [Bool.not_true, Bool.false_eq_true, if_false]
          rw [if_neg (by unfold Replica.fromPrimary; simpa using fun x => hw x.symm), if_neg hvt, hnone]
          simp only
          rw [if_neg (by unfold Replica.isPrimary; simpa using hnp)]
          unfold Replica.enqueuePrepare
          simp only [Dict.get?_set, if_true]
          exact ⟨_, rfl, List.mem_append.2 (.inr (List.mem_singleton.2 rfl))⟩
      · exact absurd ha hlo

theorem GotC.arrive {r : Replica} (hl : LI cfg v (fun _ => False) r) (m : Commit) (w : Node)
    (ha : r.admits m.viewNo m.seqNo = true ∨ m.seqNo ≤ r.lastOrdered.2)
    (hp : cfg.primary r.view = cfg.name → HeldOr r m.key)
    (hc : ∀ pp, r.getPP m.key = some pp → blsAccepts pp m = true) :
    GotC cfg (r.processCommit cfg m w) m w := by
  have f := fr_processCommit (cfg := cfg) r m w
  have hh : Held r m.key → r.hasPrepared m.key = true := by
    intro hk
    rcases (held_iff r _).1 hk with ⟨x, hx⟩ | ⟨x, hx⟩
    · obtain ⟨y, hy⟩ := hk
      have : r.sentPP.has m.key = true := (Dict.has_iff _ _).2 ⟨_, hx⟩
      simp [Replica.hasPrepared, hy, this]
    · exact hasPrepared_of hk (hl.pi.own _ _ (fun y => y) hx)
  by_cases hk : Held r m.key
  · exact .inl (vote_processCommit r m w ha (hh hk) hc)
  · by_cases hlo : m.key.2 ≤ r.lastOrdered.2
    · exact .inl (.inr (Nat.le_trans hlo f.lo))
    · have hnp : cfg.primary r.view ≠ cfg.name := fun x => (hp x).elim hk hlo
      rcases ha with ha | ha
      · refine .inr ⟨fun z => hk ((f.held _).1 z), by rw [f.view]; exact hnp, ?_⟩
        have hnone : r.hasPrepared m.key = false := by
          rw [← Bool.not_eq_true]; exact fun x => hk (held_of_hasPrepared x)
        unfold Replica.processCommit
        rw [ha, hnone]
        simp only [Bool.not_true, Bool.false_eq_true, if_false, Bool.not_false, if_true, Dict.get?_set]
        exact ⟨_, rfl, List.mem_append.2 (.inr (List.mem_singleton.2 rfl))⟩
      · exact absurd ha hlo

/-- The next PRE-PREPARE of the primary, with nothing wrong with it, is
accepted. -/
theorem HeldOr.arrive {r : Replica} (hn : 0 < cfg.cq) (hl : LI cfg v (fun _ => False) r) (hctg : Ctg cfg False r) (pp : PrePrepare)
    (ha : r.admits pp.viewNo pp.seqNo = true ∨ pp.seqNo ≤ r.lastOrdered.2)
    (hp : cfg.primary r.view ≠ cfg.name) (hd : cfg.digest pp.reqs pp.origView pp.time = pp.content.digest)
    (hprev : HeldOr r (r.view, pp.seqNo - 1)) :
    HeldOr (r.processPrePrepare cfg pp (cfg.primary r.view) {}) pp.key := by
  have stay : HeldOr r pp.key → HeldOr (r.processPrePrepare cfg pp (cfg.primary r.view) {}) pp.key := by
    intro h
    have := HeldOr.step (cfg := cfg) h (.deliver (.prePrepare pp) (cfg.primary r.view) {}) hn hl ?_
    · exact this
    · show (r.processPrePrepare cfg pp (cfg.primary r.view) {}).view = r.view
      rcases processPrePrepare_cases (cfg := cfg) r pp (cfg.primary r.view) {} with h | ⟨r1, h1, h2⟩
      · rw [h]
      · exact h1.view
  by_cases hlo : pp.seqNo ≤ r.lastOrdered.2
  · exact stay (.inr hlo)
  have ha : r.admits pp.viewNo pp.seqNo = true := ha.resolve_right hlo
  have hview : pp.viewNo = r.view := (admits_iff _ _ _ ha).1
  by_cases hhas : r.recvPP.has pp.key = true
  · exact stay (.inl ((held_iff _ _).2 (.inr ((Dict.has_iff _ _).1 hhas))))
  obtain ⟨l1, l2, l3⟩ := lastPP3pc_spec hctg.kv
  have hge : pp.seqNo - 1 ≤ r.lastPP3pc.2 := by
    rcases hprev with h | h
    · exact l2 _ h
    · exact Nat.le_trans h l1
  by_cases hgt : pp.seqNo ≤ r.lastPP3pc.2
  · refine stay (.inl ?_)
    have hkey : pp.key = (r.view, pp.seqNo) := by rw [← hview]; rfl
    rw [hkey]
    rcases l3 with h | h
    · omega
    · by_cases he : pp.seqNo = r.lastPP3pc.2
      · rw [he]; exact h
      · exact hctg.contig (.inr hp) _ _ h (by omega) (by omega)
  · have hpos := (admits_iff _ _ _ ha).2.2.1
    have hcan : r.canProcessPP cfg pp (cfg.primary r.view) {} = true := by
      unfold Replica.canProcessPP
      have h1 : r.isNextPP pp.seqNo = true := by
        unfold Replica.isNextPP
        have : pp.seqNo = r.lastPP3pc.2 + 1 := by omega
        rw [this]; simp
      rw [if_neg (by rw [alreadyOrdered_iff]; exact hlo), if_neg (fun x => x hd), if_neg (by simp [Replica.fromPrimary]),
        if_neg hhas]
      simp only [Bool.not_true, Bool.false_eq_true, if_false]
      rw [if_neg (by omega), h1]
      simp
    have hdo : r.processPrePrepare cfg pp (cfg.primary r.view) {} = r.processValidPP cfg pp {} := by
      unfold Replica.processPrePrepare; rw [ha, hcan]; simp
    rcases processPrePrepare_cases (cfg := cfg) r pp (cfg.primary r.view) {} with h | ⟨r1, h1, h2⟩
    · -- the state cannot be the same: the key is now held
      left
      rw [hdo]
      have hao : r.alreadyOrdered pp.seqNo = false := by rw [alreadyOrdered_false]; omega
      unfold Replica.processValidPP
      simp only [hao, Bool.not_true, Bool.and_false, Bool.false_eq_true, if_false]
      rw [if_neg (by simpa [Replica.isPrimary] using hp)]
      unfold Replica.addToPrePrepares Replica.bumpLastPP
      simp only
      refine (((fr_tryPrepare _ _).trans ((fr_dequeuePrepares _ _).trans (fr_dequeueCommits _ _))).held _).2 ?_
      refine (held_setRecv r pp.key pp _ ?_ ?_ pp.key).2 (.inr rfl) <;> rfl
    · exact .inl ((h1.held' _).2 (.inr rfl))

end Verif.TPC
