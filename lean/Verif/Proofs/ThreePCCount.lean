import Verif.Proofs.ThreePCLive
/-!
# Which messages count

A PREPARE or COMMIT that arrives while the replica processes messages of its
number ends up among the votes: at once, or when the PRE-PREPARE it waits for is
accepted. An accepted PRE-PREPARE stays until its batch is ordered.
-/
namespace Verif.TPC

variable {cfg : Cfg} {v : Nat}

/-! ## What is sent -/

/-- Only COMMITs were sent, for keys with a PRE-PREPARE. -/
def NM (r r' : Replica) : Prop := ∀ m ∈ r'.out, m ∈ r.out ∨ ∃ c, m = .commit c ∧ Held r c.key

theorem NM.same {r r' : Replica} (h : r'.out = r.out) : NM r r' := fun m hm => .inl (by rw [← h]; exact hm)

theorem NM.trans {a b c : Replica} (h : NM a b) (f : Fr a b) (g : NM b c) : NM a c := by
  intro m hm
  rcases g m hm with x | ⟨c, x, y⟩
  · exact h m x
  · exact .inr ⟨c, x, (f.held _).1 y⟩

theorem nm_tryCommit (r : Replica) (k : Key) (hk : Held r k) : NM r (r.tryCommit cfg k) := by
  unfold Replica.tryCommit
  split
  · exact .same rfl
  · split
    · exact .same rfl
    · unfold Replica.doCommit
      simp only
      intro m hm
      rw [(frame_addToCommits _ _ _).out] at hm
      rcases List.mem_append.1 hm with hm | hm
      · exact .inl hm
      · exact .inr ⟨_, List.mem_singleton.1 hm, hk⟩

theorem nm_addToPrepares (r : Replica) (p : Prepare) (w : Node) (hk : Held r p.key) : NM r (r.addToPrepares cfg p w) := by
  unfold Replica.addToPrepares
  simp only
  have f := frame_dequeueCommits (cfg := cfg) { r with prepares := addVote r.prepares p.key p w } p.key
  have g := fr_dequeueCommits (cfg := cfg) { r with prepares := addVote r.prepares p.key p w } p.key
  intro m hm
  rcases nm_tryCommit _ _ ((g.held _).2 hk) m hm with x | ⟨c, x, y⟩
  · exact .inl (by rw [f.out] at x; exact x)
  · exact .inr ⟨c, x, (g.held _).1 y⟩

theorem nm_processPrepare (r : Replica) (p : Prepare) (w : Node) : NM r (r.processPrepare cfg p w) := by
  unfold Replica.processPrepare
  split
  · exact .same rfl
  · split
    · exact .same rfl
    · split
      · exact .same rfl
      · split
        · split
          · split
            · exact .same rfl
            · exact .same rfl
          · exact .same rfl
        · next pp hp =>
          split
          · exact .same rfl
          · exact nm_addToPrepares r p w ⟨pp, hp⟩

theorem nm_dequeuePrepares (r : Replica) (k : Key) : NM r (r.dequeuePrepares cfg k) := by
  unfold Replica.dequeuePrepares
  split
  · exact .same rfl
  · next q hq =>
    have hfold : ∀ (q : List (Prepare × Node)) (r : Replica),
        NM r (q.foldl (fun r e => r.processPrepare cfg e.1 e.2) r) := by
      intro q
      induction q with
      | nil => intro r; exact .same rfl
      | cons e q ih => intro r; exact (nm_processPrepare r _ _).trans (fr_processPrepare r _ _) (ih _)
    exact hfold q { r with prepWait := r.prepWait.set k [] }

theorem nm_dequeueCommits (r : Replica) (k : Key) : NM r (r.dequeueCommits cfg k) := .same (frame_dequeueCommits r k).out

/-! ## Accepting a PRE-PREPARE -/

/-- What a replica is after `process_preprepare` accepted `pp`: `r1` is the
replica with the PRE-PREPARE stored. -/
structure Accept (cfg : Cfg) (r : Replica) (pp : PrePrepare) (r1 r' : Replica) : Prop where
  adm : r.admits pp.viewNo pp.seqNo = true
  ok : r.lastOrdered.2 < pp.seqNo → ∃ w, cfg.primary r.view = w ∧ cfg.digest pp.reqs pp.origView pp.time = pp.content.digest
  held : ∀ j, Held r1 j ↔ Held r j ∨ j = pp.key
  shared : r1.shared = r.shared
  prepares : r1.prepares = r.prepares
  commits : r1.commits = r.commits
  prepWait : r1.prepWait = r.prepWait
  commWait : r1.commWait = r.commWait
  ordLog : r1.ordLog = r.ordLog
  out : r1.out = r.out
  prim : cfg.primary r.view = cfg.name → r' = ((r1.dequeuePrepares cfg pp.key).dequeueCommits cfg pp.key)
  other : cfg.primary r.view ≠ cfg.name →
    r' = (((r1.tryPrepare cfg pp).dequeuePrepares cfg pp.key).dequeueCommits cfg pp.key)

theorem processPrePrepare_cases (r : Replica) (pp : PrePrepare) (w : Node) (env : PPEnv) :
    r.processPrePrepare cfg pp w env = r ∨ ∃ r1, Accept cfg r pp r1 (r.processPrePrepare cfg pp w env) ∧
      (r.lastOrdered.2 < pp.seqNo → cfg.primary r.view = w) := by
  unfold Replica.processPrePrepare
  split
  · exact .inl rfl
  · next ha =>
    have ha : r.admits pp.viewNo pp.seqNo = true := by simpa using ha
    split
    · exact .inl rfl
    · next hc =>
      have hc : r.canProcessPP cfg pp w env = true := by simpa using hc
      unfold Replica.processValidPP
      split
      · exact .inl rfl
      · simp only
        right
        have hw : r.lastOrdered.2 < pp.seqNo → cfg.primary r.view = w ∧
            cfg.digest pp.reqs pp.origView pp.time = pp.content.digest := by
          intro hl
          unfold Replica.canProcessPP at hc
          rw [if_neg (by rw [alreadyOrdered_iff]; omega)] at hc
          split at hc
          · cases hc
          · next hd =>
            split at hc
            · cases hc
            · next hf => exact ⟨by simpa [Replica.fromPrimary] using hf, Classical.not_not.1 hd⟩
        generalize hr0 : (if r.alreadyOrdered pp.seqNo then r
          else { r with batches := (r.batches.filter (fun k => ¬ k = pp.key)) ++ [pp.key] } : Replica) = r0
        have e0 : r0.shared = r.shared ∧ r0.sentPP = r.sentPP ∧ r0.recvPP = r.recvPP ∧ r0.prepares = r.prepares ∧
            r0.commits = r.commits ∧ r0.prepWait = r.prepWait ∧ r0.commWait = r.commWait ∧ r0.ordLog = r.ordLog ∧
            r0.out = r.out ∧ r0.view = r.view := by
          subst hr0
          split <;> exact ⟨rfl, rfl, rfl, rfl, rfl, rfl, rfl, rfl, rfl, rfl⟩
        obtain ⟨s1, s2, s3, s4, s5, s6, s7, s8, s9, s10⟩ := e0
        have hh0 : ∀ j, Held r0 j ↔ Held r j := by
          intro j; unfold Held Replica.getPP; rw [s2, s3]
        by_cases hp : cfg.primary r.view = cfg.name
        · have hp0 : r0.isPrimary cfg = true := by unfold Replica.isPrimary; rw [s10]; simpa using hp
          rw [hp0]
          refine ⟨r0.addToSentPP pp, ⟨ha, fun hl => ⟨w, hw hl⟩, ?_, ?_, s4, s5, s6, s7, s8, s9, fun _ => rfl,
            fun h => absurd hp h⟩, fun hl => (hw hl).1⟩
          · intro j
            rw [← hh0]
            exact held_setSent r0 pp.key pp (r0.addToSentPP pp) rfl rfl j
          · rw [← s1]; rfl
        · have hp0 : r0.isPrimary cfg = false := by unfold Replica.isPrimary; rw [s10]; simpa using hp
          rw [hp0]
          refine ⟨({ r0 with recvPP := r0.recvPP.set pp.key pp, preprepared := trackBatch r0.preprepared pp.batchId } : Replica).bumpLastPP pp.seqNo,
            ⟨ha, fun hl => ⟨w, hw hl⟩, ?_, ?_, s4, s5, s6, s7, s8, s9, fun h => absurd h hp,
            fun _ => rfl⟩, fun hl => (hw hl).1⟩
          · intro j
            rw [← hh0]
            refine held_setRecv r0 pp.key pp _ ?_ ?_ j <;> rfl
          · rw [← s1]; rfl

theorem Accept.fr {r : Replica} {pp : PrePrepare} {r1 r' : Replica} (h : Accept cfg r pp r1 r') : Fr r1 r' := by
  by_cases hp : cfg.primary r.view = cfg.name
  · rw [h.prim hp]; exact (fr_dequeuePrepares _ _).trans (fr_dequeueCommits _ _)
  · rw [h.other hp]; exact (fr_tryPrepare _ _).trans ((fr_dequeuePrepares _ _).trans (fr_dequeueCommits _ _))

theorem Accept.view {r : Replica} {pp : PrePrepare} {r1 r' : Replica} (h : Accept cfg r pp r1 r') : r'.view = r.view :=
  h.fr.view.trans (congrArg SharedData.viewNo h.shared)

theorem Accept.lo {r : Replica} {pp : PrePrepare} {r1 r' : Replica} (h : Accept cfg r pp r1 r') :
    r.lastOrdered.2 ≤ r'.lastOrdered.2 := by
  have h1 : r1.lastOrdered = r.lastOrdered := congrArg SharedData.lastOrdered h.shared
  have := h.fr.lo
  rw [h1] at this; exact this

theorem Accept.held' {r : Replica} {pp : PrePrepare} {r1 r' : Replica} (h : Accept cfg r pp r1 r') (j : Key) :
    Held r' j ↔ Held r j ∨ j = pp.key := by rw [h.fr.held, h.held]

theorem Accept.outs {r : Replica} {pp : PrePrepare} {r1 r' : Replica} (h : Accept cfg r pp r1 r') (m : Msg) (hm : m ∈ r'.out) :
    m ∈ r.out ∨ (∃ c, m = .commit c ∧ Held r' c.key) ∨ m = .prepare ⟨pp.viewNo, pp.seqNo, pp.time, pp.content⟩ := by
  by_cases hp : cfg.primary r.view = cfg.name
  · have f := h.fr
    rw [h.prim hp] at hm
    rcases ((nm_dequeuePrepares r1 pp.key).trans (fr_dequeuePrepares _ _) (nm_dequeueCommits _ _)) m hm with x | ⟨c, x, y⟩
    · exact .inl (by rw [← h.out]; exact x)
    · exact .inr (.inl ⟨c, x, (f.held _).2 y⟩)
  · have hm0 := hm
    rw [h.other hp] at hm
    have f := fr_tryPrepare (cfg := cfg) r1 pp
    have base : ∀ m ∈ (r1.tryPrepare cfg pp).out, m ∈ r.out ∨ (∃ c, m = .commit c ∧ Held r1 c.key) ∨
        m = .prepare ⟨pp.viewNo, pp.seqNo, pp.time, pp.content⟩ := by
      intro m hm
      unfold Replica.tryPrepare at hm
      split at hm
      · exact .inl (by rw [← h.out]; exact hm)
      · unfold Replica.doPrepare at hm
        simp only at hm
        have hh : Held r1 pp.key := (h.held _).2 (.inr rfl)
        rcases nm_addToPrepares _ _ _ (show Held { r1 with out := _ } _ from hh) m hm with x | ⟨c, x, y⟩
        · rcases List.mem_append.1 x with x | x
          · exact .inl (by rw [← h.out]; exact x)
          · exact .inr (.inr (List.mem_singleton.1 x))
        · exact .inr (.inl ⟨c, x, y⟩)
    rcases ((nm_dequeuePrepares _ pp.key).trans (fr_dequeuePrepares _ _) (nm_dequeueCommits _ _)) m hm with x | ⟨c, x, y⟩
    · rcases base m x with x | ⟨c, x, y⟩ | x
      · exact .inl x
      · exact .inr (.inl ⟨c, x, (h.fr.held _).2 y⟩)
      · exact .inr (.inr x)
    · refine .inr (.inl ⟨c, x, ?_⟩)
      rw [h.fr.held, ← f.held]; exact y

/-! ## Waiting messages -/

/-- Messages that wait for a PRE-PREPARE not there yet go on waiting. -/
structure Wt (r r' : Replica) : Prop where
  pw : ∀ k q e, ¬ Held r k → r.prepWait.get? k = some q → e ∈ q → ∃ q', r'.prepWait.get? k = some q' ∧ e ∈ q'
  cw : ∀ k q e, ¬ Held r k → r.commWait.get? k = some q → e ∈ q → ∃ q', r'.commWait.get? k = some q' ∧ e ∈ q'

theorem Wt.same {r r' : Replica} (h1 : r'.prepWait = r.prepWait) (h2 : r'.commWait = r.commWait) : Wt r r' :=
  ⟨fun k q e _ a b => ⟨q, by rw [h1]; exact a, b⟩, fun k q e _ a b => ⟨q, by rw [h2]; exact a, b⟩⟩

theorem Wt.trans {a b c : Replica} (h : Wt a b) (f : Fr a b) (g : Wt b c) : Wt a c := by
  constructor
  · intro k q e hk h1 h2
    obtain ⟨q', x, y⟩ := h.pw k q e hk h1 h2
    exact g.pw k q' e (fun z => hk ((f.held k).1 z)) x y
  · intro k q e hk h1 h2
    obtain ⟨q', x, y⟩ := h.cw k q e hk h1 h2
    exact g.cw k q' e (fun z => hk ((f.held k).1 z)) x y

theorem commWait_tryOrder (r : Replica) (c : Commit) : (r.tryOrder cfg c).1.commWait = r.commWait ∧
    (r.tryOrder cfg c).1.prepWait = r.prepWait := by
  unfold Replica.tryOrder
  split
  · exact ⟨rfl, rfl⟩
  · split
    · exact ⟨rfl, rfl⟩
    · split
      · exact ⟨rfl, rfl⟩
      · unfold Replica.order
        split <;> exact ⟨rfl, rfl⟩

theorem wt_processCommit (r : Replica) (c : Commit) (w : Node) : Wt r (r.processCommit cfg c w) := by
  unfold Replica.processCommit
  split
  · exact .same rfl rfl
  · split
    · refine ⟨fun k q e _ a b => ⟨q, a, b⟩, ?_⟩
      intro k q e _ h1 h2
      simp only [Dict.get?_set]
      by_cases hk : c.key = k
      · subst hk
        rw [if_pos rfl, h1]
        exact ⟨_, rfl, List.mem_append.2 (.inl h2)⟩
      · rw [if_neg hk]; exact ⟨q, h1, h2⟩
    · split
      · exact .same rfl rfl
      · split
        · exact .same rfl rfl
        · unfold Replica.addToCommits
          have := commWait_tryOrder (cfg := cfg) { r with commits := addVote r.commits c.key c w } c
          exact .same this.2 this.1

theorem wt_dequeueCommits (r : Replica) (k : Key) : Wt r (r.dequeueCommits cfg k) := by
  unfold Replica.dequeueCommits
  split
  · exact .same rfl rfl
  · next q hq =>
    split
    · exact .same rfl rfl
    · next hp =>
      have hk : Held r k := held_of_hasPrepared (by simpa using hp)
      have hfold : ∀ (q : List (Commit × Node)) (r : Replica),
          Wt r (q.foldl (fun r e => r.processCommit cfg e.1 e.2) r) := by
        intro q
        induction q with
        | nil => intro r; exact .same rfl rfl
        | cons e q ih => intro r; exact (wt_processCommit r _ _).trans (fr_processCommit r _ _) (ih _)
      have h1 := hfold q { r with commWait := r.commWait.set k [] }
      constructor
      · exact fun j q e hj a b => h1.pw j q e hj a b
      · intro j q' e hj a b
        have hjk : k ≠ j := fun x => hj (x ▸ hk)
        obtain ⟨q2, x, y⟩ := h1.cw j q' e hj (by simp only [Dict.get?_set]; rw [if_neg hjk]; exact a) b
        refine ⟨q2, ?_, y⟩
        simp only [Dict.get?_erase]
        rw [if_neg hjk]; exact x

theorem wt_tryCommit (r : Replica) (k : Key) : Wt r (r.tryCommit cfg k) := by
  unfold Replica.tryCommit
  split
  · exact .same rfl rfl
  · split
    · exact .same rfl rfl
    · unfold Replica.doCommit Replica.addToCommits
      simp only
      exact .same (commWait_tryOrder _ _).2 (commWait_tryOrder _ _).1

theorem wt_addToPrepares (r : Replica) (p : Prepare) (w : Node) : Wt r (r.addToPrepares cfg p w) := by
  unfold Replica.addToPrepares
  simp only
  have h0 : Wt { r with prepares := addVote r.prepares p.key p w }
      ((({ r with prepares := addVote r.prepares p.key p w } : Replica).dequeueCommits cfg p.key).tryCommit cfg p.key) :=
    (wt_dequeueCommits _ _).trans (fr_dequeueCommits _ _) (wt_tryCommit _ _)
  exact ⟨h0.pw, h0.cw⟩

theorem wt_processPrepare (r : Replica) (p : Prepare) (w : Node) : Wt r (r.processPrepare cfg p w) := by
  have q : Wt r (r.enqueuePrepare p w) := by
    refine ⟨?_, fun k q e _ a b => ⟨q, a, b⟩⟩
    intro k q e _ h1 h2
    unfold Replica.enqueuePrepare
    simp only [Dict.get?_set]
    by_cases hk : p.key = k
    · subst hk
      rw [if_pos rfl, h1]
      exact ⟨_, rfl, List.mem_append.2 (.inl h2)⟩
    · rw [if_neg hk]; exact ⟨q, h1, h2⟩
  unfold Replica.processPrepare
  split
  · exact .same rfl rfl
  · split
    · exact .same rfl rfl
    · split
      · exact .same rfl rfl
      · split
        · split
          · split
            · exact q
            · exact .same rfl rfl
          · exact q
        · split
          · exact .same rfl rfl
          · exact wt_addToPrepares r p w

theorem wt_dequeuePrepares (r : Replica) (k : Key) (hk : Held r k) : Wt r (r.dequeuePrepares cfg k) := by
  unfold Replica.dequeuePrepares
  split
  · exact .same rfl rfl
  · next q hq =>
    have hfold : ∀ (q : List (Prepare × Node)) (r : Replica),
        Wt r (q.foldl (fun r e => r.processPrepare cfg e.1 e.2) r) := by
      intro q
      induction q with
      | nil => intro r; exact .same rfl rfl
      | cons e q ih => intro r; exact (wt_processPrepare r _ _).trans (fr_processPrepare r _ _) (ih _)
    have h1 := hfold q { r with prepWait := r.prepWait.set k [] }
    constructor
    · intro j q' e hj a b
      have hjk : k ≠ j := fun x => hj (x ▸ hk)
      obtain ⟨q2, x, y⟩ := h1.pw j q' e hj (by simp only [Dict.get?_set]; rw [if_neg hjk]; exact a) b
      refine ⟨q2, ?_, y⟩
      simp only [Dict.get?_erase]
      rw [if_neg hjk]; exact x
    · exact fun j q e hj a b => h1.cw j q e hj a b

theorem wt_tryPrepare (r : Replica) (pp : PrePrepare) : Wt r (r.tryPrepare cfg pp) := by
  unfold Replica.tryPrepare
  split
  · exact .same rfl rfl
  · unfold Replica.doPrepare
    simp only
    have h0 := wt_addToPrepares (cfg := cfg) { r with out := r.out ++ [Msg.prepare ⟨pp.viewNo, pp.seqNo, pp.time, pp.content⟩] }
      ⟨pp.viewNo, pp.seqNo, pp.time, pp.content⟩ cfg.name
    exact ⟨h0.pw, h0.cw⟩

theorem Accept.wt {r : Replica} {pp : PrePrepare} {r1 r' : Replica} (h : Accept cfg r pp r1 r') (k : Key) (hk : ¬ Held r' k) :
    (∀ q e, r.prepWait.get? k = some q → e ∈ q → ∃ q', r'.prepWait.get? k = some q' ∧ e ∈ q') ∧
    (∀ q e, r.commWait.get? k = some q → e ∈ q → ∃ q', r'.commWait.get? k = some q' ∧ e ∈ q') := by
  have hk1 : ¬ Held r1 k := fun x => hk ((h.fr.held k).2 x)
  have hpp : Held r1 pp.key := (h.held _).2 (.inr rfl)
  have w : Wt r1 r' := by
    by_cases hp : cfg.primary r.view = cfg.name
    · rw [h.prim hp]
      exact (wt_dequeuePrepares _ _ hpp).trans (fr_dequeuePrepares _ _) (wt_dequeueCommits _ _)
    · rw [h.other hp]
      refine (wt_tryPrepare (cfg := cfg) r1 pp).trans (fr_tryPrepare (cfg := cfg) r1 pp) ?_
      exact (wt_dequeuePrepares _ _ (((fr_tryPrepare _ _).held _).2 hpp)).trans (fr_dequeuePrepares _ _) (wt_dequeueCommits _ _)
  constructor
  · intro q e a b; exact w.pw k q e hk1 (by rw [h.prepWait]; exact a) b
  · intro q e a b; exact w.cw k q e hk1 (by rw [h.commWait]; exact a) b

/-! ## Counting -/

/-- The PREPARE of `w` is among the votes, or its batch is ordered. -/
def VoteP (r : Replica) (k : Key) (w : Node) : Prop := hasVote r.prepares k w = true ∨ k.2 ≤ r.lastOrdered.2

/-- The COMMIT of `w` is among the votes, or its batch is ordered. -/
def VoteC (r : Replica) (k : Key) (w : Node) : Prop := hasVote r.commits k w = true ∨ k.2 ≤ r.lastOrdered.2

theorem VoteP.fr {a b : Replica} {k : Key} {w : Node} (h : VoteP a k w) (f : Fr a b) : VoteP b k w :=
  h.imp (f.pv k w) (fun x => Nat.le_trans x f.lo)

theorem VoteC.fr {a b : Replica} {k : Key} {w : Node} (h : VoteC a k w) (f : Fr a b) : VoteC b k w :=
  h.imp (f.cv k w) (fun x => Nat.le_trans x f.lo)

theorem vote_addToPrepares (r : Replica) (p : Prepare) (w : Node) :
    hasVote (r.addToPrepares cfg p w).prepares p.key w = true := by
  unfold Replica.addToPrepares
  simp only
  refine (fr_tryCommit _ _).pv _ _ ?_
  rw [(frame_dequeueCommits _ _).prepares]
  exact addVote_hasVote_self _ _ _ _

/-- A PREPARE with the content of the PRE-PREPARE held is counted. -/
theorem vote_processPrepare (r : Replica) (p : Prepare) (w : Node)
    (ha : r.admits p.viewNo p.seqNo = true ∨ p.seqNo ≤ r.lastOrdered.2) (hk : Held r p.key)
    (hc : ∀ pp, r.getPP p.key = some pp → p.content = pp.content) (hw : w ≠ cfg.primary r.view) :
    VoteP (r.processPrepare cfg p w) p.key w := by
  rcases ha with ha | ha
  · unfold Replica.processPrepare
    rw [ha]
    simp only [Bool.not_true, Bool.false_eq_true, if_false]
    rw [if_neg (by unfold Replica.fromPrimary; simpa using fun x => hw x.symm)]
    split
    · next h => exact .inl h
    · obtain ⟨pp, hp⟩ := hk
      rw [hp]
      simp only
      rw [if_neg (by simpa using hc pp hp)]
      exact .inl (vote_addToPrepares r p w)
  · exact .inr (Nat.le_trans ha (fr_processPrepare r p w).lo)

theorem vote_addToCommits (r : Replica) (c : Commit) (w : Node) :
    hasVote (r.addToCommits cfg c w).commits c.key w = true := by
  unfold Replica.addToCommits
  exact (fr_tryOrder _ _).cv _ _ (addVote_hasVote_self _ _ _ _)

/-- A COMMIT is counted once the batch is pre-prepared here. -/
theorem vote_processCommit (r : Replica) (c : Commit) (w : Node)
    (ha : r.admits c.viewNo c.seqNo = true ∨ c.seqNo ≤ r.lastOrdered.2) (hk : r.hasPrepared c.key = true)
    (hc : ∀ pp, r.getPP c.key = some pp → blsAccepts pp c = true) :
    VoteC (r.processCommit cfg c w) c.key w := by
  rcases ha with ha | ha
  · unfold Replica.processCommit
    rw [ha, hk]
    simp only [Bool.not_true, Bool.false_eq_true, if_false]
    split
    · next h => exact .inl h
    · obtain ⟨pp, hp⟩ := held_of_hasPrepared hk
      rw [hp]
      simp only [Option.all_some, hc pp hp, Bool.not_true, Bool.and_false, Bool.false_eq_true, if_false]
      exact .inl (vote_addToCommits r c w)
  · exact .inr (Nat.le_trans ha (fr_processCommit r c w).lo)

theorem vote_foldPrepares (q : List (Prepare × Node)) (r : Replica) (p : Prepare) (w : Node) (hm : (p, w) ∈ q)
    (ha : r.admits p.viewNo p.seqNo = true ∨ p.seqNo ≤ r.lastOrdered.2) (hk : Held r p.key)
    (hc : ∀ pp, r.getPP p.key = some pp → p.content = pp.content) (hw : w ≠ cfg.primary r.view) :
    VoteP (q.foldl (fun r e => r.processPrepare cfg e.1 e.2) r) p.key w := by
  induction q generalizing r with
  | nil => simp at hm
  | cons e q ih =>
    rw [List.foldl_cons]
    have f := fr_processPrepare (cfg := cfg) r e.1 e.2
    rcases List.mem_cons.1 hm with hm | hm
    · subst hm
      exact (vote_processPrepare r p w ha hk hc hw).fr (fr_foldPrepares q _)
    · refine ih _ hm ?_ ((f.held _).2 hk) ?_ (by rw [f.view]; exact hw)
      · rcases ha with ha | ha
        · exact f.admits ha
        · exact .inr (Nat.le_trans ha f.lo)
      · intro pp hp; rw [f.getPP] at hp; exact hc pp hp

theorem hasPrepared_of {r : Replica} {k : Key} (hk : Held r k) {w : Node} (hw : hasVote r.prepares k w = true) :
    r.hasPrepared k = true := by
  obtain ⟨vs, m, h1, -⟩ := (hasVote_iff _ _ _).1 hw
  obtain ⟨pp, hp⟩ := hk
  unfold Replica.hasPrepared
  have : r.prepares.has k = true := (Dict.has_iff _ _).2 ⟨_, h1⟩
  simp [hp, this]

theorem vote_foldCommits (q : List (Commit × Node)) (r : Replica) (c : Commit) (w u : Node) (hm : (c, w) ∈ q)
    (ha : r.admits c.viewNo c.seqNo = true ∨ c.seqNo ≤ r.lastOrdered.2) (hk : Held r c.key)
    (hu : hasVote r.prepares c.key u = true) (hc : ∀ pp, r.getPP c.key = some pp → blsAccepts pp c = true) :
    VoteC (q.foldl (fun r e => r.processCommit cfg e.1 e.2) r) c.key w := by
  induction q generalizing r with
  | nil => simp at hm
  | cons e q ih =>
    rw [List.foldl_cons]
    have f := fr_processCommit (cfg := cfg) r e.1 e.2
    rcases List.mem_cons.1 hm with hm | hm
    · subst hm
      exact (vote_processCommit r c w ha (hasPrepared_of hk hu) hc).fr (fr_foldCommits q _)
    · refine ih _ hm ?_ ((f.held _).2 hk) (f.pv _ _ hu) ?_
      · rcases ha with ha | ha
        · exact f.admits ha
        · exact .inr (Nat.le_trans ha f.lo)
      · intro pp hp; rw [f.getPP] at hp; exact hc pp hp

theorem prepWait_tryPrepare (r : Replica) (pp : PrePrepare) : (r.tryPrepare cfg pp).prepWait = r.prepWait := by
  unfold Replica.tryPrepare
  split
  · rfl
  · unfold Replica.doPrepare Replica.addToPrepares
    simp only
    generalize h : ({ r with out := r.out ++ [Msg.prepare ⟨pp.viewNo, pp.seqNo, pp.time, pp.content⟩], prepares := addVote r.prepares (Prepare.key ⟨pp.viewNo, pp.seqNo, pp.time, pp.content⟩) ⟨pp.viewNo, pp.seqNo, pp.time, pp.content⟩ cfg.name } : Replica) = r2
    have h2 : r2.prepWait = r.prepWait := by subst h; rfl
    have f := frame_dequeueCommits (cfg := cfg) r2 (Prepare.key ⟨pp.viewNo, pp.seqNo, pp.time, pp.content⟩)
    rw [← h2, ← f.prepWait]
    unfold Replica.tryCommit
    split
    · rfl
    · split
      · rfl
      · unfold Replica.doCommit
        exact (frame_addToCommits _ _ _).prepWait

theorem admits_shared {a b : Replica} (h : a.shared = b.shared) (u s : Nat) : a.admits u s = b.admits u s := by
  unfold Replica.admits; rw [h]

/-- On accepting the PRE-PREPARE the PREPAREs that waited for it are counted. -/
theorem Accept.prep {r : Replica} {pp : PrePrepare} {r1 r' : Replica} (h : Accept cfg r pp r1 r')
    (hp : cfg.primary r.view ≠ cfg.name) {p : Prepare} {w : Node} (hk : p.key = pp.key) {q : List (Prepare × Node)}
    (hq : r.prepWait.get? p.key = some q) (hm : (p, w) ∈ q) (hw : w ≠ cfg.primary r.view)
    (hc : ∀ pp, r'.getPP p.key = some pp → p.content = pp.content) : VoteP r' p.key w := by
  have hv1 : r1.view = r.view := congrArg SharedData.viewNo h.shared
  have f1 := fr_tryPrepare (cfg := cfg) r1 pp
  have ha1 : r1.admits p.viewNo p.seqNo = true := by
    rw [admits_shared h.shared]
    have := h.adm
    rw [show p.viewNo = pp.viewNo from congrArg Prod.fst hk, show p.seqNo = pp.seqNo from congrArg Prod.snd hk]
    exact this
  have hpp : Held (r1.tryPrepare cfg pp) p.key := (f1.held _).2 ((h.held _).2 (.inr hk))
  have hc2 : ∀ qq, (r1.tryPrepare cfg pp).getPP p.key = some qq → p.content = qq.content := by
    intro qq hqq
    refine hc qq ?_
    rw [h.fr.getPP, ← f1.getPP]; exact hqq
  have hv2 : (r1.tryPrepare cfg pp).view = r.view := f1.view.trans hv1
  have ha2 := f1.admits ha1
  have hw2 : (r1.tryPrepare cfg pp).prepWait.get? p.key = some q := by
    rw [prepWait_tryPrepare, h.prepWait]; exact hq
  rw [h.other hp]
  generalize r1.tryPrepare cfg pp = r2 at *
  refine VoteP.fr ?_ (fr_dequeueCommits _ _)
  unfold Replica.dequeuePrepares
  rw [← hk, hw2]
  simp only
  exact vote_foldPrepares (cfg := cfg) q { r2 with prepWait := r2.prepWait.set p.key [] } p w hm ha2 hpp hc2 (by rw [← hv2] at hw; exact hw)

/-- On accepting the PRE-PREPARE the COMMITs that waited for it are counted. -/
theorem Accept.comm {r : Replica} {pp : PrePrepare} {r1 r' : Replica} (h : Accept cfg r pp r1 r')
    (hp : cfg.primary r.view ≠ cfg.name) (hno : hasVote r.prepares pp.key cfg.name = false) {c : Commit} {w : Node}
    (hk : c.key = pp.key) {q : List (Commit × Node)} (hq : r.commWait.get? c.key = some q) (hm : (c, w) ∈ q)
    (hc : ∀ pp, r'.getPP c.key = some pp → blsAccepts pp c = true) : VoteC r' c.key w := by
  have f1 := fr_tryPrepare (cfg := cfg) r1 pp
  have ha1 : r1.admits c.viewNo c.seqNo = true := by
    rw [admits_shared h.shared]
    have := h.adm
    rw [show c.viewNo = pp.viewNo from congrArg Prod.fst hk, show c.seqNo = pp.seqNo from congrArg Prod.snd hk]
    exact this
  have hh1 : Held r1 c.key := (h.held _).2 (.inr hk)
  have hc1 : ∀ qq, r1.getPP c.key = some qq → blsAccepts qq c = true := by
    intro qq hqq
    refine hc qq ?_
    rw [h.fr.getPP]; exact hqq
  rw [h.other hp]
  refine VoteC.fr ?_ ((fr_dequeuePrepares _ _).trans (fr_dequeueCommits _ _))
  have hno1 : hasVote r1.prepares pp.key cfg.name = false := by rw [h.prepares]; exact hno
  have hq1 : r1.commWait.get? c.key = some q := by rw [h.commWait]; exact hq
  unfold Replica.tryPrepare
  rw [hno1]
  simp only [Bool.false_eq_true, if_false]
  unfold Replica.doPrepare Replica.addToPrepares
  simp only
  refine VoteC.fr ?_ (fr_tryCommit _ _)
  have hkk : Prepare.key ⟨pp.viewNo, pp.seqNo, pp.time, pp.content⟩ = c.key := hk.symm
  rw [hkk]
  unfold Replica.dequeueCommits
  simp only
  rw [hq1]
  simp only
  have hv3 : hasVote (addVote r1.prepares c.key ⟨pp.viewNo, pp.seqNo, pp.time, pp.content⟩ cfg.name) c.key cfg.name = true :=
    addVote_hasVote_self _ _ _ _
  rw [if_neg]
  · exact vote_foldCommits (cfg := cfg) q { r1 with out := r1.out ++ [Msg.prepare ⟨pp.viewNo, pp.seqNo, pp.time, pp.content⟩], prepares := addVote r1.prepares c.key ⟨pp.viewNo, pp.seqNo, pp.time, pp.content⟩ cfg.name, commWait := r1.commWait.set c.key [] }
      c w cfg.name hm (.inl ha1) hh1 hv3 hc1
  · rw [hasPrepared_of (r := { r1 with out := r1.out ++ [Msg.prepare ⟨pp.viewNo, pp.seqNo, pp.time, pp.content⟩], prepares := addVote r1.prepares c.key ⟨pp.viewNo, pp.seqNo, pp.time, pp.content⟩ cfg.name }) hh1 hv3]
    simp

end Verif.TPC
