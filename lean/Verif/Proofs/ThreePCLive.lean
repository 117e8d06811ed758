import Verif.Proofs.ThreePCOrder
/-!
# What a replica does once it has the evidence

Invariants of one replica for progress: where a quorum of COMMITs leads, that a
quorum of PREPAREs is followed by an own COMMIT and an accepted PRE-PREPARE by an
own PREPARE.
-/
namespace Verif.TPC

variable {cfg : Cfg}

/-- The quorum of COMMITs. -/
abbrev Cfg.cq (cfg : Cfg) : Nat := (Quorums.ofN cfg.n).commit.value
/-- The quorum of PREPAREs. -/
abbrev Cfg.pq (cfg : Cfg) : Nat := (Quorums.ofN cfg.n).prepare.value

/-- Where quorums of COMMITs end up, in view `v`. Keys in `ex` are left out. -/
structure CI (cfg : Cfg) (v : Nat) (ex : Key → Prop) (r : Replica) : Prop where
  com : ∀ k e, r.commits.get? k = some e → Held r k ∧ k.1 = r.view
  ordd : ∀ k ∈ r.ordered, k.2 ≤ r.lastOrdered.2
  ooo : ∀ e ∈ r.outOfOrder, e.2.key = e.1 ∧ e.1.1 ≤ r.view
  lo : r.view ≤ v → r.lastOrdered.1 ≤ v
  quo : r.view = v → ∀ k e, ¬ ex k → r.commits.get? k = some e → cfg.cq ≤ e.1.length →
    k.2 ≤ r.lastOrdered.2 ∨ k ∈ r.outOfOrder.keys
  nxt : r.view = v → ∀ k ∈ r.outOfOrder.keys, k.1 = r.view → k.2 = r.lastOrdered.2 + 1 →
    r.lastOrdered.1 = r.view

variable {v : Nat} {ex : Key → Prop}

theorem CI.congr {r r' : Replica} (h : CI cfg v ex r) (hh : ∀ k, Held r k → Held r' k)
    (h1 : r'.view = r.view) (h2 : r'.lastOrdered = r.lastOrdered) (h3 : r'.ordered = r.ordered)
    (h4 : r'.outOfOrder = r.outOfOrder) (h5 : r'.commits = r.commits) : CI cfg v ex r' where
  com := by rw [h5, h1]; exact fun k e hk => ⟨hh k (h.com k e hk).1, (h.com k e hk).2⟩
  ordd := by rw [h3, h2]; exact h.ordd
  ooo := by rw [h4, h1]; exact h.ooo
  lo := by rw [h1, h2]; exact h.lo
  quo := by rw [h1, h2, h4, h5]; exact h.quo
  nxt := by rw [h1, h2, h4]; exact h.nxt

theorem held_order (r : Replica) (k j : Key) : Held (r.order k) j ↔ Held r j := by
  unfold Held; rw [(frame_order r k).getPP]

theorem CI.order {r : Replica} (h : CI cfg v ex r) (k : Key) (hv : k.1 = r.view)
    (hl : r.lastOrdered.2 < k.2) (hk : Held r k) :
    CI cfg v (fun j => ex j ∧ k ≠ j) (r.order k) ∧ (r.order k).lastOrdered = k := by
  obtain ⟨pp, hp⟩ := hk
  have e : r.order k = { (({ r with ordered := r.ordered ++ [k] } : Replica).setLastOrdered k) with
      ordLog := r.ordLog ++ [pp] } := by
    unfold Replica.order; rw [hp]; rfl
  have hh := held_order r k
  rw [e] at hh ⊢
  refine ⟨?_, rfl⟩
  exact {
    com := fun j e hj => ⟨(hh j).2 (h.com j e hj).1, (h.com j e hj).2⟩
    ordd := by
      intro j hj
      rcases List.mem_append.1 hj with hj | hj
      · have := h.ordd j hj; simp only [Replica.setLastOrdered]; omega
      · simp only [List.mem_singleton] at hj; subst hj; exact Nat.le_refl _
    ooo := h.ooo
    lo := fun hx => by
      have : r.view ≤ v := hx
      simp only [Replica.setLastOrdered]; omega
    quo := by
      intro hx j e hj h1 h2
      by_cases hkj : k = j
      · subst hkj; exact .inl (Nat.le_refl _)
      · rcases h.quo hx j e (fun x => hj ⟨x, hkj⟩) h1 h2 with g | g
        · left; simp only [Replica.setLastOrdered]; omega
        · exact .inr g
    nxt := fun _ _ _ _ _ => hv }

/-- After `tryOrder` on a held key nothing is left out for it. -/
theorem CI.tryOrder {r : Replica} (c : Commit) (h : CI cfg v (fun j => j = c.key) r)
    (hv : c.key.1 = r.view) (hk : Held r c.key) : CI cfg v (fun _ => False) (r.tryOrder cfg c).1 := by
  unfold Replica.tryOrder
  split
  · next hq =>
    simp only
    refine { h with quo := ?_ }
    intro hx k e _ h1 h2
    by_cases hkc : k = c.key
    · subst hkc
      have : hasQuorum r.commits c.key cfg.cq = true := by
        unfold hasQuorum; rw [h1]; simpa using h2
      rw [this] at hq; simp at hq
    · exact h.quo hx k e hkc h1 h2
  · split
    · next ha =>
      rw [alreadyOrdered_iff] at ha
      refine { h with quo := ?_ }
      intro hx k e _ h1 h2
      by_cases hkc : k = c.key
      · subst hkc; exact .inl ha
      · exact h.quo hx k e hkc h1 h2
    · next ha =>
      have ha : r.lastOrdered.2 < c.seqNo := by
        rw [Bool.not_eq_true, alreadyOrdered_false] at ha; exact ha
      split
      · next hn =>
        have keys : ∀ k, k ∈ (r.outOfOrder.set c.key c).keys ↔ (k = c.key ∨ k ∈ r.outOfOrder.keys) := by
          intro k
          rw [Dict.mem_keys, Dict.mem_keys, Dict.get?_set]
          by_cases hkc : c.key = k
          · subst hkc; simp
          · rw [if_neg hkc]
            exact ⟨.inr, fun x => x.resolve_left (fun y => hkc y.symm)⟩
        exact {
          com := h.com
          ordd := h.ordd
          ooo := by
            intro e he
            rcases Dict.mem_set he with he | he
            · exact h.ooo e he
            · subst he; exact ⟨rfl, Nat.le_of_eq hv⟩
          lo := h.lo
          quo := by
            intro hx k e _ h1 h2
            by_cases hkc : k = c.key
            · exact .inr ((keys k).2 (.inl hkc))
            · exact (h.quo hx k e hkc h1 h2).imp id (fun g => (keys k).2 (.inr g))
          nxt := by
            intro hx k hm h1 h2
            rcases (keys k).1 hm with g | g
            · subst g
              simp only [Bool.and_eq_true, Bool.not_eq_true', Replica.allPrevOrdered, Bool.or_eq_false_iff] at hn
              have h3 := hn.2.1
              simp only at h2
              rw [beq_eq_false_iff_ne] at h3
              exact absurd (by omega) h3
            · exact h.nxt hx k g h1 h2 }
      · have := (h.order c.key hv ha hk).1
        exact { this with quo := fun hx k e _ => this.quo hx k e (fun x => x.2 x.1.symm) }

theorem CI.addToCommits {r : Replica} (h : CI cfg v (fun _ => False) r) (c : Commit) (w : Node)
    (hv : c.key.1 = r.view) (hk : Held r c.key) : CI cfg v (fun _ => False) (r.addToCommits cfg c w) := by
  unfold Replica.addToCommits
  refine CI.tryOrder (r := { r with commits := addVote r.commits c.key c w }) c ?_ hv hk
  exact {
    com := by
      intro k e he
      simp only [addVote_get] at he
      split at he
      · next x => subst x; exact ⟨hk, hv⟩
      · exact h.com k e he
    ordd := h.ordd
    ooo := h.ooo
    lo := h.lo
    nxt := h.nxt
    quo := by
      intro hx k e hkc h1 h2
      simp only [addVote_get] at h1
      rw [if_neg (fun x => hkc x.symm)] at h1
      exact h.quo hx k e (fun x => x) h1 h2 }

theorem held_of_hasPrepared {r : Replica} {k : Key} (h : r.hasPrepared k = true) : Held r k := by
  unfold Replica.hasPrepared at h
  rw [Bool.and_eq_true] at h
  exact Option.isSome_iff_exists.1 h.1

theorem CI.processCommit {r : Replica} (h : CI cfg v (fun _ => False) r) (c : Commit) (w : Node) :
    CI cfg v (fun _ => False) (r.processCommit cfg c w) := by
  unfold Replica.processCommit
  split
  · exact h
  · next ha =>
    have ha : r.admits c.viewNo c.seqNo = true := by simpa using ha
    split
    · exact h.congr (fun _ x => x) rfl rfl rfl rfl rfl
    · next hp =>
      split
      · exact h
      · split
        · exact h
        · exact h.addToCommits c w (admits_iff _ _ _ ha).1 (held_of_hasPrepared (by simpa using hp))

theorem CI.dequeueCommits {r : Replica} (h : CI cfg v (fun _ => False) r) (k : Key) :
    CI cfg v (fun _ => False) (r.dequeueCommits cfg k) := by
  unfold Replica.dequeueCommits
  split
  · exact h
  · next q hq =>
    split
    · exact h
    · have hfold : ∀ (q : List (Commit × Node)) (r : Replica), CI cfg v (fun _ => False) r →
          CI cfg v (fun _ => False) (q.foldl (fun r e => r.processCommit cfg e.1 e.2) r) := by
        intro q
        induction q with
        | nil => intro r h; exact h
        | cons e q ih => intro r h; exact ih _ (h.processCommit _ _)
      have h1 := hfold q { r with commWait := r.commWait.set k [] } (h.congr (fun _ x => x) rfl rfl rfl rfl rfl)
      exact h1.congr (fun _ x => x) rfl rfl rfl rfl rfl

theorem CI.tryCommit {r : Replica} (h : CI cfg v (fun _ => False) r) (k : Key) (hv : k.1 = r.view)
    (hk : Held r k) : CI cfg v (fun _ => False) (r.tryCommit cfg k) := by
  unfold Replica.tryCommit
  split
  · exact h
  · split
    · exact h
    · unfold Replica.doCommit
      simp only
      refine CI.addToCommits ?_ _ _ hv hk
      exact h.congr (fun _ x => x) rfl rfl rfl rfl rfl

theorem CI.addToPrepares {r : Replica} (h : CI cfg v (fun _ => False) r) (p : Prepare) (w : Node)
    (hv : p.key.1 = r.view) (hk : Held r p.key) : CI cfg v (fun _ => False) (r.addToPrepares cfg p w) := by
  unfold Replica.addToPrepares
  simp only
  have h0 : CI cfg v (fun _ => False) { r with prepares := addVote r.prepares p.key p w } :=
    h.congr (fun _ x => x) rfl rfl rfl rfl rfl
  have h1 := h0.dequeueCommits p.key
  have f := frame_dequeueCommits (cfg := cfg) { r with prepares := addVote r.prepares p.key p w } p.key
  refine h1.tryCommit p.key (hv.trans f.view.symm) ?_
  unfold Held; rw [f.getPP]; exact hk

/-- The invariants of the prepare side: an accepted PRE-PREPARE was answered by
an own PREPARE (but for `ex`), and a quorum of PREPAREs by an own COMMIT. -/
structure PI (cfg : Cfg) (ex : Key → Prop) (r : Replica) : Prop where
  own : ∀ k pp, ¬ ex k → r.recvPP.get? k = some pp → hasVote r.prepares k cfg.name = true
  com : ∀ k e, r.prepares.get? k = some e → cfg.pq ≤ e.1.length → hasVote r.commits k cfg.name = true

theorem PI.congr {r r' : Replica} {ex : Key → Prop} (h : PI cfg ex r) (h1 : r'.recvPP = r.recvPP) (h2 : r'.prepares = r.prepares)
    (h3 : ∀ k w, hasVote r.commits k w = true → hasVote r'.commits k w = true) : PI cfg ex r' where
  own := by rw [h1, h2]; exact h.own
  com := by rw [h2]; exact fun k e a b => h3 _ _ (h.com k e a b)

theorem tryCommit_vote {r : Replica} (k : Key) (h : hasQuorum r.prepares k cfg.pq = true) :
    hasVote (r.tryCommit cfg k).commits k cfg.name = true := by
  unfold Replica.tryCommit
  rw [h]
  simp only [Bool.not_true, Bool.false_eq_true, if_false]
  split
  · assumption
  · unfold Replica.doCommit
    simp only
    unfold Replica.addToCommits
    refine (frame_tryOrder _ _).votes _ _ ?_
    exact addVote_hasVote_self _ _ _ _

/-- What the code that counts PREPAREs and COMMITs leaves alone. -/
structure Fr (r r' : Replica) : Prop where
  view : r'.view = r.view
  waiting : r'.waiting = r.waiting
  prevCert : r'.prevCert = r.prevCert
  part : r'.participating = r.participating
  low : r'.lowWM = r.lowWM
  high : r'.highWM = r.highWM
  sentPP : r'.sentPP = r.sentPP
  recvPP : r'.recvPP = r.recvPP
  pv : ∀ k w, hasVote r.prepares k w = true → hasVote r'.prepares k w = true
  cv : ∀ k w, hasVote r.commits k w = true → hasVote r'.commits k w = true
  out : ∀ m ∈ r.out, m ∈ r'.out
  lo : r.lastOrdered.2 ≤ r'.lastOrdered.2

theorem Fr.refl (r : Replica) : Fr r r :=
  ⟨rfl, rfl, rfl, rfl, rfl, rfl, rfl, rfl, fun _ _ h => h, fun _ _ h => h, fun _ h => h, Nat.le_refl _⟩

theorem Fr.trans {a b c : Replica} (h : Fr a b) (g : Fr b c) : Fr a c :=
  ⟨g.view.trans h.view, g.waiting.trans h.waiting, g.prevCert.trans h.prevCert, g.part.trans h.part,
   g.low.trans h.low, g.high.trans h.high, g.sentPP.trans h.sentPP, g.recvPP.trans h.recvPP,
   fun k w x => g.pv k w (h.pv k w x), fun k w x => g.cv k w (h.cv k w x),
   fun m x => g.out m (h.out m x), Nat.le_trans h.lo g.lo⟩

theorem Fr.getPP {a b : Replica} (h : Fr a b) (k : Key) : b.getPP k = a.getPP k := by
  unfold Replica.getPP; rw [h.sentPP, h.recvPP]

theorem Fr.held {a b : Replica} (h : Fr a b) (k : Key) : Held b k ↔ Held a k := by
  unfold Held; rw [h.getPP]

/-- Replace parts that the frame does not speak of. -/
theorem Fr.same {r r' : Replica} (h1 : r'.view = r.view) (h2 : r'.waiting = r.waiting) (h3 : r'.prevCert = r.prevCert)
    (h4 : r'.participating = r.participating) (h5 : r'.lowWM = r.lowWM) (h6 : r'.highWM = r.highWM)
    (h7 : r'.sentPP = r.sentPP) (h8 : r'.recvPP = r.recvPP) (h9 : r'.prepares = r.prepares)
    (h10 : r'.commits = r.commits) (h11 : ∀ m ∈ r.out, m ∈ r'.out) (h12 : r'.lastOrdered = r.lastOrdered) : Fr r r' :=
  ⟨h1, h2, h3, h4, h5, h6, h7, h8, by rw [h9]; exact fun _ _ h => h, by rw [h10]; exact fun _ _ h => h, h11,
    by rw [h12]; exact Nat.le_refl _⟩

theorem fr_order (r : Replica) (k : Key) (h : r.lastOrdered.2 < k.2) : Fr r (r.order k) := by
  unfold Replica.order; split
  · exact .refl r
  · exact ⟨rfl, rfl, rfl, rfl, rfl, rfl, rfl, rfl, fun _ _ h => h, fun _ _ h => h, fun _ h => h, Nat.le_of_lt h⟩

theorem fr_tryOrder (r : Replica) (c : Commit) : Fr r (r.tryOrder cfg c).1 := by
  unfold Replica.tryOrder
  split
  · exact .refl r
  · split
    · exact .refl r
    · next ha =>
      have ha : r.lastOrdered.2 < c.seqNo := by
        rw [Bool.not_eq_true, alreadyOrdered_false] at ha; exact ha
      split
      · exact .same rfl rfl rfl rfl rfl rfl rfl rfl rfl rfl (fun _ h => h) rfl
      · exact fr_order r _ ha

theorem fr_addToCommits (r : Replica) (c : Commit) (w : Node) : Fr r (r.addToCommits cfg c w) := by
  unfold Replica.addToCommits
  refine Fr.trans (b := { r with commits := addVote r.commits c.key c w }) ?_ (fr_tryOrder _ _)
  exact ⟨rfl, rfl, rfl, rfl, rfl, rfl, rfl, rfl, fun _ _ h => h, fun _ _ h => addVote_hasVote _ _ _ _ _ _ h,
    fun _ h => h, Nat.le_refl _⟩

theorem fr_processCommit (r : Replica) (c : Commit) (w : Node) : Fr r (r.processCommit cfg c w) := by
  unfold Replica.processCommit
  split
  · exact .refl r
  · split
    · exact .same rfl rfl rfl rfl rfl rfl rfl rfl rfl rfl (fun _ h => h) rfl
    · split
      · exact .refl r
      · split
        · exact .refl r
        · exact fr_addToCommits r c w

theorem fr_foldCommits (q : List (Commit × Node)) (r : Replica) :
    Fr r (q.foldl (fun r e => r.processCommit cfg e.1 e.2) r) := by
  induction q generalizing r with
  | nil => exact .refl r
  | cons e q ih => exact (fr_processCommit r _ _).trans (ih _)

theorem fr_dequeueCommits (r : Replica) (k : Key) : Fr r (r.dequeueCommits cfg k) := by
  unfold Replica.dequeueCommits
  split
  · exact .refl r
  · next q hq =>
    split
    · exact .refl r
    · have h0 : Fr r { r with commWait := r.commWait.set k [] } :=
        .same rfl rfl rfl rfl rfl rfl rfl rfl rfl rfl (fun _ h => h) rfl
      have h1 := h0.trans (fr_foldCommits (cfg := cfg) q _)
      exact h1.trans (.same rfl rfl rfl rfl rfl rfl rfl rfl rfl rfl (fun _ h => h) rfl)

theorem fr_tryCommit (r : Replica) (k : Key) : Fr r (r.tryCommit cfg k) := by
  unfold Replica.tryCommit
  split
  · exact .refl r
  · split
    · exact .refl r
    · unfold Replica.doCommit
      simp only
      refine Fr.trans ?_ (fr_addToCommits _ _ _)
      exact .same rfl rfl rfl rfl rfl rfl rfl rfl rfl rfl (fun _ h => List.mem_append.2 (.inl h)) rfl

theorem fr_addToPrepares (r : Replica) (p : Prepare) (w : Node) : Fr r (r.addToPrepares cfg p w) := by
  unfold Replica.addToPrepares
  simp only
  refine Fr.trans (b := { r with prepares := addVote r.prepares p.key p w }) ?_
    ((fr_dequeueCommits _ _).trans (fr_tryCommit _ _))
  exact ⟨rfl, rfl, rfl, rfl, rfl, rfl, rfl, rfl, fun _ _ h => addVote_hasVote _ _ _ _ _ _ h, fun _ _ h => h,
    fun _ h => h, Nat.le_refl _⟩

theorem fr_processPrepare (r : Replica) (p : Prepare) (w : Node) : Fr r (r.processPrepare cfg p w) := by
  have q : Fr r (r.enqueuePrepare p w) := .same rfl rfl rfl rfl rfl rfl rfl rfl rfl rfl (fun _ h => h) rfl
  unfold Replica.processPrepare
  split
  · exact .refl r
  · split
    · exact .refl r
    · split
      · exact .refl r
      · split
        · split
          · split
            · exact q
            · exact .refl r
          · exact q
        · split
          · exact .refl r
          · exact fr_addToPrepares r p w

theorem fr_foldPrepares (q : List (Prepare × Node)) (r : Replica) :
    Fr r (q.foldl (fun r e => r.processPrepare cfg e.1 e.2) r) := by
  induction q generalizing r with
  | nil => exact .refl r
  | cons e q ih => exact (fr_processPrepare r _ _).trans (ih _)

theorem fr_dequeuePrepares (r : Replica) (k : Key) : Fr r (r.dequeuePrepares cfg k) := by
  unfold Replica.dequeuePrepares
  split
  · exact .refl r
  · next q hq =>
    have h0 : Fr r { r with prepWait := r.prepWait.set k [] } :=
      .same rfl rfl rfl rfl rfl rfl rfl rfl rfl rfl (fun _ h => h) rfl
    have h1 := h0.trans (fr_foldPrepares (cfg := cfg) q _)
    exact h1.trans (.same rfl rfl rfl rfl rfl rfl rfl rfl rfl rfl (fun _ h => h) rfl)

theorem fr_tryPrepare (r : Replica) (pp : PrePrepare) : Fr r (r.tryPrepare cfg pp) := by
  unfold Replica.tryPrepare
  split
  · exact .refl r
  · unfold Replica.doPrepare
    simp only
    refine Fr.trans ?_ (fr_addToPrepares _ _ _)
    exact .same rfl rfl rfl rfl rfl rfl rfl rfl rfl rfl (fun _ h => List.mem_append.2 (.inl h)) rfl

/-- Admission lasts until the batch is ordered. -/
theorem Fr.admits {a b : Replica} (h : Fr a b) {u s : Nat} (ha : a.admits u s = true) :
    b.admits u s = true ∨ s ≤ b.lastOrdered.2 := by
  by_cases hs : s ≤ b.lastOrdered.2
  · exact .inr hs
  · left
    have ha := (validate3pc_process a.shared 0 u s).1 (by simpa [Replica.admits] using ha)
    have : (b.shared.validate3pc 0 u s).1 = .process := by
      rw [validate3pc_process]
      simp only [Replica.shared] at ha ⊢
      rw [h.view, h.waiting, h.prevCert, h.part, h.low, h.high]
      have := h.lo
      refine ⟨ha.1, ha.2.1, ha.2.2.1, ha.2.2.2.1, ha.2.2.2.2.1, ha.2.2.2.2.2.1, ha.2.2.2.2.2.2.1, by omega, ?_⟩
      intro x y
      have := ha.2.2.2.2.2.2.2.2 x y
      omega
    simp [Replica.admits, this]

/-! ## The prepare side -/

theorem PI.addToPrepares {r : Replica} {ex : Key → Prop} (h : PI cfg ex r) (p : Prepare) (w : Node) :
    PI cfg (fun k => ex k ∧ ¬ (w = cfg.name ∧ k = p.key)) (r.addToPrepares cfg p w) := by
  unfold Replica.addToPrepares
  simp only
  have f1 := frame_dequeueCommits (cfg := cfg) { r with prepares := addVote r.prepares p.key p w } p.key
  have f2 := fr_dequeueCommits (cfg := cfg) { r with prepares := addVote r.prepares p.key p w } p.key
  generalize hr1 : ({ r with prepares := addVote r.prepares p.key p w } : Replica).dequeueCommits cfg p.key = r1 at f1 f2 ⊢
  have hp : r1.prepares = addVote r.prepares p.key p w := f1.prepares
  have hpt : (r1.tryCommit cfg p.key).prepares = r1.prepares := by
    unfold Replica.tryCommit
    split
    · rfl
    · split
      · rfl
      · unfold Replica.doCommit
        exact (frame_addToCommits _ _ _).prepares
  have f3 := fr_tryCommit (cfg := cfg) r1 p.key
  constructor
  · intro k pp hk hg
    rw [f3.recvPP, f2.recvPP] at hg
    rw [hpt, hp]
    by_cases hx : ex k
    · have : w = cfg.name ∧ k = p.key := Classical.not_not.1 (fun y => hk ⟨hx, y⟩)
      rw [this.1, this.2]; exact addVote_hasVote_self _ _ _ _
    · exact addVote_hasVote _ _ _ _ _ _ (h.own k pp hx hg)
  · intro k e hg hq
    rw [hpt] at hg
    by_cases hkp : k = p.key
    · subst hkp
      refine tryCommit_vote _ ?_
      unfold hasQuorum; rw [hg]; simpa using hq
    · rw [hp, addVote_get, if_neg (fun x => hkp x.symm)] at hg
      exact f3.cv _ _ (f2.cv _ _ (h.com k e hg hq))

theorem PI.weaken {r : Replica} {ex ex' : Key → Prop} (h : PI cfg ex r) (hx : ∀ k, ex k → ex' k) : PI cfg ex' r :=
  ⟨fun k pp hk => h.own k pp (fun x => hk (hx k x)), h.com⟩

/-- Both sides together. -/
structure LI (cfg : Cfg) (v : Nat) (ex : Key → Prop) (r : Replica) : Prop where
  ci : CI cfg v (fun _ => False) r
  pi : PI cfg ex r

theorem LI.addToPrepares {r : Replica} {ex : Key → Prop} (h : LI cfg v ex r) (p : Prepare) (w : Node)
    (hv : p.key.1 = r.view) (hk : Held r p.key) :
    LI cfg v (fun k => ex k ∧ ¬ (w = cfg.name ∧ k = p.key)) (r.addToPrepares cfg p w) :=
  ⟨h.ci.addToPrepares p w hv hk, h.pi.addToPrepares p w⟩

theorem LI.processCommit {r : Replica} (h : LI cfg v ex r) (c : Commit) (w : Node) :
    LI cfg v ex (r.processCommit cfg c w) :=
  ⟨h.ci.processCommit c w, h.pi.congr (frame_processCommit r c w).recvPP (frame_processCommit r c w).prepares
    (frame_processCommit r c w).votes⟩

theorem LI.dequeueCommits {r : Replica} (h : LI cfg v ex r) (k : Key) : LI cfg v ex (r.dequeueCommits cfg k) :=
  ⟨h.ci.dequeueCommits k, h.pi.congr (frame_dequeueCommits r k).recvPP (frame_dequeueCommits r k).prepares
    (frame_dequeueCommits r k).votes⟩

theorem LI.processPrepare {r : Replica} (h : LI cfg v ex r) (p : Prepare) (w : Node) :
    LI cfg v ex (r.processPrepare cfg p w) := by
  have q : LI cfg v ex (r.enqueuePrepare p w) :=
    ⟨h.ci.congr (fun _ x => x) rfl rfl rfl rfl rfl, h.pi.congr rfl rfl (fun _ _ x => x)⟩
  unfold Replica.processPrepare
  split
  · exact h
  · next ha =>
    have ha : r.admits p.viewNo p.seqNo = true := by simpa using ha
    split
    · exact h
    · split
      · exact h
      · split
        · split
          · split
            · exact q
            · exact h
          · exact q
        · next pp hp =>
          split
          · exact h
          · have := h.addToPrepares p w (admits_iff _ _ _ ha).1 ⟨pp, hp⟩
            exact ⟨this.ci, this.pi.weaken (fun _ x => x.1)⟩

theorem LI.dequeuePrepares {r : Replica} (h : LI cfg v ex r) (k : Key) : LI cfg v ex (r.dequeuePrepares cfg k) := by
  unfold Replica.dequeuePrepares
  split
  · exact h
  · next q hq =>
    have hfold : ∀ (q : List (Prepare × Node)) (r : Replica), LI cfg v ex r →
        LI cfg v ex (q.foldl (fun r e => r.processPrepare cfg e.1 e.2) r) := by
      intro q
      induction q with
      | nil => intro r h; exact h
      | cons e q ih => intro r h; exact ih _ (h.processPrepare _ _)
    have h1 := hfold q { r with prepWait := r.prepWait.set k [] }
      ⟨h.ci.congr (fun _ x => x) rfl rfl rfl rfl rfl, h.pi.congr rfl rfl (fun _ _ x => x)⟩
    exact ⟨h1.ci.congr (fun _ x => x) rfl rfl rfl rfl rfl, h1.pi.congr rfl rfl (fun _ _ x => x)⟩

theorem held_setRecv (r : Replica) (k : Key) (pp : PrePrepare) (r' : Replica) (h1 : r'.sentPP = r.sentPP)
    (h2 : r'.recvPP = r.recvPP.set k pp) (j : Key) : Held r' j ↔ Held r j ∨ j = k := by
  rw [held_iff, held_iff, h1, h2]
  simp only [Dict.get?_set]
  by_cases hk : k = j
  · subst hk; simp
  · rw [if_neg hk]
    exact ⟨.inl, fun x => x.resolve_right (fun y => hk y.symm)⟩

theorem held_setSent (r : Replica) (k : Key) (pp : PrePrepare) (r' : Replica) (h1 : r'.recvPP = r.recvPP)
    (h2 : r'.sentPP = r.sentPP.set k pp) (j : Key) : Held r' j ↔ Held r j ∨ j = k := by
  rw [held_iff, held_iff, h1, h2]
  simp only [Dict.get?_set]
  by_cases hk : k = j
  · subst hk; simp
  · rw [if_neg hk]
    exact ⟨.inl, fun x => x.resolve_right (fun y => hk y.symm)⟩

theorem LI.processPrePrepare {r : Replica} (h : LI cfg v (fun _ => False) r) (pp : PrePrepare) (w : Node) (env : PPEnv) :
    LI cfg v (fun _ => False) (r.processPrePrepare cfg pp w env) := by
  unfold Replica.processPrePrepare
  split
  · exact h
  · next ha =>
    have ha : r.admits pp.viewNo pp.seqNo = true := by simpa using ha
    split
    · exact h
    · unfold Replica.processValidPP
      split
      · exact h
      · simp only
        generalize hr0 : (if r.alreadyOrdered pp.seqNo then r
          else { r with batches := (r.batches.filter (fun k => ¬ k = pp.key)) ++ [pp.key] } : Replica) = r0
        have h0 : LI cfg v (fun _ => False) r0 := by
          subst hr0; split
          · exact h
          · exact ⟨h.ci.congr (fun _ x => x) rfl rfl rfl rfl rfl, h.pi.congr rfl rfl (fun _ _ x => x)⟩
        have hv0 : r0.view = r.view := by subst hr0; split <;> rfl
        refine LI.dequeueCommits (LI.dequeuePrepares ?_ _) _
        split
        · unfold Replica.addToSentPP Replica.bumpLastPP
          refine ⟨h0.ci.congr ?_ rfl rfl rfl rfl rfl, h0.pi.congr rfl rfl (fun _ _ x => x)⟩
          intro k hk
          refine (held_setSent r0 pp.key pp _ ?_ ?_ k).2 (.inl hk) <;> rfl
        · unfold Replica.addToPrePrepares Replica.bumpLastPP
          simp only
          generalize hr1 : ({ r0 with recvPP := r0.recvPP.set pp.key pp, preprepared := trackBatch r0.preprepared pp.batchId
                                      lastPP := if pp.seqNo > r0.lastPP then pp.seqNo else r0.lastPP } : Replica) = r1
          have hh : ∀ j, Held r1 j ↔ Held r0 j ∨ j = pp.key := by
            subst hr1; exact held_setRecv r0 pp.key pp _ rfl rfl
          have h1 : LI cfg v (fun k => k = pp.key) r1 := by
            subst hr1
            refine ⟨h0.ci.congr (fun k hk => (hh k).2 (.inl hk)) rfl rfl rfl rfl rfl, ?_, h0.pi.com⟩
            intro k qq hk hg
            simp only [Dict.get?_set] at hg
            rw [if_neg (fun x => hk x.symm)] at hg
            exact h0.pi.own k qq (fun x => x) hg
          have hv1 : r1.view = r.view := by subst hr1; exact hv0
          unfold Replica.tryPrepare
          split
          · next hvote =>
            refine ⟨h1.ci, ?_, h1.pi.com⟩
            intro k qq _ hg
            by_cases hk : k = pp.key
            · subst hk; exact hvote
            · exact h1.pi.own k qq hk hg
          · unfold Replica.doPrepare
            simp only
            have h2 : LI cfg v (fun k => k = pp.key)
                { r1 with out := r1.out ++ [Msg.prepare ⟨pp.viewNo, pp.seqNo, pp.time, pp.content⟩] } :=
              ⟨h1.ci.congr (fun _ x => x) rfl rfl rfl rfl rfl, h1.pi.congr rfl rfl (fun _ _ x => x)⟩
            have h3 := h2.addToPrepares ⟨pp.viewNo, pp.seqNo, pp.time, pp.content⟩ cfg.name
              ((admits_iff _ _ _ ha).1.trans hv1.symm) ((hh _).2 (.inr rfl))
            exact ⟨h3.ci, h3.pi.weaken (fun k x => x.2 ⟨rfl, x.1⟩)⟩

theorem LI.createBatch {r : Replica} (h : LI cfg v (fun _ => False) r) (b : NewBatch) :
    LI cfg v (fun _ => False) (r.createBatch cfg b) := by
  unfold Replica.createBatch
  split
  · exact h
  · unfold Replica.addToSentPP Replica.bumpLastPP
    simp only
    refine ⟨h.ci.congr ?_ rfl rfl rfl rfl rfl, h.pi.congr rfl rfl (fun _ _ x => x)⟩
    intro k hk
    rw [held_iff] at hk ⊢
    simp only [Dict.get?_set]
    rcases hk with ⟨x, hx⟩ | hk
    · left
      split
      · exact ⟨_, rfl⟩
      · exact ⟨x, hx⟩
    · exact .inr hk

/-! ## The timer for COMMITs out of order -/

/-- What the loop over the stashed COMMITs keeps. -/
structure OS (cfg : Cfg) (v : Nat) (r : Replica) (s : Replica × Key × List Key) : Prop where
  ci : CI cfg v (fun _ => False) s.1
  lo : s.2.1 = s.1.lastOrdered
  fr : Fr r s.1
  prepares : s.1.prepares = r.prepares
  commits : s.1.commits = r.commits
  ooo : s.1.outOfOrder = r.outOfOrder
  del : s.1.view = v → ∀ k ∈ s.2.2, k.1 < v ∨ k.2 ≤ s.1.lastOrdered.2
  logm : ∀ pp ∈ r.ordLog, pp ∈ s.1.ordLog
  log : ∀ t, r.lastOrdered.2 < t → t ≤ s.1.lastOrdered.2 → ∃ pp, r.getPP (r.view, t) = some pp ∧ pp ∈ s.1.ordLog
  adv : s.1.lastOrdered = r.lastOrdered ∨ r.lastOrdered.2 < s.1.lastOrdered.2

theorem get?_of_quorum {μ : Type} {d : Dict Key (List Node × μ)} {k : Key} {q : Nat} (hq : 0 < q)
    (h : hasQuorum d k q = true) : ∃ e, d.get? k = some e ∧ q ≤ e.1.length := by
  unfold hasQuorum at h
  cases hg : d.get? k with
  | none => rw [hg] at h; simp only [ge_iff_le, decide_eq_true_eq] at h; omega
  | some e =>
    obtain ⟨vs, m⟩ := e
    rw [hg] at h
    exact ⟨_, rfl, by simpa using h⟩

theorem OS.next {r : Replica} {s : Replica × Key × List Key} (hn : 0 < cfg.cq) (h : OS cfg v r s)
    (e : Key × Commit) (he : e ∈ r.outOfOrder) :
    OS cfg v r (Replica.orderStashed cfg s e) ∧
    s.1.lastOrdered.2 ≤ (Replica.orderStashed cfg s e).1.lastOrdered.2 ∧
    (s.1.view = v → e.1.1 = v → s.1.lastOrdered.1 = v → e.1.2 = s.1.lastOrdered.2 + 1 →
      (∃ x, s.1.commits.get? e.1 = some x ∧ cfg.cq ≤ x.1.length) →
      e.1.2 ≤ (Replica.orderStashed cfg s e).1.lastOrdered.2) := by
  obtain ⟨r1, lo, del⟩ := s
  have hlo : lo = r1.lastOrdered := h.lo
  have hey := h.ci.ooo e (by rw [h.ooo]; exact he)
  have hes : e.2.seqNo = e.1.2 := congrArg Prod.snd hey.1
  unfold Replica.orderStashed
  simp only
  split
  · next hlt =>
    refine ⟨{ h with del := ?_ }, Nat.le_refl _, ?_⟩
    · intro hx k hk
      rcases List.mem_append.1 hk with hk | hk
      · exact h.del hx k hk
      · simp only [List.mem_singleton] at hk
        subst hk
        have := h.ci.lo (Nat.le_of_eq hx)
        rw [hlo] at hlt
        simp only at this
        exact .inl (by omega)
    · intro a b c
      rw [hlo] at hlt
      omega
  · next hlt =>
    split
    · next ho =>
      have hle : e.1.2 ≤ r1.lastOrdered.2 := by
        rw [Bool.or_eq_true] at ho
        rcases ho with ho | ho
        · exact h.ci.ordd _ (List.contains_iff_mem.1 ho)
        · rw [alreadyOrdered_iff] at ho; omega
      refine ⟨{ h with del := ?_ }, Nat.le_refl _, fun _ _ _ _ _ => hle⟩
      intro hx k hk
      rcases List.mem_append.1 hk with hk | hk
      · exact h.del hx k hk
      · simp only [List.mem_singleton] at hk
        subst hk
        exact .inr hle
    · next ho =>
      have hgt : r1.lastOrdered.2 < e.1.2 := by
        rw [Bool.not_eq_true, Bool.or_eq_false_iff, alreadyOrdered_false] at ho
        omega
      split
      · next hc =>
        have hnx : e.1.2 = r1.lastOrdered.2 + 1 := by
          rw [hlo] at hc
          simp only [Bool.or_eq_true, Bool.and_eq_true, beq_iff_eq, decide_eq_true_eq] at hc
          omega
        by_cases hq : hasQuorum r1.commits e.2.key cfg.cq = true
        · -- it is ordered
          obtain ⟨x, hx1, hx2⟩ := get?_of_quorum hn hq
          rw [hey.1] at hx1
          obtain ⟨hheld, hview⟩ := h.ci.com _ _ hx1
          have ht : r1.tryOrder cfg e.2 = (r1.order e.1, true) := by
            unfold Replica.tryOrder
            rw [hq]
            simp only [Bool.not_true, Bool.false_eq_true, if_false]
            rw [if_neg (by rw [alreadyOrdered_iff]; omega), if_neg ?_, hey.1]
            unfold Replica.allPrevOrdered
            rw [hey.1]
            have : (r1.lastOrdered.2 == e.1.2 - 1) = true := by rw [beq_iff_eq]; omega
            rw [this]; simp
          rw [ht]
          simp only [if_true]
          obtain ⟨c1, c2⟩ := h.ci.order e.1 hview hgt hheld
          obtain ⟨pp, hpp⟩ := hheld
          have hlog : (r1.order e.1).ordLog = r1.ordLog ++ [pp] := by
            unfold Replica.order; rw [hpp]; rfl
          have hooo : (r1.order e.1).outOfOrder = r1.outOfOrder := by
            unfold Replica.order; rw [hpp]; rfl
          have hcom : (r1.order e.1).commits = r1.commits := by
            unfold Replica.order; rw [hpp]; rfl
          have hrv : r1.view = r.view := h.fr.view
          refine ⟨⟨{ c1 with quo := fun hx k e _ => c1.quo hx k e (fun x => x.1.elim) }, c2.symm,
            h.fr.trans (fr_order _ _ hgt), (frame_order _ _).prepares.trans h.prepares, hcom.trans h.commits,
            hooo.trans h.ooo, ?_, ?_, ?_, ?_⟩, ?_, ?_⟩
          · intro hx k hk
            rcases List.mem_append.1 hk with hk | hk
            · rcases h.del ((frame_order _ _).view.symm.trans hx) k hk with g | g
              · exact .inl g
              · right; rw [c2]; simp only at g; omega
            · simp only [List.mem_singleton] at hk
              subst hk
              exact .inr (by rw [c2]; exact Nat.le_refl _)
          · intro p hp; rw [hlog]; exact List.mem_append.2 (.inl (h.logm p hp))
          · intro t h1 h2
            rw [c2] at h2
            rw [hlog]
            by_cases ht : t ≤ r1.lastOrdered.2
            · obtain ⟨p, p1, p2⟩ := h.log t h1 ht
              exact ⟨p, p1, List.mem_append.2 (.inl p2)⟩
            · have : t = e.1.2 := by omega
              subst this
              refine ⟨pp, ?_, List.mem_append.2 (.inr (List.mem_singleton.2 rfl))⟩
              rw [← h.fr.getPP]
              have : (r.view, e.1.2) = e.1 := by rw [← hrv, ← hview]
              rw [this]; exact hpp
          · right
            rw [c2]
            have := h.fr.lo
            simp only at this
            omega
          · rw [c2]; omega
          · intro _ _ _ _ _; rw [c2]; exact Nat.le_refl _
        · -- no quorum any more
          have ht : r1.tryOrder cfg e.2 = (r1, false) := by
            unfold Replica.tryOrder
            rw [Bool.not_eq_true] at hq
            rw [hq]; simp
          rw [ht]
          refine ⟨h, Nat.le_refl _, ?_⟩
          rintro _ _ _ _ ⟨x, x1, x2⟩
          exfalso
          apply hq
          unfold hasQuorum
          rw [hey.1, x1]; simpa using x2
      · next hc =>
        refine ⟨h, Nat.le_refl _, ?_⟩
        intro a b c d _
        exfalso
        apply hc
        rw [hlo]
        simp only [Bool.or_eq_true, Bool.and_eq_true, beq_iff_eq]
        left; omega

theorem OS.fold {r : Replica} (hn : 0 < cfg.cq) (q : List (Key × Commit)) (hq : ∀ e ∈ q, e ∈ r.outOfOrder)
    {s : Replica × Key × List Key} (h : OS cfg v r s) :
    OS cfg v r (q.foldl (Replica.orderStashed cfg) s) ∧
      s.1.lastOrdered.2 ≤ (q.foldl (Replica.orderStashed cfg) s).1.lastOrdered.2 := by
  induction q generalizing s with
  | nil => exact ⟨h, Nat.le_refl _⟩
  | cons e q ih =>
    obtain ⟨h1, h2, -⟩ := h.next hn e (hq e List.mem_cons_self)
    obtain ⟨h3, h4⟩ := ih (fun x hx => hq x (List.mem_cons_of_mem _ hx)) h1
    exact ⟨h3, Nat.le_trans h2 h4⟩

theorem OS.start {r : Replica} (h : CI cfg v (fun _ => False) r) : OS cfg v r (r, r.lastOrdered, []) where
  ci := h
  lo := rfl
  fr := .refl r
  prepares := rfl
  commits := rfl
  ooo := rfl
  del := by simp
  logm := fun _ h => h
  log := by intro t a b; simp only at b; omega
  adv := .inl rfl

/-- What one run of the timer does. -/
structure Passed (cfg : Cfg) (v : Nat) (r r' : Replica) : Prop where
  fr : Fr r r'
  prepares : r'.prepares = r.prepares
  commits : r'.commits = r.commits
  logm : ∀ pp ∈ r.ordLog, pp ∈ r'.ordLog
  log : ∀ t, r.lastOrdered.2 < t → t ≤ r'.lastOrdered.2 → ∃ pp, r.getPP (r.view, t) = some pp ∧ pp ∈ r'.ordLog
  next : r.participating = true → r.view = v →
    (∃ x, r.commits.get? (v, r.lastOrdered.2 + 1) = some x ∧ cfg.cq ≤ x.1.length) →
    r.lastOrdered.2 < r'.lastOrdered.2

theorem CI.processOutOfOrder {r : Replica} (hn : 0 < cfg.cq) (h : CI cfg v (fun _ => False) r) :
    CI cfg v (fun _ => False) (r.processOutOfOrder cfg) ∧ Passed cfg v r (r.processOutOfOrder cfg) := by
  unfold Replica.processOutOfOrder
  split
  · next hp =>
    refine ⟨h, .refl r, rfl, rfl, fun _ x => x, ?_, ?_⟩
    · intro t a b; omega
    · intro x; rw [x] at hp; simp at hp
  · simp only
    obtain ⟨o, -⟩ := (OS.start h).fold hn r.outOfOrder (fun e he => he)
    have hnext : r.view = v →
        (∃ x, r.commits.get? (v, r.lastOrdered.2 + 1) = some x ∧ cfg.cq ≤ x.1.length) →
        r.lastOrdered.2 < (r.outOfOrder.foldl (Replica.orderStashed cfg) (r, r.lastOrdered, [])).1.lastOrdered.2 := by
      rintro hv ⟨x, x1, x2⟩
      have hk : (v, r.lastOrdered.2 + 1) ∈ r.outOfOrder.keys := by
        rcases h.quo hv _ _ (fun y => y) x1 x2 with g | g
        · simp only at g; omega
        · exact g
      have hl1 := h.nxt hv _ hk hv.symm rfl
      obtain ⟨c, hc⟩ := (Dict.mem_keys _ _).1 hk
      obtain ⟨y, z, hyz⟩ := List.append_of_mem (Dict.mem_of_get? hc)
      rw [hyz, List.foldl_append, List.foldl_cons]
      have hsub : ∀ e ∈ y, e ∈ r.outOfOrder := fun e he => by rw [hyz]; exact List.mem_append.2 (.inl he)
      have hsub2 : ∀ e ∈ z, e ∈ r.outOfOrder := fun e he => by
        rw [hyz]; exact List.mem_append.2 (.inr (List.mem_cons_of_mem _ he))
      obtain ⟨o1, -⟩ := (OS.start h).fold hn y hsub
      generalize y.foldl (Replica.orderStashed cfg) (r, r.lastOrdered, []) = s1 at o1
      obtain ⟨o2, m2, n2⟩ := o1.next hn (((v, r.lastOrdered.2 + 1) : Key), c) (Dict.mem_of_get? hc)
      obtain ⟨-, m3⟩ := o2.fold hn z hsub2
      rcases o1.adv with a | a
      · have := n2 (o1.fr.view.trans hv) rfl (by rw [a, hl1, hv]) (by rw [a]) ⟨x, by rw [o1.commits]; exact x1, x2⟩
        simp only at this
        omega
      · omega
    refine ⟨?_, ⟨?_, o.prepares, o.commits, o.logm, o.log, fun _ => hnext⟩⟩
    · have keys : ∀ k, k ∈ Dict.keys ((r.outOfOrder.foldl (Replica.orderStashed cfg) (r, r.lastOrdered, [])).1.outOfOrder.filter
          (fun e => !(r.outOfOrder.foldl (Replica.orderStashed cfg) (r, r.lastOrdered, [])).2.2.contains e.1)) ↔
          k ∈ (r.outOfOrder.foldl (Replica.orderStashed cfg) (r, r.lastOrdered, [])).1.outOfOrder.keys ∧
          k ∉ (r.outOfOrder.foldl (Replica.orderStashed cfg) (r, r.lastOrdered, [])).2.2 := by
        intro k
        rw [Dict.mem_keys, Dict.mem_keys]
        rw [Dict.get?_filter _ (fun k => !(r.outOfOrder.foldl (Replica.orderStashed cfg) (r, r.lastOrdered, [])).2.2.contains k)]
        by_cases hk : k ∈ (r.outOfOrder.foldl (Replica.orderStashed cfg) (r, r.lastOrdered, [])).2.2
        · simp [hk]
        · simp [hk]
      exact {
        com := o.ci.com
        ordd := o.ci.ordd
        ooo := fun e he => o.ci.ooo e (List.mem_filter.1 he).1
        lo := o.ci.lo
        quo := by
          intro hx k e _ h1 h2
          rcases o.ci.quo hx k e (fun y => y) h1 h2 with g | g
          · exact .inl g
          · by_cases hk : k ∈ (r.outOfOrder.foldl (Replica.orderStashed cfg) (r, r.lastOrdered, [])).2.2
            · rcases o.del hx k hk with d | d
              · have := (o.ci.com k e h1).2
                rw [hx] at this
                omega
              · exact .inl d
            · exact .inr ((keys k).2 ⟨g, hk⟩)
        nxt := fun hx k hk => o.ci.nxt hx k ((keys k).1 hk).1 }
    · exact o.fr.trans (.same rfl rfl rfl rfl rfl rfl rfl rfl rfl rfl (fun _ h => h) rfl)

/-! ## Housekeeping -/

theorem get?_dropped {β : Type} (r : Replica) (p : Key → Bool) (d : Dict Key β) (k : Key) :
    Dict.get? (d.filter (fun e => !(p e.1 && (r.getPP e.1).isSome))) k =
      if (p k && (r.getPP k).isSome) then none else d.get? k := by
  rw [Dict.get?_filter d (fun k => !(p k && (r.getPP k).isSome))]
  cases (p k && (r.getPP k).isSome) <;> rfl

theorem getPP_dropKeys (r : Replica) (p : Key → Bool) (k : Key) :
    (r.dropKeys p).getPP k = if (p k && (r.getPP k).isSome) then none else r.getPP k := by
  unfold Replica.dropKeys
  rw [Replica.getPP]
  simp only [get?_dropped]
  split
  · next x hx =>
    split at hx
    · cases hx
    · next hc => rw [if_neg hc]; unfold Replica.getPP; rw [hx]
  · next hx =>
    split
    · rfl
    · next hc => rw [if_neg hc] at hx; unfold Replica.getPP; rw [hx]

theorem held_dropKeys {r : Replica} {p : Key → Bool} {k : Key} (h : Held r k) (hp : p k = false) :
    Held (r.dropKeys p) k := by
  obtain ⟨pp, h⟩ := h
  exact ⟨pp, by rw [getPP_dropKeys, hp]; simpa using h⟩

theorem LI.dropKeys {r : Replica} (h : LI cfg v (fun _ => False) r) (p : Key → Bool) :
    LI cfg v (fun _ => False) (r.dropKeys p) := by
  have keep : ∀ {β : Type} {d : Dict Key β} {k : Key} {e : β},
      Dict.get? (d.filter (fun e => !(p e.1 && (r.getPP e.1).isSome))) k = some e →
      (p k && (r.getPP k).isSome) = false ∧ d.get? k = some e := by
    intro β d k e hk
    rw [get?_dropped] at hk
    split at hk
    · cases hk
    · next hc => exact ⟨by simpa using hc, hk⟩
  have votes : ∀ {μ : Type} {d : Dict Key (List Node × μ)} {k : Key} {w : Node},
      (p k && (r.getPP k).isSome) = false → hasVote d k w = true →
      hasVote (d.filter (fun e => !(p e.1 && (r.getPP e.1).isSome))) k w = true := by
    intro μ d k w hk hv
    unfold hasVote at hv ⊢
    rw [get?_dropped, hk]
    exact hv
  refine ⟨⟨?_, h.ci.ordd, h.ci.ooo, h.ci.lo, ?_, h.ci.nxt⟩, ?_, ?_⟩
  · intro k e hk
    obtain ⟨h1, h2⟩ := keep hk
    obtain ⟨⟨pp, hpp⟩, hv⟩ := h.ci.com k e h2
    refine ⟨⟨pp, ?_⟩, hv⟩
    rw [getPP_dropKeys, h1]; simpa using hpp
  · intro hx k e _ hk
    obtain ⟨h1, h2⟩ := keep hk
    exact h.ci.quo hx k e (fun y => y) h2
  · intro k pp _ hk
    obtain ⟨h1, h2⟩ := keep hk
    exact votes h1 (h.pi.own k pp (fun y => y) h2)
  · intro k e hk hq
    obtain ⟨h1, h2⟩ := keep hk
    exact votes h1 (h.pi.com k e h2 hq)

theorem LI.step {r : Replica} (hn : 0 < cfg.cq) (h : LI cfg v (fun _ => False) r) (e : Event)
    (hc : ∀ k l, e = .caughtUp k l → k.1 ≤ v ∧ (r.view = v → k.1 = v)) :
    LI cfg v (fun _ => False) (r.step cfg e) := by
  cases e with
  | deliver m w env =>
    cases m with
    | prePrepare pp => exact h.processPrePrepare pp w env
    | prepare p => exact h.processPrepare p w
    | commit c => exact h.processCommit c w
  | createBatch b => exact h.createBatch b
  | orderStashed =>
    obtain ⟨h1, h2⟩ := h.ci.processOutOfOrder hn
    exact ⟨h1, h.pi.congr h2.fr.recvPP h2.prepares h2.fr.cv⟩
  | stabilize till =>
    unfold Replica.step
    simp only
    split
    · unfold Replica.gc
      simp only
      have c := h.dropKeys (fun k => k.2 ≤ till)
      exact ⟨{ c.ci with ordd := fun k hk => c.ci.ordd k (List.mem_filter.1 hk).1 }, ⟨c.pi.own, c.pi.com⟩⟩
    · exact h
  | watermarks low high => exact ⟨h.ci.congr (fun _ x => x) rfl rfl rfl rfl rfl, h.pi.congr rfl rfl (fun _ _ x => x)⟩
  | startCatchup =>
    unfold Replica.step Replica.startCatchup Replica.revertUnordered
    simp only
    split
    · exact h
    · exact ⟨h.ci.congr (fun _ x => x) rfl rfl rfl rfl rfl, h.pi.congr rfl rfl (fun _ _ x => x)⟩
  | caughtUp k restored =>
    obtain ⟨hk1, hk2⟩ := hc k restored rfl
    unfold Replica.step Replica.caughtUp
    simp only
    split
    · next hk =>
      have h0 : LI cfg v (fun _ => False) (r.setLastOrdered k) := by
        refine ⟨⟨h.ci.com, ?_, h.ci.ooo, fun _ => hk1, ?_, ?_⟩, ⟨h.pi.own, h.pi.com⟩⟩
        · intro j hj
          have := h.ci.ordd j hj
          simp only [Replica.setLastOrdered]; omega
        · intro hx j e hj h1 h2
          rcases h.ci.quo hx j e hj h1 h2 with g | g
          · left; simp only [Replica.setLastOrdered]; omega
          · exact .inr g
        · intro hx _ _ _ _
          have hx' : r.view = v := hx
          show k.1 = r.view
          rw [hk2 hx', hx']
      have h1 := h0.dropKeys (fun j => j.2 ≤ k.2)
      exact ⟨h1.ci.congr (fun _ x => x) rfl rfl rfl rfl rfl, h1.pi.congr rfl rfl (fun _ _ x => x)⟩
    · exact ⟨h.ci.congr (fun _ x => x) rfl rfl rfl rfl rfl, h.pi.congr rfl rfl (fun _ _ x => x)⟩
  | startViewChange u =>
    unfold Replica.step Replica.startViewChange Replica.revertUnordered
    simp only
    split
    · exact h
    · next hu =>
      refine ⟨⟨?_, ?_, ?_, ?_, ?_, ?_⟩, ?_, ?_⟩
      · intro k e hk; simp at hk
      · intro k hk; exact h.ci.ordd k (List.mem_filter.1 hk).1
      · intro e he
        have := h.ci.ooo e he
        exact ⟨this.1, by simp only; omega⟩
      · intro hx; exact h.ci.lo (by simp only at hx; omega)
      · intro _ k e _ hk; simp at hk
      · intro _ k hk h1 _
        obtain ⟨c, hc⟩ := (Dict.mem_keys _ _).1 hk
        have := (h.ci.ooo _ (Dict.mem_of_get? hc)).2
        simp only at h1 this
        omega
      · intro k pp _ hk; simp at hk
      · intro k e hk; simp at hk
  | acceptNewView =>
    unfold Replica.step Replica.acceptNewView
    simp only
    split
    · exact ⟨h.ci.congr (fun _ x => x) rfl rfl rfl rfl rfl, h.pi.congr rfl rfl (fun _ _ x => x)⟩
    · exact h
  | oldViewPP pp env =>
    unfold Replica.step Replica.oldViewPP
    simp only
    split
    · exact h.processPrePrepare _ _ _
    · exact h

/-- Every catchup brought the replica to a batch of a view up to `v`, and those
that ended in view `v` to a batch of view `v`. -/
def Caught (cfg : Cfg) (v : Nat) (evs : List Event) : Prop :=
  ∀ a b k l, evs = a ++ .caughtUp k l :: b → k.1 ≤ v ∧ ((run cfg a).view = v → k.1 = v)

theorem run_snoc (es : List Event) (e : Event) : run cfg (es ++ [e]) = (run cfg es).step cfg e := by
  unfold run; rw [List.foldl_append]; rfl

theorem Caught.prefix {evs a b : List Event} (h : Caught cfg v evs) (he : evs = a ++ b) : Caught cfg v a := by
  intro x y k l hx
  exact h x (y ++ b) k l (by rw [he, hx]; simp)

theorem LI.run (hn : 0 < cfg.cq) (evs : List Event) (hc : Caught cfg v evs) : LI cfg v (fun _ => False) (run cfg evs) := by
  induction evs using snoc_induction with
  | nil =>
    refine ⟨⟨?_, ?_, ?_, ?_, ?_, ?_⟩, ?_, ?_⟩
    · intro k e hk; simp [TPC.run] at hk
    · intro k hk; simp [TPC.run] at hk
    · intro e he; simp [TPC.run] at he
    · intro _; exact Nat.zero_le _
    · intro _ k e _ hk; simp [TPC.run] at hk
    · intro _ k hk; simp [TPC.run, Dict.keys] at hk
    · intro k pp _ hk; simp [TPC.run] at hk
    · intro k e hk; simp [TPC.run] at hk
  | snoc es e ih =>
    rw [run_snoc]
    refine (ih (hc.prefix rfl)).step hn e ?_
    intro k l he
    exact hc es [] k l (by rw [he])

end Verif.TPC
