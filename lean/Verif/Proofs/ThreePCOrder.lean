import Verif.Proofs.ThreePC
import Verif.Proofs.Count
/-!
# Contiguous ordering by one replica
-/
namespace Verif.TPC

variable {cfg : Cfg}

/-- From `r` to `r'` exactly the batches `last + 1, …, last + n` of the current
view were ordered, for some `n`. -/
structure Adv (r r' : Replica) : Prop where
  ex : ∃ new : List PrePrepare, r'.ordLog = r.ordLog ++ new ∧
    new.map (·.seqNo) = List.range' (r.lastOrdered.2 + 1) new.length ∧
    r'.lastOrdered.2 = r.lastOrdered.2 + new.length ∧ ∀ o ∈ new, o.viewNo = r.view
  view : r'.view = r.view

theorem Adv.refl' {r r' : Replica} (h1 : r'.ordLog = r.ordLog) (h2 : r'.lastOrdered = r.lastOrdered)
    (h3 : r'.view = r.view) : Adv r r' :=
  ⟨⟨[], by simp [h1], by simp, by simp [h2], by simp⟩, h3⟩

theorem Adv.refl (r : Replica) : Adv r r := .refl' rfl rfl rfl

theorem Adv.trans {a b c : Replica} (h : Adv a b) (g : Adv b c) : Adv a c := by
  obtain ⟨⟨n1, x1, x2, x3, x4⟩, xv⟩ := h
  obtain ⟨⟨n2, y1, y2, y3, y4⟩, yv⟩ := g
  refine ⟨⟨n1 ++ n2, by rw [y1, x1, List.append_assoc], ?_, by rw [y3, x3, List.length_append]; omega, ?_⟩,
    yv.trans xv⟩
  · rw [List.map_append, x2, y2, x3, List.length_append,
      ← List.range'_append_1, show a.lastOrdered.2 + n1.length + 1 = a.lastOrdered.2 + 1 + n1.length by omega]
  · intro o ho
    rcases List.mem_append.1 ho with ho | ho
    · exact x4 o ho
    · rw [y4 o ho, xv]

/-- From `r` to `r'` only batches above the last ordered one were ordered, in
increasing order. -/
def Up (r r' : Replica) : Prop :=
  r.lastOrdered.2 ≤ r'.lastOrdered.2 ∧ ∃ new : List PrePrepare, r'.ordLog = r.ordLog ++ new ∧
    (new.map (·.seqNo)).Pairwise (· < ·) ∧
    ∀ o ∈ new, r.lastOrdered.2 < o.seqNo ∧ o.seqNo ≤ r'.lastOrdered.2

theorem Up.refl' {r r' : Replica} (h1 : r'.ordLog = r.ordLog) (h2 : r.lastOrdered.2 ≤ r'.lastOrdered.2) : Up r r' :=
  ⟨h2, [], by simp [h1], by simp, by simp⟩

theorem Up.trans {a b c : Replica} (h : Up a b) (g : Up b c) : Up a c := by
  obtain ⟨x0, n1, x1, x2, x3⟩ := h
  obtain ⟨y0, n2, y1, y2, y3⟩ := g
  refine ⟨Nat.le_trans x0 y0, n1 ++ n2, by rw [y1, x1, List.append_assoc], ?_, ?_⟩
  · rw [List.map_append, List.pairwise_append]
    refine ⟨x2, y2, ?_⟩
    intro s hs t ht
    obtain ⟨p, hp, e⟩ := List.mem_map.1 hs
    obtain ⟨q, hq, e'⟩ := List.mem_map.1 ht
    have := x3 p hp; have := y3 q hq; omega
  · intro o ho
    rcases List.mem_append.1 ho with ho | ho
    · have := x3 o ho; omega
    · have := y3 o ho; omega

/-- A PRE-PREPARE for the key is held. -/
def Held (r : Replica) (k : Key) : Prop := ∃ pp, r.getPP k = some pp

theorem held_iff (r : Replica) (k : Key) :
    Held r k ↔ (∃ v, r.sentPP.get? k = some v) ∨ ∃ v, r.recvPP.get? k = some v := by
  refine ⟨?_, getPP_of⟩
  rintro ⟨pp, h⟩
  exact (getPP_some h).imp (fun h => ⟨_, h⟩) (fun h => ⟨_, h⟩)

/-- The bookkeeping of applied batches (holds as long as no mid-view catchup
was started). -/
structure Bat (r : Replica) : Prop where
  le : r.lastOrdered.2 ≤ r.lastPP
  nodup : r.batches.Nodup
  sub : ∀ k ∈ r.batches, r.lastOrdered.2 < k.2 → k.1 = r.view ∧ k.2 ≤ r.lastPP
  cov : ∀ t, r.lastOrdered.2 < t → t ≤ r.lastPP → (r.view, t) ∈ r.batches ∧ Held r (r.view, t)
  top : ∀ s, Held r (r.view, s) → s ≤ r.lastPP

/-- The invariant behind contiguous ordering. `nc`: the history has no mid-view
catchup. -/
structure Ctg (cfg : Cfg) (nc : Prop) (r : Replica) : Prop where
  ppk : ∀ k pp, r.getPP k = some pp → pp.key = k
  rpk : ∀ k pp, r.recvPP.get? k = some pp → pp.key = k
  kv : ∀ k, Held r k → k.1 = r.view
  contig : (nc ∨ cfg.primary r.view ≠ cfg.name) → ∀ s t, Held r (r.view, s) → r.lastOrdered.2 < t → t < s →
    Held r (r.view, t)
  ordd : ∀ k ∈ r.ordered, k.2 ≤ r.lastOrdered.2
  bat : nc → Bat r

variable {nc : Prop}

/-- Changes to votes, queues and the network do not matter. -/
theorem Ctg.congr {r r' : Replica} (h : Ctg cfg nc r) (h1 : r'.view = r.view) (h2 : r'.lastOrdered = r.lastOrdered)
    (h3 : r'.lastPP = r.lastPP) (h4 : r'.sentPP = r.sentPP) (h5 : r'.recvPP = r.recvPP)
    (h6 : r'.batches = r.batches) (h7 : r'.ordered = r.ordered) : Ctg cfg nc r' := by
  have hh : ∀ k, Held r' k ↔ Held r k := by intro k; unfold Held Replica.getPP; rw [h4, h5]
  exact {
    ppk := by
      intro k pp hk
      unfold Replica.getPP at hk; rw [h4, h5] at hk
      exact h.ppk k pp hk
    rpk := by rw [h5]; exact h.rpk
    kv := fun k hk => by rw [h1]; exact h.kv k ((hh k).1 hk)
    contig := by
      intro a s t b c d
      rw [h1] at a b ⊢; rw [h2] at c; rw [hh] at b ⊢
      exact h.contig a s t b c d
    ordd := by rw [h7, h2]; exact h.ordd
    bat := fun hn => {
      le := by rw [h2, h3]; exact (h.bat hn).le
      nodup := by rw [h6]; exact (h.bat hn).nodup
      sub := by rw [h6, h2, h1, h3]; exact (h.bat hn).sub
      cov := by
        intro t a b
        rw [h2] at a; rw [h3] at b; rw [h1, h6, hh]
        exact (h.bat hn).cov t a b
      top := by
        intro s a
        rw [h1, hh] at a; rw [h3]
        exact (h.bat hn).top s a } }

/-- `Ctg` and the replica's advance, together with what the vote-counting code
leaves alone. -/
structure Go (cfg : Cfg) (nc : Prop) (r r' : Replica) : Prop where
  ctg : Ctg cfg nc r'
  adv : (nc ∨ cfg.primary r.view ≠ cfg.name) → Adv r r'
  view : r'.view = r.view
  up : Up r r'

theorem Go.refl {r : Replica} (h : Ctg cfg nc r) : Go cfg nc r r := ⟨h, fun _ => .refl r, rfl, .refl' rfl (Nat.le_refl _)⟩

theorem Go.trans {a b c : Replica} (h : Go cfg nc a b) (g : Go cfg nc b c) : Go cfg nc a c :=
  ⟨g.ctg, fun x => (h.adv x).trans (g.adv (by rw [h.view]; exact x)), g.view.trans h.view, h.up.trans g.up⟩

theorem Go.congr {r r' : Replica} (h : Ctg cfg nc r) (h1 : r'.view = r.view) (h2 : r'.lastOrdered = r.lastOrdered)
    (h3 : r'.lastPP = r.lastPP) (h4 : r'.sentPP = r.sentPP) (h5 : r'.recvPP = r.recvPP)
    (h6 : r'.batches = r.batches) (h7 : r'.ordered = r.ordered) (h8 : r'.ordLog = r.ordLog) : Go cfg nc r r' :=
  ⟨h.congr h1 h2 h3 h4 h5 h6 h7, fun _ => .refl' h8 h2 h1, h1, .refl' h8 (by rw [h2]; exact Nat.le_refl _)⟩

theorem mem_keys_of_held {r : Replica} {k : Key} (h : Held r k) :
    k ∈ r.sentPP.keys ++ r.recvPP.keys ++ r.prepares.keys ++ r.commits.keys := by
  rcases (held_iff r k).1 h with h | h
  · simp [(Dict.mem_keys _ _).2 h]
  · simp [(Dict.mem_keys _ _).2 h]

theorem Ctg.setLast {r : Replica} (h : Ctg cfg nc r) (k : Key) (od : List Key)
    (hl : r.lastOrdered.2 < k.2) (hod : ∀ j ∈ od, j.2 ≤ k.2) (r' : Replica) (h1 : r'.view = r.view)
    (h2 : r'.lastOrdered = k) (h3 : r'.lastPP = if k.2 > r.lastPP then k.2 else r.lastPP)
    (h4 : r'.sentPP = r.sentPP) (h5 : r'.recvPP = r.recvPP) (h6 : r'.batches = r.batches)
    (h7 : r'.ordered = od) : Ctg cfg nc r' := by
  have hh : ∀ k, Held r' k ↔ Held r k := by intro k; unfold Held Replica.getPP; rw [h4, h5]
  have hle : r.lastPP ≤ r'.lastPP ∧ k.2 ≤ r'.lastPP ∧ (r'.lastPP = k.2 ∨ r'.lastPP = r.lastPP) := by
    rw [h3]; split <;> omega
  exact {
    ppk := by
      intro k pp hk
      unfold Replica.getPP at hk; rw [h4, h5] at hk
      exact h.ppk k pp hk
    rpk := by rw [h5]; exact h.rpk
    kv := fun k hk => by rw [h1]; exact h.kv k ((hh k).1 hk)
    contig := by
      intro a s t b c d
      rw [h1] at a b ⊢; rw [h2] at c; rw [hh] at b ⊢
      exact h.contig a s t b (by omega) d
    ordd := by rw [h7, h2]; exact hod
    bat := fun hn => {
      le := by rw [h2]; exact hle.2.1
      nodup := by rw [h6]; exact (h.bat hn).nodup
      sub := by
        intro j a b
        rw [h6] at a; rw [h2] at b; rw [h1]
        have := (h.bat hn).sub j a (by omega)
        exact ⟨this.1, by omega⟩
      cov := by
        intro t a b
        rw [h2] at a; rw [h1, h6, hh]
        exact (h.bat hn).cov t (by omega) (by omega)
      top := by
        intro s a
        rw [h1, hh] at a
        have := (h.bat hn).top s a
        omega } }

theorem Ctg.tryOrder {r : Replica} (h : Ctg cfg nc r) (c : Commit) : Go cfg nc r (r.tryOrder cfg c).1 := by
  unfold Replica.tryOrder
  split
  · exact .refl h
  · split
    · exact .refl h
    · next ha =>
      rw [alreadyOrdered_iff] at ha
      split
      · exact .congr h rfl rfl rfl rfl rfl rfl rfl rfl
      · next hprev =>
        unfold Replica.order
        cases hp : r.getPP c.key with
        | none => exact .refl h
        | some pp =>
          simp only
          have hheld : Held r c.key := ⟨pp, hp⟩
          have hv : c.viewNo = r.view := h.kv _ hheld
          have hkey := h.ppk _ _ hp
          have e1 : pp.viewNo = c.viewNo := congrArg Prod.fst hkey
          have e2 : pp.seqNo = c.seqNo := congrArg Prod.snd hkey
          have hck : c.key = (r.view, c.seqNo) := by rw [← hv]; rfl
          refine ⟨?_, ?_, rfl, ?_⟩
          · exact h.setLast c.key _ (by show r.lastOrdered.2 < c.seqNo; omega) (by
              intro k hk
              rcases List.mem_append.1 hk with hk | hk
              · have := h.ordd k hk; simp only [Commit.key]; omega
              · rw [List.mem_singleton] at hk; subst hk; exact Nat.le_refl _) _ rfl rfl rfl rfl rfl rfl rfl
          · intro hx
            -- the key ordered is the next one
            have hnext : c.seqNo = r.lastOrdered.2 + 1 := by
              apply Classical.byContradiction
              intro hne
              have h2 : r.lastOrdered.2 + 1 < c.seqNo := by omega
              have hprev : r.allPrevOrdered c.key = true := by
                have : 1 < c.seqNo := by omega
                simpa [this] using hprev
              unfold Replica.allPrevOrdered at hprev
              rw [Bool.or_eq_true] at hprev
              rcases hprev with hprev | hprev
              · have hprev : r.lastOrdered.2 = c.seqNo - 1 := by simpa [Commit.key] using hprev
                omega
              · rw [List.all_eq_true] at hprev
                have hgap : Held r (r.view, r.lastOrdered.2 + 1) :=
                  h.contig hx c.seqNo _ (by rw [← hck]; exact hheld) (by omega) h2
                have := hprev _ (mem_keys_of_held hgap)
                rw [hck] at this
                simp only [beq_self_eq_true, Bool.true_and] at this
                have hno : r.ordered.contains (r.view, r.lastOrdered.2 + 1) = false := by
                  rw [Bool.eq_false_iff]
                  intro hc
                  have := h.ordd _ (List.contains_iff_mem.1 hc)
                  simp only at this
                  omega
                rw [hno] at this
                simp at this
                omega
            refine ⟨⟨[pp], rfl, ?_, ?_, ?_⟩, rfl⟩
            · simp [e2, hnext]
            · simp only [Replica.setLastOrdered, Commit.key, List.length_singleton]; exact hnext
            · intro o ho
              rw [List.mem_singleton] at ho; subst ho
              rw [e1, hv]
          · refine ⟨?_, [pp], rfl, by simp, ?_⟩
            · simp only [Replica.setLastOrdered, Commit.key]; omega
            · intro o ho
              rw [List.mem_singleton] at ho; subst ho
              simp only [Replica.setLastOrdered, Commit.key]; omega

/-! ## The handlers -/

theorem Ctg.addToCommits {r : Replica} (h : Ctg cfg nc r) (c : Commit) (w : Node) :
    Go cfg nc r (r.addToCommits cfg c w) := by
  unfold Replica.addToCommits
  have g := Go.congr (r' := { r with commits := addVote r.commits c.key c w }) h rfl rfl rfl rfl rfl rfl rfl rfl
  exact g.trans (g.ctg.tryOrder c)

theorem Ctg.processCommit {r : Replica} (h : Ctg cfg nc r) (c : Commit) (w : Node) :
    Go cfg nc r (r.processCommit cfg c w) := by
  unfold Replica.processCommit
  split
  · exact .refl h
  · split
    · exact .congr h rfl rfl rfl rfl rfl rfl rfl rfl
    · split
      · exact .refl h
      · split
        · exact .refl h
        · exact h.addToCommits c w

theorem Ctg.dequeueCommits {r : Replica} (h : Ctg cfg nc r) (k : Key) :
    Go cfg nc r (r.dequeueCommits cfg k) := by
  unfold Replica.dequeueCommits
  split
  · exact .refl h
  · next q hq =>
    split
    · exact .refl h
    · have hfold : ∀ (q : List (Commit × Node)) (r : Replica), Ctg cfg nc r →
          Go cfg nc r (q.foldl (fun r e => r.processCommit cfg e.1 e.2) r) := by
        intro q
        induction q with
        | nil => intro r h; exact .refl h
        | cons e q ih =>
          intro r h
          have g := h.processCommit e.1 e.2
          exact g.trans (ih _ g.ctg)
      have g0 := Go.congr (r' := { r with commWait := r.commWait.set k [] }) h rfl rfl rfl rfl rfl rfl rfl rfl
      have g1 := g0.trans (hfold q _ g0.ctg)
      exact g1.trans (.congr g1.ctg rfl rfl rfl rfl rfl rfl rfl rfl)

theorem Ctg.tryCommit {r : Replica} (h : Ctg cfg nc r) (k : Key) : Go cfg nc r (r.tryCommit cfg k) := by
  unfold Replica.tryCommit
  split
  · exact .refl h
  · split
    · exact .refl h
    · unfold Replica.doCommit
      simp only
      refine (fun g => g.trans (g.ctg.addToCommits _ _)) (?_ : Go cfg nc r _)
      exact Go.congr h rfl rfl rfl rfl rfl rfl rfl rfl

theorem Ctg.addToPrepares {r : Replica} (h : Ctg cfg nc r) (p : Prepare) (w : Node) :
    Go cfg nc r (r.addToPrepares cfg p w) := by
  unfold Replica.addToPrepares
  simp only
  have g := Go.congr (r' := { r with prepares := addVote r.prepares p.key p w }) h rfl rfl rfl rfl rfl rfl rfl rfl
  have g1 := g.trans (g.ctg.dequeueCommits p.key)
  exact g1.trans (g1.ctg.tryCommit p.key)

theorem Ctg.processPrepare {r : Replica} (h : Ctg cfg nc r) (p : Prepare) (w : Node) :
    Go cfg nc r (r.processPrepare cfg p w) := by
  have hq : Go cfg nc r (r.enqueuePrepare p w) := .congr h rfl rfl rfl rfl rfl rfl rfl rfl
  unfold Replica.processPrepare
  split
  · exact .refl h
  · split
    · exact .refl h
    · split
      · exact .refl h
      · split
        · split
          · split
            · exact hq
            · exact .refl h
          · exact hq
        · split
          · exact .refl h
          · exact h.addToPrepares p w

theorem Ctg.dequeuePrepares {r : Replica} (h : Ctg cfg nc r) (k : Key) :
    Go cfg nc r (r.dequeuePrepares cfg k) := by
  unfold Replica.dequeuePrepares
  split
  · exact .refl h
  · next q hq =>
    have hfold : ∀ (q : List (Prepare × Node)) (r : Replica), Ctg cfg nc r →
        Go cfg nc r (q.foldl (fun r e => r.processPrepare cfg e.1 e.2) r) := by
      intro q
      induction q with
      | nil => intro r h; exact .refl h
      | cons e q ih =>
        intro r h
        have g := h.processPrepare e.1 e.2
        exact g.trans (ih _ g.ctg)
    have g0 := Go.congr (r' := { r with prepWait := r.prepWait.set k [] }) h rfl rfl rfl rfl rfl rfl rfl rfl
    have g1 := g0.trans (hfold q _ g0.ctg)
    exact g1.trans (.congr g1.ctg rfl rfl rfl rfl rfl rfl rfl rfl)

theorem Ctg.tryPrepare {r : Replica} (h : Ctg cfg nc r) (pp : PrePrepare) :
    Go cfg nc r (r.tryPrepare cfg pp) := by
  unfold Replica.tryPrepare
  split
  · exact .refl h
  · unfold Replica.doPrepare
    simp only
    have g := Go.congr (r' := { r with out := r.out ++ [Msg.prepare ⟨pp.viewNo, pp.seqNo, pp.time, pp.content⟩] })
      h rfl rfl rfl rfl rfl rfl rfl rfl
    exact g.trans (g.ctg.addToPrepares _ _)

/-! ## New PRE-PREPAREs -/

/-- The last key of a non-empty list of keys of one view. -/
theorem lastKey_spec (v : Nat) (ks : List Key) (hv : ∀ k ∈ ks, k.1 = v) :
    (ks = [] ∧ lastKey ks = none) ∨ ∃ k ∈ ks, lastKey ks = some k ∧ ∀ j ∈ ks, j.2 ≤ k.2 := by
  have fold : ∀ (ks : List Key) (m : Key), m.1 = v → (∀ k ∈ ks, k.1 = v) →
      ∃ k, (k = m ∨ k ∈ ks) ∧ ks.foldl (fun m k => match m with
        | none => some k
        | some j => if j.1 < k.1 || (j.1 == k.1 && j.2 < k.2) then some k else some j) (some m) = some k ∧
        m.2 ≤ k.2 ∧ ∀ j ∈ ks, j.2 ≤ k.2 := by
    intro ks
    induction ks with
    | nil => intro m _ _; exact ⟨m, .inl rfl, rfl, Nat.le_refl _, by simp⟩
    | cons a ks ih =>
      intro m hm hk
      have ha := hk a List.mem_cons_self
      have hk' : ∀ k ∈ ks, k.1 = v := fun k h => hk k (List.mem_cons_of_mem _ h)
      rw [List.foldl_cons]
      simp only
      split
      · next hc =>
        obtain ⟨k, h1, h2, h3, h4⟩ := ih a ha hk'
        refine ⟨k, .inr ?_, h2, ?_, ?_⟩
        · rcases h1 with h1 | h1
          · rw [h1]; exact List.mem_cons_self
          · exact List.mem_cons_of_mem _ h1
        · have : m.2 < a.2 := by
            rw [hm, ha] at hc
            simpa using hc
          omega
        · intro j hj
          rcases List.mem_cons.1 hj with hj | hj
          · rw [hj]; exact h3
          · exact h4 j hj
      · next hc =>
        obtain ⟨k, h1, h2, h3, h4⟩ := ih m hm hk'
        refine ⟨k, h1.imp id (List.mem_cons_of_mem _), h2, h3, ?_⟩
        intro j hj
        rcases List.mem_cons.1 hj with hj | hj
        · have : a.2 ≤ m.2 := by
            rw [hm, ha] at hc
            simpa using hc
          rw [hj]; omega
        · exact h4 j hj
  cases ks with
  | nil => exact .inl ⟨rfl, rfl⟩
  | cons a ks =>
    refine .inr ?_
    obtain ⟨k, h1, h2, h3, h4⟩ := fold ks a (hv a List.mem_cons_self) (fun k h => hv k (List.mem_cons_of_mem _ h))
    refine ⟨k, ?_, h2, ?_⟩
    · rcases h1 with h1 | h1
      · rw [h1]; exact List.mem_cons_self
      · exact List.mem_cons_of_mem _ h1
    · intro j hj
      rcases List.mem_cons.1 hj with hj | hj
      · rw [hj]; exact h3
      · exact h4 j hj

/-- `__last_pp_3pc` is the last ordered key or the highest PRE-PREPARE held. -/
theorem lastPP3pc_spec {r : Replica} (hv : ∀ k, Held r k → k.1 = r.view) :
    r.lastOrdered.2 ≤ r.lastPP3pc.2 ∧ (∀ s, Held r (r.view, s) → s ≤ r.lastPP3pc.2) ∧
    (r.lastPP3pc.2 = r.lastOrdered.2 ∨ Held r (r.view, r.lastPP3pc.2)) := by
  have hs : ∀ k ∈ r.sentPP.keys, k.1 = r.view := fun k hk =>
    hv k ((held_iff r k).2 (.inl ((Dict.mem_keys _ _).1 hk)))
  have hr : ∀ k ∈ r.recvPP.keys, k.1 = r.view := fun k hk =>
    hv k ((held_iff r k).2 (.inr ((Dict.mem_keys _ _).1 hk)))
  have hin : ∀ s, Held r (r.view, s) → (r.view, s) ∈ r.sentPP.keys ∨ (r.view, s) ∈ r.recvPP.keys := by
    intro s h
    exact ((held_iff r _).1 h).imp (Dict.mem_keys _ _).2 (Dict.mem_keys _ _).2
  have out1 : ∀ k ∈ r.sentPP.keys, Held r (r.view, k.2) := by
    intro k hk
    rw [← hs k hk]
    exact (held_iff r _).2 (.inl ((Dict.mem_keys _ _).1 hk))
  have out2 : ∀ k ∈ r.recvPP.keys, Held r (r.view, k.2) := by
    intro k hk
    rw [← hr k hk]
    exact (held_iff r _).2 (.inr ((Dict.mem_keys _ _).1 hk))
  -- enough: `top` bounds every PRE-PREPARE of a positive number and is held
  have main : ∀ top : Option Key, (∀ s, 0 < s → Held r (r.view, s) → ∃ k, top = some k ∧ s ≤ k.2) →
      (∀ k, top = some k → Held r (r.view, k.2)) → ∀ x : Key,
      (x = match top with
        | none => r.lastOrdered
        | some k => if k.2 > r.lastOrdered.2 then k else r.lastOrdered) →
      r.lastOrdered.2 ≤ x.2 ∧ (∀ s, Held r (r.view, s) → s ≤ x.2) ∧
        (x.2 = r.lastOrdered.2 ∨ Held r (r.view, x.2)) := by
    intro top h1 h2 x hx
    cases top with
    | none =>
      simp only at hx; subst hx
      refine ⟨Nat.le_refl _, fun s hs => ?_, .inl rfl⟩
      cases s with
      | zero => exact Nat.zero_le _
      | succ s => obtain ⟨k, hk, -⟩ := h1 _ (Nat.succ_pos s) hs; cases hk
    | some k =>
      simp only at hx
      have hb : ∀ s, Held r (r.view, s) → s ≤ k.2 := by
        intro s hs
        cases s with
        | zero => exact Nat.zero_le _
        | succ s => obtain ⟨j, hj, hle⟩ := h1 _ (Nat.succ_pos s) hs; cases hj; exact hle
      split at hx <;> subst hx
      · exact ⟨by omega, hb, .inr (h2 _ rfl)⟩
      · exact ⟨Nat.le_refl _, fun s hs => by have := hb s hs; omega, .inl rfl⟩
  unfold Replica.lastPP3pc
  rcases lastKey_spec r.view _ hs with ⟨s1, s2⟩ | ⟨k1, s1, s2, s3⟩ <;>
    rcases lastKey_spec r.view _ hr with ⟨t1, t2⟩ | ⟨k2, t1, t2, t3⟩ <;>
    simp only [s2, t2]
  · have hm := main none (by
      intro s _ h
      have := hin s h
      rw [s1, t1] at this; simp at this) (by simp) r.lastOrdered rfl
    exact ⟨hm.1, hm.2.1, .inl trivial⟩
  · refine main (if k2.2 > 0 then some k2 else none) ?_ ?_ _ rfl
    · intro s h0 h
      have := hin s h
      rw [s1] at this
      simp at this
      have := t3 _ this
      simp only at this
      exact ⟨k2, if_pos (by omega), this⟩
    · intro k hk
      split at hk
      · cases hk; exact out2 _ t1
      · cases hk
  · refine main (some k1) ?_ ?_ _ rfl
    · intro s h0 h
      have := hin s h
      rw [t1] at this
      simp at this
      exact ⟨k1, rfl, s3 _ this⟩
    · intro k hk
      cases hk; exact out1 _ s1
  · refine main (if k2.2 > k1.2 then some k2 else some k1) ?_ ?_ _ rfl
    · intro s h0 h
      have hb : s ≤ k1.2 ∨ s ≤ k2.2 := (hin s h).imp (fun h => s3 _ h) (fun h => t3 _ h)
      split
      · exact ⟨k2, rfl, by omega⟩
      · exact ⟨k1, rfl, by omega⟩
    · intro k hk
      split at hk <;> cases hk
      · exact out2 _ t1
      · exact out1 _ s1

/-- Storing the next PRE-PREPARE (`hnext`), or one at or below the last ordered
key (`hold`). -/
theorem Ctg.store {r : Replica} (h : Ctg cfg nc r) (pp : PrePrepare) (hv : pp.viewNo = r.view)
    (r' : Replica) (h1 : r'.view = r.view) (h2 : r'.lastOrdered = r.lastOrdered)
    (h3 : r'.lastPP = if pp.seqNo > r.lastPP then pp.seqNo else r.lastPP)
    (h4 : r'.sentPP = r.sentPP ∨ r'.sentPP = r.sentPP.set pp.key pp)
    (h5 : r'.recvPP = r.recvPP ∨ r'.recvPP = r.recvPP.set pp.key pp)
    (h45 : r'.sentPP = r.sentPP.set pp.key pp ∨ r'.recvPP = r.recvPP.set pp.key pp)
    (h7 : r'.ordered = r.ordered) (h8 : r'.ordLog = r.ordLog)
    (hc : nc ∨ cfg.primary r.view ≠ cfg.name → (pp.seqNo ≤ r.lastOrdered.2 ∧ r'.batches = r.batches) ∨
      (r.lastOrdered.2 < pp.seqNo ∧ (r'.batches = (r.batches.filter (fun k => ¬ k = pp.key)) ++ [pp.key] ∨
          (r.lastPP < pp.seqNo ∧ r'.batches = r.batches ++ [pp.key])) ∧
        (∀ t, r.lastOrdered.2 < t → t < pp.seqNo → Held r (r.view, t)) ∧
        (nc → pp.seqNo ≤ r.lastPP + 1))) : Go cfg nc r r' := by
  have hkey : pp.key = (r.view, pp.seqNo) := by rw [← hv]; rfl
  have hh : ∀ k, Held r' k ↔ (k = pp.key ∨ Held r k) := by
    intro k
    rw [held_iff, held_iff]
    by_cases e : pp.key = k
    · refine ⟨fun _ => .inl e.symm, fun _ => ?_⟩
      rcases h45 with h | h
      · exact .inl ⟨pp, by rw [h, Dict.get?_set, if_pos e]⟩
      · exact .inr ⟨pp, by rw [h, Dict.get?_set, if_pos e]⟩
    · have e1 : r'.sentPP.get? k = r.sentPP.get? k := by
        rcases h4 with h | h <;> rw [h]
        rw [Dict.get?_set, if_neg e]
      have e2 : r'.recvPP.get? k = r.recvPP.get? k := by
        rcases h5 with h | h <;> rw [h]
        rw [Dict.get?_set, if_neg e]
      rw [e1, e2]
      exact ⟨.inr, fun x => x.resolve_left (fun x => e x.symm)⟩
  refine ⟨?_, fun _ => .refl' h8 h2 h1, h1, .refl' h8 (by rw [h2]; exact Nat.le_refl _)⟩
  exact {
    ppk := by
      intro k q hk
      rcases getPP_some hk with hk | hk
      · rcases h4 with h4 | h4 <;> rw [h4] at hk
        · obtain ⟨x, hx⟩ := getPP_of (r := r) (.inl ⟨q, hk⟩)
          unfold Replica.getPP at hx
          have : r.getPP k = some q := by unfold Replica.getPP; rw [hk]
          exact h.ppk k q this
        · rw [Dict.get?_set] at hk
          split at hk
          · next e => cases hk; exact e
          · have : r.getPP k = some q := by unfold Replica.getPP; rw [hk]
            exact h.ppk k q this
      · rcases h5 with h5 | h5 <;> rw [h5] at hk
        · exact h.rpk k q hk
        · rw [Dict.get?_set] at hk
          split at hk
          · next e => cases hk; exact e
          · exact h.rpk k q hk
    rpk := by
      intro k q hk
      rcases h5 with h5 | h5 <;> rw [h5] at hk
      · exact h.rpk k q hk
      · rw [Dict.get?_set] at hk
        split at hk
        · next e => cases hk; exact e
        · exact h.rpk k q hk
    kv := by
      intro k hk
      rw [h1]
      rcases (hh k).1 hk with e | hk
      · rw [e, hkey]
      · exact h.kv k hk
    contig := by
      intro x s t a b d
      rw [h1] at x a ⊢; rw [h2] at b
      rw [hh] at a ⊢
      rcases a with a | a
      · rw [hkey, Prod.mk.injEq] at a
        rcases hc x with ⟨c1, -⟩ | ⟨-, -, c2, -⟩
        · omega
        · exact .inr (c2 t b (by omega))
      · exact .inr (h.contig x s t a b d)
    ordd := by rw [h7, h2]; exact h.ordd
    bat := fun hn => by
      have hb := h.bat hn
      have hc := hc (.inl hn)
      have hmb : ∀ k, k ∈ r'.batches → k = pp.key ∨ k ∈ r.batches := by
        intro k hk
        rcases hc with ⟨-, hb⟩ | ⟨-, hb | ⟨-, hb⟩, -⟩ <;> rw [hb] at hk
        · exact .inr hk
        · rcases List.mem_append.1 hk with hk | hk
          · exact .inr (List.mem_filter.1 hk).1
          · exact .inl (List.mem_singleton.1 hk)
        · rcases List.mem_append.1 hk with hk | hk
          · exact .inr hk
          · exact .inl (List.mem_singleton.1 hk)
      have hmb' : ∀ k, k ∈ r.batches → k ∈ r'.batches := by
        intro k hk
        rcases hc with ⟨-, hb⟩ | ⟨-, hb | ⟨-, hb⟩, -⟩ <;> rw [hb]
        · exact hk
        · by_cases e : k = pp.key
          · simp [e]
          · exact List.mem_append_left _ (List.mem_filter.2 ⟨hk, by simpa using e⟩)
        · exact List.mem_append_left _ hk
      have hle : r.lastPP ≤ r'.lastPP ∧ pp.seqNo ≤ r'.lastPP ∧
          (r'.lastPP = pp.seqNo ∨ r'.lastPP = r.lastPP) := by rw [h3]; split <;> omega
      exact {
        le := by rw [h2]; have := hb.le; omega
        nodup := by
          rcases hc with ⟨-, e⟩ | ⟨c0, e | ⟨hl, e⟩, -⟩ <;> rw [e]
          · exact hb.nodup
          · rw [List.nodup_append]
            refine ⟨hb.nodup.sublist List.filter_sublist, by simp, ?_⟩
            intro a ha b hb' e
            rw [List.mem_singleton] at hb'
            subst e; subst hb'
            simpa using (List.mem_filter.1 ha).2
          · rw [List.nodup_append]
            refine ⟨hb.nodup, by simp, ?_⟩
            intro a ha b hb' e
            rw [List.mem_singleton] at hb'
            subst e; subst hb'
            have := (hb.sub _ ha c0).2
            simp only [PrePrepare.key] at this
            omega
        sub := by
          intro k a b
          rw [h2] at b; rw [h1]
          rcases hmb k a with e | a
          · subst e; exact ⟨hv, by simp only [PrePrepare.key]; omega⟩
          · have := hb.sub k a b
            exact ⟨this.1, by omega⟩
        cov := by
          intro t a b
          rw [h2] at a
          rw [h1, hh]
          by_cases e : t = pp.seqNo
          · subst e
            refine ⟨?_, .inl hkey.symm⟩
            rcases hc with ⟨c, -⟩ | ⟨-, e | ⟨-, e⟩, -⟩
            · omega
            · rw [e, hkey]; simp
            · rw [e, hkey]; simp
          · have : t ≤ r.lastPP := by
              rcases hc with ⟨c, -⟩ | ⟨-, -, -, c⟩
              · have := hb.le; omega
              · have := c hn; omega
            have := hb.cov t a this
            exact ⟨hmb' _ this.1, .inr this.2⟩
        top := by
          intro s a
          rw [h1, hh] at a
          rcases a with a | a
          · rw [hkey, Prod.mk.injEq] at a; omega
          · have := hb.top s a; omega } }

theorem Ctg.processPrePrepare {r : Replica} (h : Ctg cfg nc r) (pp : PrePrepare) (w : Node) (env : PPEnv) :
    Go cfg nc r (r.processPrePrepare cfg pp w env) := by
  unfold Replica.processPrePrepare
  split
  · exact .refl h
  · next ha =>
    have ha : r.admits pp.viewNo pp.seqNo = true := by simpa using ha
    obtain ⟨a1, a2, a3, a4, -⟩ := admits_iff r _ _ ha
    split
    · exact .refl h
    · next hcan =>
      have hcan : r.canProcessPP cfg pp w env = true := by simpa using hcan
      have hnext : r.lastOrdered.2 < pp.seqNo → pp.seqNo = 1 ∨ pp.seqNo = r.lastPP3pc.2 + 1 := by
        intro hl
        unfold Replica.canProcessPP at hcan
        rw [if_neg (by rw [alreadyOrdered_iff]; omega)] at hcan
        split at hcan
        · cases hcan
        · split at hcan
          · cases hcan
          · split at hcan
            · cases hcan
            · split at hcan
              · cases hcan
              · split at hcan
                · cases hcan
                · split at hcan
                  · cases hcan
                  · split at hcan
                    · cases hcan
                    · next hn =>
                      have hn : r.isNextPP pp.seqNo = true := by simpa using hn
                      unfold Replica.isNextPP at hn
                      rw [Bool.or_eq_true, beq_iff_eq, beq_iff_eq] at hn
                      exact hn
      obtain ⟨l1, l2, l3⟩ := lastPP3pc_spec h.kv
      unfold Replica.processValidPP
      split
      · exact .refl h
      · simp only
        have key : ∀ r1 : Replica, Go cfg nc r r1 →
            Go cfg nc r ((r1.dequeuePrepares cfg pp.key).dequeueCommits cfg pp.key) := by
          intro r1 g1
          have g2 := g1.trans (g1.ctg.dequeuePrepares pp.key)
          exact g2.trans (g2.ctg.dequeueCommits pp.key)
        refine key _ ?_
        -- the batch bookkeeping
        generalize hr0 : (if r.alreadyOrdered pp.seqNo then r
            else { r with batches := (r.batches.filter (fun k => ¬ k = pp.key)) ++ [pp.key] }) = r0
        have ev : r0.view = r.view := by subst hr0; split <;> rfl
        have es : r0.sentPP = r.sentPP := by subst hr0; split <;> rfl
        have er : r0.recvPP = r.recvPP := by subst hr0; split <;> rfl
        have el : r0.lastOrdered = r.lastOrdered := by subst hr0; split <;> rfl
        have ep : r0.lastPP = r.lastPP := by subst hr0; split <;> rfl
        have eo : r0.ordered = r.ordered := by subst hr0; split <;> rfl
        have eg : r0.ordLog = r.ordLog := by subst hr0; split <;> rfl
        have hc : nc ∨ cfg.primary r.view ≠ cfg.name → (pp.seqNo ≤ r.lastOrdered.2 ∧ r0.batches = r.batches) ∨
          (r.lastOrdered.2 < pp.seqNo ∧ (r0.batches = (r.batches.filter (fun k => ¬ k = pp.key)) ++ [pp.key] ∨
              (r.lastPP < pp.seqNo ∧ r0.batches = r.batches ++ [pp.key])) ∧
            (∀ t, r.lastOrdered.2 < t → t < pp.seqNo → Held r (r.view, t)) ∧
            (nc → pp.seqNo ≤ r.lastPP + 1)) := by
          intro x
          by_cases hl : pp.seqNo ≤ r.lastOrdered.2
          · refine .inl ⟨hl, ?_⟩
            rw [← hr0, if_pos ((alreadyOrdered_iff _ _).2 hl)]
          · refine .inr ⟨by omega, .inl ?_, ?_, ?_⟩
            · rw [← hr0, if_neg (fun x => hl ((alreadyOrdered_iff _ _).1 x))]
            · intro t t1 t2
              rcases hnext (by omega) with e | e
              · omega
              · rcases l3 with l3 | l3
                · omega
                · by_cases et : t = r.lastPP3pc.2
                  · rw [et]; exact l3
                  · exact h.contig x _ t l3 t1 (by omega)
            · intro hn
              have hb := h.bat hn
              rcases hnext (by omega) with e | e
              · omega
              · rcases l3 with l3 | l3
                · have := hb.le; omega
                · have := hb.top _ l3; omega
        split
        · exact h.store pp a1 _ ev el (by rw [← ep]; rfl) (.inr (by rw [← es]; rfl)) (.inl er)
            (.inl (by rw [← es]; rfl)) eo eg hc
        · unfold Replica.addToPrePrepares
          simp only
          have g := h.store (r' := ({ r0 with recvPP := r0.recvPP.set pp.key pp, preprepared := trackBatch r0.preprepared pp.batchId } : Replica).bumpLastPP pp.seqNo)
            pp a1 ev el (by rw [← ep]; rfl) (.inl es) (.inr (by rw [← er]; rfl))
            (.inr (by rw [← er]; rfl)) eo eg hc
          exact g.trans (g.ctg.tryPrepare pp)

theorem Ctg.createBatch {r : Replica} (h : Ctg cfg nc r) (b : NewBatch) :
    Go cfg nc r (r.createBatch cfg b) := by
  unfold Replica.createBatch
  split
  · exact .refl h
  · next hcs =>
    have hprim : cfg.primary r.view = cfg.name := by
      apply Classical.byContradiction
      intro hp
      apply hcs
      simp [Replica.canSendBatch, Replica.isPrimary, hp]
    simp only [Replica.addToSentPP, Replica.bumpLastPP]
    refine h.store
      { viewNo := r.view, seqNo := r.lastPP + 1, origView := r.view, time := b.time, reqs := b.reqs
        ledger := b.ledger, poolRoot := b.poolRoot
        content := ⟨cfg.digest b.reqs r.view b.time, b.stateRoot, b.txnRoot, b.auditRoot⟩ } rfl
      _ rfl rfl rfl (.inr rfl) (.inl rfl) (.inl rfl) rfl rfl (fun x => ?_)
    have hb := h.bat (x.resolve_right (fun y => y hprim))
    have := hb.le
    refine .inr ⟨by simp only; omega, .inr ⟨by simp, rfl⟩, ?_, fun _ => Nat.le_refl _⟩
    intro t t1 t2
    simp only at t2
    exact (hb.cov t t1 (by omega)).2

/-! ## Housekeeping -/

theorem Ctg.processOutOfOrder {r : Replica} (h : Ctg cfg nc r) : Go cfg nc r (r.processOutOfOrder cfg) := by
  unfold Replica.processOutOfOrder
  split
  · exact .refl h
  · simp only
    have hfold : ∀ (q : List (Key × Commit)) (s : Replica × Key × List Key), Ctg cfg nc s.1 →
        Go cfg nc s.1 (q.foldl (Replica.orderStashed cfg) s).1 := by
      intro q
      induction q with
      | nil => intro s h; exact .refl h
      | cons e q ih =>
        intro s h
        rw [List.foldl_cons]
        have g : Go cfg nc s.1 (Replica.orderStashed cfg s e).1 := by
          obtain ⟨r, lo, del⟩ := s
          unfold Replica.orderStashed
          simp only
          split
          · exact .refl h
          · split
            · exact .refl h
            · split
              · split
                · exact h.tryOrder _
                · exact h.tryOrder _
              · exact .refl h
        exact g.trans (ih _ g.ctg)
    have g := hfold r.outOfOrder (r, r.lastOrdered, []) h
    exact g.trans (.congr g.ctg rfl rfl rfl rfl rfl rfl rfl rfl)

theorem Ctg.dropKeys {r : Replica} (h : Ctg cfg nc r) (p : Key → Bool)
    (hp : ∀ k, p k = true → k.2 ≤ r.lastOrdered.2) : Ctg cfg nc (r.dropKeys p) := by
  have hget : ∀ {β : Type} (d : Dict Key β) (k : Key),
      Dict.get? (d.filter (fun e => !(p e.1 && (r.getPP e.1).isSome))) k =
        if (p k && (r.getPP k).isSome) then none else d.get? k := by
    intro β d k
    rw [Dict.get?_filter d (fun k => !(p k && (r.getPP k).isSome))]
    cases (p k && (r.getPP k).isSome) <;> rfl
  have hpp : ∀ k, (r.dropKeys p).getPP k = if (p k && (r.getPP k).isSome) then none else r.getPP k := by
    intro k
    unfold Replica.dropKeys
    rw [Replica.getPP]
    simp only [hget]
    split
    · next x hx =>
      split at hx
      · cases hx
      · next hc => rw [if_neg hc]; unfold Replica.getPP; rw [hx]
    · next hx =>
      split
      · rfl
      · next hc => rw [if_neg hc] at hx; unfold Replica.getPP; rw [hx]
  have hh1 : ∀ k, Held (r.dropKeys p) k → Held r k := by
    rintro k ⟨pp, hk⟩
    rw [hpp] at hk
    split at hk
    · cases hk
    · exact ⟨pp, hk⟩
  have hh2 : ∀ k, r.lastOrdered.2 < k.2 → Held r k → Held (r.dropKeys p) k := by
    rintro k hl ⟨pp, hk⟩
    refine ⟨pp, ?_⟩
    rw [hpp, if_neg, hk]
    intro hc
    rw [Bool.and_eq_true] at hc
    have := hp k hc.1
    omega
  exact {
    ppk := by
      intro k pp hk
      rw [hpp] at hk
      split at hk
      · cases hk
      · exact h.ppk k pp hk
    rpk := by
      intro k pp hk
      have hk : Dict.get? (r.recvPP.filter (fun e => !(p e.1 && (r.getPP e.1).isSome))) k = some pp := hk
      rw [hget] at hk
      split at hk
      · cases hk
      · exact h.rpk k pp hk
    kv := fun k hk => h.kv k (hh1 k hk)
    contig := fun x s t a b d => hh2 _ b (h.contig x s t (hh1 _ a) b d)
    ordd := h.ordd
    bat := fun hn => {
      le := (h.bat hn).le
      nodup := (h.bat hn).nodup.sublist List.filter_sublist
      sub := fun k a b => (h.bat hn).sub k (List.mem_filter.1 a).1 b
      cov := by
        intro t a b
        obtain ⟨c1, c2⟩ := (h.bat hn).cov t a b
        refine ⟨List.mem_filter.2 ⟨c1, ?_⟩, hh2 _ a c2⟩
        cases hq : p (r.view, t) with
        | false => refine Bool.not_eq_true' _ ▸ ?_; show (p (r.view, t) && _) = false; rw [hq]; rfl
        | true => have := hp _ hq; simp only at this; have a : r.lastOrdered.2 < t := a; omega
      top := fun s a => (h.bat hn).top s (hh1 _ a) } }

/-- Without mid-view catchups, reverting the unordered batches brings
`lastPrePrepareSeqNo` back to the last ordered one. -/
theorem Bat.revert {r : Replica} (h : Bat r) :
    r.lastPP - (r.batches.filter (fun k => k.2 > r.lastOrdered.2)).length = r.lastOrdered.2 := by
  have h1 : (r.batches.filter (fun k => k.2 > r.lastOrdered.2)).length ≤
      ((List.range' (r.lastOrdered.2 + 1) (r.lastPP - r.lastOrdered.2)).map (fun t => (r.view, t))).length := by
    refine length_le_of_subset (h.nodup.sublist List.filter_sublist) ?_
    intro k hk
    obtain ⟨k1, k2⟩ := List.mem_filter.1 hk
    have k2 : r.lastOrdered.2 < k.2 := by simpa using k2
    obtain ⟨s1, s2⟩ := h.sub k k1 k2
    exact List.mem_map.2 ⟨k.2, by rw [List.mem_range'_1]; omega, by rw [← s1]⟩
  have h2 : ((List.range' (r.lastOrdered.2 + 1) (r.lastPP - r.lastOrdered.2)).map (fun t => (r.view, t))).length ≤
      (r.batches.filter (fun k => k.2 > r.lastOrdered.2)).length := by
    refine length_le_of_subset ?_ ?_
    · rw [List.nodup_iff_pairwise_ne, List.pairwise_map]
      refine List.Pairwise.imp ?_ (List.nodup_iff_pairwise_ne.1 List.nodup_range')
      intro a b hab e
      rw [Prod.mk.injEq] at e
      exact hab e.2
    · intro k hk
      obtain ⟨t, ht, e⟩ := List.mem_map.1 hk
      rw [List.mem_range'_1] at ht
      subst e
      refine List.mem_filter.2 ⟨(h.cov t (by omega) (by omega)).1, decide_eq_true (by simp only; omega)⟩
  have := h.le
  simp only [List.length_map, List.length_range'] at h1 h2
  omega

theorem Ctg.startViewChange {r : Replica} (h : Ctg cfg nc r) (v : Nat) : Ctg cfg nc (r.startViewChange v) := by
  unfold Replica.startViewChange
  split
  · exact h
  · simp only [Replica.revertUnordered]
    have hno : ∀ (r' : Replica), r'.sentPP = [] → r'.recvPP = [] → ∀ k, ¬ Held r' k := by
      intro r' a b k hk
      rw [held_iff, a, b] at hk
      simp at hk
    exact {
      ppk := by intro k pp hk; exact (hno _ rfl rfl k ⟨pp, hk⟩).elim
      rpk := by intro k pp hk; simp at hk
      kv := fun k hk => (hno _ rfl rfl k hk).elim
      contig := fun _ s _ hk => (hno _ rfl rfl _ hk).elim
      ordd := fun k hk => h.ordd k (List.mem_filter.1 hk).1
      bat := fun hn => {
        le := Nat.le_of_eq (h.bat hn).revert.symm
        nodup := List.nodup_nil
        sub := by intro k hk; simp at hk
        cov := by
          intro t a b
          have := (h.bat hn).revert
          simp only at a b
          omega
        top := fun s hk => (hno _ rfl rfl _ hk).elim } }

theorem Ctg.step {r : Replica} (h : Ctg cfg nc r) (e : Event) (he : nc → e ≠ .startCatchup) :
    Ctg cfg nc (r.step cfg e) ∧ Up r (r.step cfg e) ∧ ((∀ k l, e ≠ .caughtUp k l) → (nc ∨ cfg.primary r.view ≠ cfg.name) →
      ∃ new : List PrePrepare, (r.step cfg e).ordLog = r.ordLog ++ new ∧
        new.map (·.seqNo) = List.range' (r.lastOrdered.2 + 1) new.length ∧
        (r.step cfg e).lastOrdered.2 = r.lastOrdered.2 + new.length ∧ ∀ o ∈ new, o.viewNo = r.view) := by
  have go : ∀ r', Go cfg nc r r' → Ctg cfg nc r' ∧ Up r r' ∧ ((∀ k l, e ≠ .caughtUp k l) → (nc ∨ cfg.primary r.view ≠ cfg.name) →
      ∃ new : List PrePrepare, r'.ordLog = r.ordLog ++ new ∧
        new.map (·.seqNo) = List.range' (r.lastOrdered.2 + 1) new.length ∧
        r'.lastOrdered.2 = r.lastOrdered.2 + new.length ∧ ∀ o ∈ new, o.viewNo = r.view) :=
    fun r' g => ⟨g.ctg, g.up, fun _ x => (g.adv x).ex⟩
  have quiet : ∀ r', Ctg cfg nc r' → r'.ordLog = r.ordLog → r'.lastOrdered = r.lastOrdered →
      Ctg cfg nc r' ∧ Up r r' ∧ ((∀ k l, e ≠ .caughtUp k l) → (nc ∨ cfg.primary r.view ≠ cfg.name) →
      ∃ new : List PrePrepare, r'.ordLog = r.ordLog ++ new ∧
        new.map (·.seqNo) = List.range' (r.lastOrdered.2 + 1) new.length ∧
        r'.lastOrdered.2 = r.lastOrdered.2 + new.length ∧ ∀ o ∈ new, o.viewNo = r.view) :=
    fun r' c h1 h2 => ⟨c, .refl' h1 (by rw [h2]; exact Nat.le_refl _), fun _ _ => ⟨[], by simp [h1], by simp, by simp [h2], by simp⟩⟩
  cases e with
  | deliver m w env =>
    cases m with
    | prePrepare pp => exact go _ (h.processPrePrepare pp w env)
    | prepare p => exact go _ (h.processPrepare p w)
    | commit c => exact go _ (h.processCommit c w)
  | createBatch b => exact go _ (h.createBatch b)
  | orderStashed => exact go _ h.processOutOfOrder
  | stabilize till =>
    unfold Replica.step
    simp only
    split
    · next hle =>
      have c := h.dropKeys (fun k => k.2 ≤ till) (fun k hk => by
        have : k.2 ≤ till := of_decide_eq_true hk
        omega)
      refine quiet _ ?_ rfl rfl
      exact { ppk := c.ppk, rpk := c.rpk, kv := c.kv, contig := c.contig, bat := fun hn => { c.bat hn with }
              ordd := fun k hk => c.ordd k (List.mem_filter.1 hk).1 }
    · exact quiet _ h rfl rfl
  | watermarks low high => exact quiet _ (h.congr rfl rfl rfl rfl rfl rfl rfl) rfl rfl
  | startCatchup =>
    unfold Replica.step Replica.startCatchup Replica.revertUnordered
    simp only
    split
    · exact quiet _ h rfl rfl
    · refine quiet _ ?_ rfl rfl
      exact { ppk := h.ppk, rpk := h.rpk, kv := h.kv, contig := h.contig, ordd := h.ordd
              bat := fun hn => (he hn rfl).elim }
  | caughtUp k restored =>
    unfold Replica.step Replica.caughtUp
    simp only
    refine ⟨?_, ?_, fun hk => (hk k restored rfl).elim⟩
    rotate_left
    · split
      · next hk => exact .refl' rfl (Nat.le_of_lt hk)
      · exact .refl' rfl (Nat.le_refl _)
    split
    · next hk =>
      have c1 := h.setLast k r.ordered hk (fun j hj => by have := h.ordd j hj; omega) (r.setLastOrdered k)
        rfl rfl rfl rfl rfl rfl rfl
      have c2 := c1.dropKeys (fun j => j.2 ≤ k.2) (fun j hj => of_decide_eq_true hj)
      exact c2.congr rfl rfl rfl rfl rfl rfl rfl
    · exact h.congr rfl rfl rfl rfl rfl rfl rfl
  | startViewChange v =>
    refine quiet _ (h.startViewChange v) ?_ ?_ <;>
      (unfold Replica.step Replica.startViewChange; simp only; split <;> rfl)
  | acceptNewView =>
    unfold Replica.step Replica.acceptNewView
    simp only
    split
    · exact quiet _ (h.congr rfl rfl rfl rfl rfl rfl rfl) rfl rfl
    · exact quiet _ h rfl rfl
  | oldViewPP pp env =>
    unfold Replica.step Replica.oldViewPP
    simp only
    split
    · exact go _ (h.processPrePrepare _ _ _)
    · exact quiet _ h rfl rfl

theorem Ctg.run (evs : List Event) (hn : nc → .startCatchup ∉ evs) : Ctg cfg nc (run cfg evs) := by
  have hno : ∀ k, ¬ Held ({} : Replica) k := by
    intro k hk
    rw [held_iff] at hk
    simp at hk
  have base : Ctg cfg nc ({} : Replica) := {
    ppk := fun k pp hk => (hno k ⟨pp, hk⟩).elim
    rpk := by intro k pp hk; simp at hk
    kv := fun k hk => (hno k hk).elim
    contig := fun _ s _ hk => (hno _ hk).elim
    ordd := by simp
    bat := fun _ => {
      le := Nat.le_refl _
      nodup := List.nodup_nil
      sub := by intro k hk; simp at hk
      cov := by intro t a b; simp only at a b; omega
      top := fun s hk => (hno _ hk).elim } }
  have fold : ∀ (l : List Event) (r : Replica), Ctg cfg nc r → (nc → .startCatchup ∉ l) →
      Ctg cfg nc (l.foldl (Replica.step cfg) r) := by
    intro l
    induction l with
    | nil => intro r h _; exact h
    | cons e l ih =>
      intro r h hl
      rw [List.foldl_cons]
      refine ih _ (h.step e ?_).1 (fun x hx => hl x (List.mem_cons_of_mem _ hx))
      intro x hx
      exact hl x (by rw [hx]; exact List.mem_cons_self)
  exact fold evs {} base hn

/-- Whatever happens, sequence numbers are ordered in increasing order. -/
theorem run_up (evs : List Event) : Up {} (run cfg evs) := by
  have fold : ∀ (l : List Event) (r : Replica), Ctg cfg False r → Up r (l.foldl (Replica.step cfg) r) := by
    intro l
    induction l with
    | nil => intro r h; exact .refl' rfl (Nat.le_refl _)
    | cons e l ih =>
      intro r h
      rw [List.foldl_cons]
      obtain ⟨h1, h2, -⟩ := h.step e (fun x => x.elim)
      exact h2.trans (ih _ h1)
  exact fold evs {} (Ctg.run (cfg := cfg) [] (fun x => x.elim))

end Verif.TPC
