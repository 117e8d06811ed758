import Verif.Proofs.ThreePC
/-!
The three-phase commit with batches taken over from earlier views: an invariant
over all keys, given that every PRE-PREPARE stored at a key has an acceptable
digest (`A`) and that a stored one is never replaced by another digest.
-/
namespace Verif.TPC

variable (cfg : Cfg) (D : Node → Msg → Prop) (A : Key → Nat → Prop)

/-- A prepare certificate for digest `d` at key `k`. -/
def CertD (out : List Msg) (k : Key) (d : Nat) : Prop :=
  A k d ∧ ∃ Q : List Node, Q.Nodup ∧ (Quorums.ofN cfg.n).prepare.value ≤ Q.length ∧
    ∀ q ∈ Q, q ≠ cfg.primary k.1 ∧
      ∃ p : Prepare, p.key = k ∧ p.content.digest = d ∧ Src cfg D out q (.prepare p)

/-- A commit quorum at a key. -/
def Committed (out : List Msg) (k : Key) : Prop :=
  ∃ Q : List Node, Q.Nodup ∧ (Quorums.ofN cfg.n).commit.value ≤ Q.length ∧
    ∀ q ∈ Q, ∃ c : Commit, c.key = k ∧ Src cfg D out q (.commit c)

theorem CertD.mono {out out' : List Msg} (h : ∀ m ∈ out, m ∈ out') {k d} (hs : CertD cfg D A out k d) :
    CertD cfg D A out' k d := by
  obtain ⟨a, Q, c, q, e⟩ := hs
  refine ⟨a, Q, c, q, fun x hx => ⟨(e x hx).1, ?_⟩⟩
  obtain ⟨p, p1, p2, p3⟩ := (e x hx).2
  exact ⟨p, p1, p2, p3.mono cfg D h⟩

theorem Committed.mono {out out' : List Msg} (h : ∀ m ∈ out, m ∈ out') {k} (hs : Committed cfg D out k) :
    Committed cfg D out' k := by
  obtain ⟨Q, c, q, e⟩ := hs
  refine ⟨Q, c, q, fun x hx => ?_⟩
  obtain ⟨p, p1, p2⟩ := e x hx
  exact ⟨p, p1, p2.mono cfg D h⟩

structure NInv (r : Replica) : Prop where
  part : r.participating = true
  lo : r.lowWM = r.stable
  hi : r.highWM = r.stable + 300
  stl : r.stable ≤ r.lastOrdered.2
  caught : r.caught = 0
  sto : ∀ k pp, r.sentPP.get? k = some pp ∨ r.recvPP.get? k = some pp →
    pp.key = k ∧ k.1 = r.view ∧ A k pp.content.digest
  pps : ∀ k pp, r.sentPP.get? k = some pp → cfg.primary r.view = cfg.name ∧ k.2 ≤ r.lastPP
  ppr : ∀ k pp, r.recvPP.get? k = some pp → cfg.primary r.view ≠ cfg.name
  wait : r.waiting = true → (∀ k, r.sentPP.get? k = none ∧ r.recvPP.get? k = none ∧
    r.prepares.get? k = none ∧ r.commits.get? k = none) ∧ ∀ m ∈ r.out, m.viewNo < r.view
  outv : ∀ m ∈ r.out, m.viewNo ≤ r.view
  ownP : ∀ p, .prepare p ∈ r.out → p.viewNo = r.view →
    p.seqNo ≤ r.stable ∨ ∃ pp, r.recvPP.get? p.key = some pp ∧ p.content.digest = pp.content.digest
  uniqP : ∀ p q, .prepare p ∈ r.out → .prepare q ∈ r.out → p.key = q.key → p.content.digest = q.content.digest
  outA : ∀ p, .prepare p ∈ r.out → A p.key p.content.digest
  vot : ∀ k vs m, r.prepares.get? k = some (vs, m) → k.1 = r.view ∧
    vs.Nodup ∧ ∃ pp, r.getPP k = some pp ∧ ∀ w ∈ vs, w ≠ cfg.primary k.1 ∧
      ∃ p : Prepare, p.key = k ∧ p.content.digest = pp.content.digest ∧ Src cfg D r.out w (.prepare p)
  com : ∀ k vs m, r.commits.get? k = some (vs, m) → k.1 = r.view ∧
    vs.Nodup ∧ ∀ w ∈ vs, ∃ c : Commit, c.key = k ∧ Src cfg D r.out w (.commit c)
  cmA : ∀ c, .commit c ∈ r.out → c.viewNo = r.view →
    c.seqNo ≤ r.stable ∨ ∃ pp, r.getPP c.key = some pp ∧ CertD cfg D A r.out c.key pp.content.digest
  cmt : ∀ c, .commit c ∈ r.out → c.seqNo ≤ r.stable + 300 ∧ ∃ d, CertD cfg D A r.out c.key d
  ordv : ∀ o ∈ r.ordLog, o.viewNo ≤ r.view
  ordp : r.ordLog.Pairwise (fun a b => a.viewNo ≤ b.viewNo)
  ordB : ∀ o ∈ r.ordLog, o.viewNo = r.view →
    o.seqNo ≤ r.stable ∨ ∃ pp, r.getPP o.key = some pp ∧ o.content.digest = pp.content.digest
  ordC : ∀ o ∈ r.ordLog, ∀ c, .commit c ∈ r.out → c.key = o.key → CertD cfg D A r.out o.key o.content.digest
  ord : ∀ o ∈ r.ordLog, A o.key o.content.digest ∧ Committed cfg D r.out o.key
  prp : ∀ b ∈ r.prepared, b.viewNo = r.view ∧ CertD cfg D A r.out (r.view, b.ppSeqNo) b.ppDigest
  trk : ∀ b ∈ r.preprepared, b.viewNo = r.view ∧ A (r.view, b.ppSeqNo) b.ppDigest
  rep : ∀ c, .commit c ∈ r.out → c.viewNo = r.view → c.seqNo ≤ r.stable ∨ ∃ b ∈ r.prepared, b.ppSeqNo = c.seqNo
  ppo : ∀ pp, .prePrepare pp ∈ r.out → cfg.primary pp.viewNo = cfg.name ∧ (pp.viewNo = r.view → pp.seqNo ≤ r.lastPP)
  ppu : ∀ p q, .prePrepare p ∈ r.out → .prePrepare q ∈ r.out → p.key = q.key → p = q
  prW : ∀ k q, r.prepWait.get? k = some q → ∀ e ∈ q, e.1.key = k ∧ D e.2 (.prepare e.1)
  cmW : ∀ k q, r.commWait.get? k = some q → ∀ e ∈ q, e.1.key = k ∧ D e.2 (.commit e.1)

variable {cfg D A}

theorem NInv.getPP {r : Replica} (h : NInv cfg D A r) {k pp} (hp : r.getPP k = some pp) :
    pp.key = k ∧ k.1 = r.view ∧ A k pp.content.digest := h.sto k pp (getPP_some hp)

/-! ### One thing at a time -/

theorem NInv.order {r : Replica} (h : NInv cfg D A r) (k : Key) (hw : r.waiting = false)
    (hq : hasQuorum r.commits k (Quorums.ofN cfg.n).commit.value = true)
    (hlast : r.lastOrdered.2 < k.2) : NInv cfg D A (r.order k) := by
  cases hp : r.getPP k with
  | none => unfold Replica.order; rw [hp]; exact h
  | some pp =>
    obtain ⟨hk, hv, hA⟩ := h.getPP hp
    have hpv : pp.viewNo = k.1 := by rw [← hk]; rfl
    have hps : pp.seqNo = k.2 := by rw [← hk]; rfl
    have e : r.order k =
      { r with ordered := r.ordered ++ [k], lastOrdered := k
               lastPP := if k.2 > r.lastPP then k.2 else r.lastPP, ordLog := r.ordLog ++ [pp] } := by
      unfold Replica.order; rw [hp]; rfl
    rw [e]
    exact { h with
      stl := by have := h.stl; simp only; omega
      pps := fun k' q hq => ⟨(h.pps k' q hq).1, by have := (h.pps k' q hq).2; simp only; split <;> omega⟩
      wait := by intro x; simp only at x; rw [hw] at x; cases x
      ordv := by
        intro o ho
        rcases List.mem_append.1 ho with ho | ho
        · exact h.ordv o ho
        · rw [List.mem_singleton.1 ho]; simp only; omega
      ordp := by
        rw [List.pairwise_append]
        refine ⟨h.ordp, by simp, fun a ha b hb => ?_⟩
        rw [List.mem_singleton.1 hb]
        have := h.ordv a ha; omega
      ordB := by
        intro o ho a
        rcases List.mem_append.1 ho with ho | ho
        · exact h.ordB o ho a
        · rw [List.mem_singleton] at ho; subst ho
          exact .inr ⟨o, by rw [hk]; exact hp, rfl⟩
      ordC := by
        intro o ho c hc hck
        rcases List.mem_append.1 ho with ho | ho
        · exact h.ordC o ho c hc hck
        · rw [List.mem_singleton] at ho; subst ho
          have e1 : c.viewNo = o.viewNo := congrArg Prod.fst hck
          have e2 : c.seqNo = o.seqNo := congrArg Prod.snd hck
          rcases h.cmA c hc (by omega) with x | ⟨q, q1, q2⟩
          · have := h.stl; omega
          · rw [hck, hk, hp] at q1; cases q1
            rw [hck] at q2; exact q2
      ord := by
        intro o ho
        rcases List.mem_append.1 ho with ho | ho
        · exact h.ord o ho
        · rw [List.mem_singleton] at ho
          subst ho
          refine ⟨by rw [hk]; exact hA, ?_⟩
          unfold hasQuorum at hq
          cases hg : r.commits.get? k with
          | none =>
            rw [hg] at hq
            simp only [ge_iff_le, Nat.le_zero_eq, decide_eq_true_eq] at hq
            exact ⟨[], List.nodup_nil, by rw [hq]; exact Nat.zero_le _, by simp⟩
          | some x =>
            obtain ⟨vs, m⟩ := x
            rw [hg] at hq
            simp only [ge_iff_le, decide_eq_true_eq] at hq
            obtain ⟨-, n1, n3⟩ := h.com k vs m hg
            exact ⟨vs, n1, hq, fun q hq => by
              obtain ⟨c, c1, c3⟩ := n3 q hq
              exact ⟨c, by rw [c1, hk], c3⟩⟩
      ppo := by
        intro p hp'
        refine ⟨(h.ppo p hp').1, fun hv => ?_⟩
        have := (h.ppo p hp').2 hv
        simp only; split <;> omega }

theorem NInv.tryOrder {r : Replica} (h : NInv cfg D A r) (c : Commit) (hw : r.waiting = false) :
    NInv cfg D A (r.tryOrder cfg c).1 := by
  unfold Replica.tryOrder
  split
  · exact h
  · next hq =>
    split
    · exact h
    · next ha =>
      split
      · exact { h with }
      · refine h.order c.key hw (by simpa using hq) ?_
        rw [alreadyOrdered_iff] at ha
        show r.lastOrdered.2 < c.seqNo
        omega

theorem vote_nodup {vs us : List Node} {w : Node} (h : us.Nodup) (e : (if w ∈ us then us else us ++ [w]) = vs) :
    vs.Nodup ∧ ∀ u ∈ vs, u ∈ us ∨ u = w := by
  split at e
  · subst e; exact ⟨h, fun _ h => .inl h⟩
  · next hn =>
    subst e
    refine ⟨?_, fun u hu => ?_⟩
    · rw [List.nodup_append]
      refine ⟨h, by simp, ?_⟩
      intro a ha b hb e
      rw [List.mem_singleton] at hb; subst hb; subst e; exact hn ha
    · rcases List.mem_append.1 hu with hu | hu
      · exact .inl hu
      · exact .inr (List.mem_singleton.1 hu)

theorem NInv.addToCommits {r : Replica} (h : NInv cfg D A r) (c : Commit) (w : Node) (hv : c.viewNo = r.view)
    (hw : r.waiting = false) (hs : Src cfg D r.out w (.commit c)) : NInv cfg D A (r.addToCommits cfg c w) := by
  unfold Replica.addToCommits
  refine NInv.tryOrder ?_ c hw
  exact { h with
    wait := by intro x; simp only at x; rw [hw] at x; cases x
    com := by
      intro k vs m hk
      simp only [addVote_get] at hk
      by_cases e : c.key = k
      · subst e
        rw [if_pos rfl] at hk
        refine ⟨hv, ?_⟩
        cases hg : r.commits.get? c.key with
        | none =>
          rw [hg] at hk; cases hk
          refine ⟨by simp, fun u hu => ?_⟩
          rw [List.mem_singleton] at hu; subst hu
          exact ⟨c, rfl, hs⟩
        | some x =>
          obtain ⟨us, m0⟩ := x
          rw [hg] at hk
          obtain ⟨-, n1, n3⟩ := h.com _ _ _ hg
          simp only [Option.some.injEq, Prod.mk.injEq] at hk
          obtain ⟨x1, x2⟩ := vote_nodup n1 hk.1
          refine ⟨x1, fun u hu => ?_⟩
          rcases x2 u hu with hu | hu
          · exact n3 u hu
          · subst hu; exact ⟨c, rfl, hs⟩
      · rw [if_neg e] at hk
        exact h.com k vs m hk }

theorem NInv.processCommit {r : Replica} (h : NInv cfg D A r) (hD : ∀ w m, D w m → w ≠ cfg.name)
    (c : Commit) (w : Node) (hs : D w (.commit c)) : NInv cfg D A (r.processCommit cfg c w) := by
  unfold Replica.processCommit
  split
  · exact h
  · next ha =>
    have ha : r.admits c.viewNo c.seqNo = true := by simpa using ha
    obtain ⟨a1, a2, -⟩ := admits_iff r _ _ ha
    split
    · exact { h with
        cmW := by
          intro k q hk e he
          simp only [Dict.get?_set] at hk
          split at hk
          · next e1 =>
            cases hk
            rcases List.mem_append.1 he with he | he
            · cases hg : r.commWait.get? c.key with
              | none => rw [hg] at he; simp at he
              | some q => rw [hg] at he; rw [← e1]; exact h.cmW _ _ hg e he
            · rw [List.mem_singleton] at he; subst he; exact ⟨e1, hs⟩
          · exact h.cmW k q hk e he }
    · split
      · exact h
      · split
        · exact h
        · exact h.addToCommits c w a1 a2 (.inr ⟨hD _ _ hs, hs⟩)

theorem NInv.dequeueCommits {r : Replica} (h : NInv cfg D A r) (hD : ∀ w m, D w m → w ≠ cfg.name)
    (k : Key) : NInv cfg D A (r.dequeueCommits cfg k) := by
  unfold Replica.dequeueCommits
  split
  · exact h
  · next q hq =>
    split
    · exact h
    · have h0 : NInv cfg D A { r with commWait := r.commWait.set k [] } := { h with
        cmW := by
          intro j q' hj e he
          simp only [Dict.get?_set] at hj
          split at hj
          · cases hj; simp at he
          · exact h.cmW j q' hj e he }
      have hfold : ∀ (q : List (Commit × Node)) (r : Replica), (∀ e ∈ q, D e.2 (.commit e.1)) →
          NInv cfg D A r → NInv cfg D A (q.foldl (fun r e => r.processCommit cfg e.1 e.2) r) := by
        intro q
        induction q with
        | nil => intro r _ h; exact h
        | cons e q ih =>
          intro r hq h
          rw [List.foldl_cons]
          exact ih _ (fun e he => hq e (List.mem_cons_of_mem _ he))
            (h.processCommit hD _ _ (hq e List.mem_cons_self))
      have h1 := hfold q _ (fun e he => (h.cmW k q hq e he).2) h0
      exact { h1 with
        cmW := by
          intro j q' hj e he
          simp only [Dict.get?_erase] at hj
          split at hj
          · cases hj
          · exact h1.cmW j q' hj e he }

/-- More messages in `out`: what is left to show. -/
theorem NInv.put {r : Replica} (h : NInv cfg D A r) (x : Msg) (hw : r.waiting = false) (hv : x.viewNo = r.view)
    (lp : Nat) (hlp : r.lastPP ≤ lp)
    (hP : ∀ p, x = .prepare p → (∃ pp, r.recvPP.get? p.key = some pp ∧ p.content.digest = pp.content.digest) ∧
      r.stable < p.seqNo)
    (hC : ∀ c, x = .commit c → r.stable < c.seqNo ∧ c.seqNo ≤ r.stable + 300 ∧
      (∃ pp, r.getPP c.key = some pp ∧ CertD cfg D A r.out c.key pp.content.digest) ∧ ∃ b ∈ r.prepared, b.ppSeqNo = c.seqNo)
    (hPP : ∀ pp, x = .prePrepare pp → cfg.primary r.view = cfg.name ∧ r.lastPP < pp.seqNo ∧ pp.seqNo ≤ lp) :
    NInv cfg D A { r with out := r.out ++ [x], lastPP := lp } := by
  have hsub : ∀ m ∈ r.out, m ∈ r.out ++ [x] := mem_append_right'
  have hmem : ∀ m ∈ r.out ++ [x], m ∈ r.out ∨ x = m := fun m hm =>
    (List.mem_append.1 hm).imp id (fun h => (List.mem_singleton.1 h).symm)
  exact { h with
    pps := fun k' q hq => ⟨(h.pps k' q hq).1, Nat.le_trans (h.pps k' q hq).2 hlp⟩
    wait := by intro y; simp only at y; rw [hw] at y; cases y
    outv := by
      intro m hm
      rcases hmem m hm with hm | hm
      · exact h.outv m hm
      · subst hm; exact Nat.le_of_eq hv
    ownP := by
      intro p hp a
      rcases hmem _ hp with hp | hp
      · exact h.ownP p hp a
      · exact .inr (hP p hp).1
    uniqP := by
      have one : ∀ p q, .prepare p ∈ r.out → x = .prepare q → p.key = q.key → p.content.digest = q.content.digest := by
        intro p q hp hq hk
        have e1 : p.viewNo = q.viewNo := congrArg Prod.fst hk
        have e2 : p.seqNo = q.seqNo := congrArg Prod.snd hk
        have e3 : q.viewNo = r.view := by rw [hq] at hv; exact hv
        obtain ⟨⟨pp, h1, h2⟩, h3⟩ := hP q hq
        rcases h.ownP p hp (by omega) with y | ⟨pp', y1, y2⟩
        · omega
        · rw [hk, h1] at y1; cases y1; rw [y2, h2]
      intro p q hp hq hk
      rcases hmem _ hp with hp | hp
      · rcases hmem _ hq with hq | hq
        · exact h.uniqP p q hp hq hk
        · exact one p q hp hq hk
      · rcases hmem _ hq with hq | hq
        · exact (one q p hq hp hk.symm).symm
        · rw [hp] at hq; cases hq; rfl
    outA := by
      intro p hp
      rcases hmem _ hp with hp | hp
      · exact h.outA p hp
      · obtain ⟨⟨pp, h1, h2⟩, -⟩ := hP p hp
        rw [h2]; exact (h.sto _ _ (.inr h1)).2.2
    vot := by
      intro k vs m hk
      obtain ⟨n0, n1, q, n2, n3⟩ := h.vot k vs m hk
      exact ⟨n0, n1, q, n2, fun w hw => ⟨(n3 w hw).1, by
        obtain ⟨p, p1, p2, p3⟩ := (n3 w hw).2
        exact ⟨p, p1, p2, p3.mono cfg D hsub⟩⟩⟩
    com := by
      intro k vs m hk
      obtain ⟨n0, n1, n3⟩ := h.com k vs m hk
      exact ⟨n0, n1, fun w hw => by
        obtain ⟨p, p1, p3⟩ := n3 w hw
        exact ⟨p, p1, p3.mono cfg D hsub⟩⟩
    cmA := by
      intro c hc a
      rcases hmem _ hc with hc | hc
      · rcases h.cmA c hc a with y | ⟨pp, y1, y2⟩
        · exact .inl y
        · exact .inr ⟨pp, y1, y2.mono cfg D A hsub⟩
      · obtain ⟨-, -, ⟨pp, y1, y2⟩, -⟩ := hC c hc
        exact .inr ⟨pp, y1, y2.mono cfg D A hsub⟩
    cmt := by
      intro c hc
      rcases hmem _ hc with hc | hc
      · obtain ⟨y, d, y2⟩ := h.cmt c hc
        exact ⟨y, d, y2.mono cfg D A hsub⟩
      · obtain ⟨-, y0, ⟨pp, y1, y2⟩, -⟩ := hC c hc
        exact ⟨y0, _, y2.mono cfg D A hsub⟩
    ordC := by
      intro o ho c hc hk
      rcases hmem _ hc with hc | hc
      · exact (h.ordC o ho c hc hk).mono cfg D A hsub
      · obtain ⟨y0, -, ⟨pp, y1, y2⟩, -⟩ := hC c hc
        have e1 : c.viewNo = o.viewNo := congrArg Prod.fst hk
        have e2 : c.seqNo = o.seqNo := congrArg Prod.snd hk
        have e3 : c.viewNo = r.view := by rw [hc] at hv; exact hv
        rcases h.ordB o ho (by omega) with y | ⟨pp', z1, z2⟩
        · omega
        · rw [hk, z1] at y1; cases y1
          rw [hk] at y2; rw [z2]; exact y2.mono cfg D A hsub
    ord := fun o ho => ⟨(h.ord o ho).1, (h.ord o ho).2.mono cfg D hsub⟩
    prp := fun b hb => ⟨(h.prp b hb).1, (h.prp b hb).2.mono cfg D A hsub⟩
    rep := by
      intro c hc a
      rcases hmem _ hc with hc | hc
      · exact h.rep c hc a
      · exact .inr (hC c hc).2.2.2
    ppo := by
      intro p hp
      rcases hmem _ hp with hp | hp
      · refine ⟨(h.ppo p hp).1, fun hv => ?_⟩
        have := (h.ppo p hp).2 hv
        simp only; omega
      · have e3 : p.viewNo = r.view := by rw [hp] at hv; exact hv
        rw [e3]
        exact ⟨(hPP p hp).1, fun _ => (hPP p hp).2.2⟩
    ppu := by
      have one : ∀ p q, .prePrepare p ∈ r.out → x = .prePrepare q → p.key = q.key → False := by
        intro p q hp hq hk
        have e1 : p.viewNo = q.viewNo := congrArg Prod.fst hk
        have e2 : p.seqNo = q.seqNo := congrArg Prod.snd hk
        have e3 : q.viewNo = r.view := by rw [hq] at hv; exact hv
        have := (h.ppo p hp).2 (by omega)
        have := (hPP q hq).2.1
        omega
      intro p q hp hq hk
      rcases hmem _ hp with hp | hp
      · rcases hmem _ hq with hq | hq
        · exact h.ppu p q hp hq hk
        · exact (one p q hp hq hk).elim
      · rcases hmem _ hq with hq | hq
        · exact (one q p hq hp hk.symm).elim
        · rw [hp] at hq; cases hq; rfl }

/-- The list of prepared batches may grow. -/
theorem NInv.trackPrepared {r : Replica} (h : NInv cfg D A r) (l : List BatchID) (h1 : ∀ x ∈ r.prepared, x ∈ l)
    (h2 : ∀ x ∈ l, x ∈ r.prepared ∨ (x.viewNo = r.view ∧ CertD cfg D A r.out (r.view, x.ppSeqNo) x.ppDigest)) :
    NInv cfg D A { r with prepared := l } :=
  { h with
    prp := fun b hb => (h2 b hb).elim (h.prp b) id
    rep := fun c hc a => (h.rep c hc a).imp id (fun ⟨b, b1, b2⟩ => ⟨b, h1 b b1, b2⟩) }

theorem NInv.trackPreprepared {r : Replica} (h : NInv cfg D A r) (l : List BatchID)
    (h2 : ∀ x ∈ l, x ∈ r.preprepared ∨ (x.viewNo = r.view ∧ A (r.view, x.ppSeqNo) x.ppDigest)) :
    NInv cfg D A { r with preprepared := l } :=
  { h with trk := fun b hb => (h2 b hb).elim (h.trk b) id }

theorem NInv.tryCommit {r : Replica} (h : NInv cfg D A r) (k : Key) (hw : r.waiting = false)
    (hk1 : r.stable < k.2) (hk2 : k.2 ≤ r.stable + 300) (hg : ∃ x, r.prepares.get? k = some x) :
    NInv cfg D A (r.tryCommit cfg k) := by
  unfold Replica.tryCommit
  split
  · exact h
  · next hq =>
    split
    · exact h
    · obtain ⟨⟨vs, m⟩, hg⟩ := hg
      unfold hasQuorum at hq
      rw [hg] at hq
      have hq : (Quorums.ofN cfg.n).prepare.value ≤ vs.length := by simpa using hq
      obtain ⟨n0, n1, pp, n2, n3⟩ := h.vot k vs m hg
      obtain ⟨g1, g2, g3⟩ := h.getPP n2
      have e2 : pp.seqNo = k.2 := congrArg Prod.snd g1
      have hcert : CertD cfg D A r.out k pp.content.digest := ⟨g3, vs, n1, hq, n3⟩
      have ek : (r.view, pp.batchId.ppSeqNo) = k := by rw [← n0]; exact Prod.ext rfl e2
      have h1 := h.trackPrepared (trackBatch r.prepared pp.batchId) (fun x hx => mem_trackBatch.2 (.inl hx))
        (fun x hx => (mem_trackBatch.1 hx).imp id (fun e => by
          subst e
          refine ⟨(congrArg Prod.fst g1).trans g2, ?_⟩
          rw [ek]; exact hcert))
      simp only [n2]
      have h2 := h1.put (.commit ⟨k.1, k.2, if cfg.bls then some (blsValue pp) else none⟩) hw n0 r.lastPP (Nat.le_refl _)
        (by intro p hp; cases hp)
        (by
          intro c hc
          cases hc
          exact ⟨hk1, hk2, ⟨pp, n2, hcert⟩, pp.batchId, mem_trackBatch.2 (.inr rfl), e2⟩)
        (by intro p hp; cases hp)
      unfold Replica.doCommit
      have n2' : Replica.getPP { r with prepared := trackBatch r.prepared pp.batchId } k = some pp := n2
      simp only [n2', Option.map_some]
      exact h2.addToCommits _ _ n0 hw (.inl ⟨rfl, by simp⟩)

/-- Parts that counting COMMITs leaves alone. -/
structure Frame2 (r r' : Replica) : Prop where
  stable : r'.stable = r.stable
  lowWM : r'.lowWM = r.lowWM
  highWM : r'.highWM = r.highWM

theorem Frame2.trans {a b c : Replica} (h : Frame2 a b) (g : Frame2 b c) : Frame2 a c :=
  ⟨g.1.trans h.1, g.2.trans h.2, g.3.trans h.3⟩

theorem frame2_tryOrder (r : Replica) (c : Commit) : Frame2 r (r.tryOrder cfg c).1 := by
  unfold Replica.tryOrder
  split
  · exact ⟨rfl, rfl, rfl⟩
  · split
    · exact ⟨rfl, rfl, rfl⟩
    · split
      · exact ⟨rfl, rfl, rfl⟩
      · unfold Replica.order; split <;> exact ⟨rfl, rfl, rfl⟩

theorem frame2_addToCommits (r : Replica) (c : Commit) (w : Node) : Frame2 r (r.addToCommits cfg c w) := by
  unfold Replica.addToCommits
  have := frame2_tryOrder (cfg := cfg) { r with commits := addVote r.commits c.key c w } c
  exact ⟨this.1, this.2, this.3⟩

theorem frame2_processCommit (r : Replica) (c : Commit) (w : Node) : Frame2 r (r.processCommit cfg c w) := by
  unfold Replica.processCommit
  split
  · exact ⟨rfl, rfl, rfl⟩
  · split
    · exact ⟨rfl, rfl, rfl⟩
    · split
      · exact ⟨rfl, rfl, rfl⟩
      · split
        · exact ⟨rfl, rfl, rfl⟩
        · exact frame2_addToCommits r c w

theorem frame2_dequeueCommits (r : Replica) (k : Key) : Frame2 r (r.dequeueCommits cfg k) := by
  unfold Replica.dequeueCommits
  split
  · exact ⟨rfl, rfl, rfl⟩
  · next q hq =>
    split
    · exact ⟨rfl, rfl, rfl⟩
    · have hfold : ∀ (q : List (Commit × Node)) (r : Replica),
          Frame2 r (q.foldl (fun r e => r.processCommit cfg e.1 e.2) r) := by
        intro q
        induction q with
        | nil => intro r; exact ⟨rfl, rfl, rfl⟩
        | cons e q ih => intro r; exact (frame2_processCommit r _ _).trans (ih _)
      have h1 := hfold q { r with commWait := r.commWait.set k [] }
      exact ⟨h1.1, h1.2, h1.3⟩

theorem NInv.addToPrepares {r : Replica} (h : NInv cfg D A r) (hD : ∀ w m, D w m → w ≠ cfg.name)
    (p : Prepare) (w : Node) (hv : p.viewNo = r.view) (hw : r.waiting = false)
    (hk1 : r.stable < p.seqNo) (hk2 : p.seqNo ≤ r.stable + 300) (hprim : w ≠ cfg.primary r.view)
    (hs : Src cfg D r.out w (.prepare p))
    (hpp : ∃ pp, r.getPP p.key = some pp ∧ p.content.digest = pp.content.digest) :
    NInv cfg D A (r.addToPrepares cfg p w) := by
  obtain ⟨pp, hp, hcont⟩ := hpp
  unfold Replica.addToPrepares
  simp only
  have hh : NInv cfg D A { r with prepares := addVote r.prepares p.key p w } := { h with
    wait := by intro x; simp only at x; rw [hw] at x; cases x
    vot := by
      intro k vs m hk
      simp only [addVote_get] at hk
      by_cases e : p.key = k
      · subst e
        rw [if_pos rfl] at hk
        refine ⟨hv, ?_⟩
        have hnew : w ≠ cfg.primary p.key.1 ∧
            ∃ q : Prepare, q.key = p.key ∧ q.content.digest = pp.content.digest ∧ Src cfg D r.out w (.prepare q) :=
          ⟨by rw [show p.key.1 = r.view from hv]; exact hprim, p, rfl, hcont, hs⟩
        cases hg : r.prepares.get? p.key with
        | none =>
          rw [hg] at hk; cases hk
          refine ⟨by simp, pp, hp, fun u hu => ?_⟩
          rw [List.mem_singleton] at hu; subst hu
          exact hnew
        | some x =>
          obtain ⟨us, m0⟩ := x
          rw [hg] at hk
          obtain ⟨-, n1, qq, n2, n3⟩ := h.vot _ _ _ hg
          rw [hp] at n2; cases n2
          simp only [Option.some.injEq, Prod.mk.injEq] at hk
          obtain ⟨x1, x2⟩ := vote_nodup n1 hk.1
          refine ⟨x1, pp, hp, fun u hu => ?_⟩
          rcases x2 u hu with hu | hu
          · exact n3 u hu
          · subst hu; exact hnew
      · rw [if_neg e] at hk
        exact h.vot k vs m hk }
  have h2 := hh.dequeueCommits hD p.key
  have f2 := frame_dequeueCommits (cfg := cfg) ({ r with prepares := addVote r.prepares p.key p w } : Replica) p.key
  have g2 := frame2_dequeueCommits (cfg := cfg) ({ r with prepares := addVote r.prepares p.key p w } : Replica) p.key
  refine h2.tryCommit p.key (by rw [f2.waiting]; exact hw) (by rw [g2.stable]; exact hk1) (by rw [g2.stable]; exact hk2) ?_
  rw [f2.prepares]
  exact ⟨_, by rw [addVote_get, if_pos rfl]⟩

theorem admits_marks {r : Replica} {v s : Nat} (h : r.admits v s = true) : r.lowWM < s ∧ s ≤ r.highWM := by
  have h := (validate3pc_process r.shared 0 v s).1 (by simpa [Replica.admits] using h)
  exact ⟨h.2.2.1, h.2.2.2.1⟩

theorem NInv.marks {r : Replica} (h : NInv cfg D A r) {v s : Nat} (ha : r.admits v s = true) :
    r.stable < s ∧ s ≤ r.stable + 300 := by
  have := admits_marks ha
  rw [h.lo, h.hi] at this; exact this

theorem NInv.processPrepare {r : Replica} (h : NInv cfg D A r) (hD : ∀ w m, D w m → w ≠ cfg.name)
    (p : Prepare) (w : Node) (hs : D w (.prepare p)) : NInv cfg D A (r.processPrepare cfg p w) := by
  have henq : NInv cfg D A (r.enqueuePrepare p w) := { h with
    prW := by
      intro k q hk e he
      simp only [Replica.enqueuePrepare, Dict.get?_set] at hk
      split at hk
      · next e1 =>
        cases hk
        rcases List.mem_append.1 he with he | he
        · cases hg : r.prepWait.get? p.key with
          | none => rw [hg] at he; simp at he
          | some q => rw [hg] at he; rw [← e1]; exact h.prW _ _ hg e he
        · rw [List.mem_singleton] at he; subst he; exact ⟨e1, hs⟩
      · exact h.prW k q hk e he }
  unfold Replica.processPrepare
  split
  · exact h
  · next ha =>
    have ha : r.admits p.viewNo p.seqNo = true := by simpa using ha
    obtain ⟨a1, a2, -⟩ := admits_iff r _ _ ha
    split
    · exact h
    · next hpr =>
      split
      · exact h
      · split
        · split
          · split
            · exact henq
            · exact h
          · exact henq
        · next pp hpp =>
          split
          · exact h
          · next hc =>
            have hc : p.content = pp.content := Classical.not_not.1 hc
            exact h.addToPrepares hD p w a1 a2 (h.marks ha).1 (h.marks ha).2
              (by intro e; apply hpr; simp [Replica.fromPrimary, e]) (.inr ⟨hD _ _ hs, hs⟩) ⟨pp, hpp, by rw [hc]⟩

theorem NInv.dequeuePrepares {r : Replica} (h : NInv cfg D A r) (hD : ∀ w m, D w m → w ≠ cfg.name)
    (k : Key) : NInv cfg D A (r.dequeuePrepares cfg k) := by
  unfold Replica.dequeuePrepares
  split
  · exact h
  · next q hq =>
    have h0 : NInv cfg D A { r with prepWait := r.prepWait.set k [] } := { h with
      prW := by
        intro j q' hj e he
        simp only [Dict.get?_set] at hj
        split at hj
        · cases hj; simp at he
        · exact h.prW j q' hj e he }
    have hfold : ∀ (q : List (Prepare × Node)) (r : Replica), (∀ e ∈ q, D e.2 (.prepare e.1)) →
        NInv cfg D A r → NInv cfg D A (q.foldl (fun r e => r.processPrepare cfg e.1 e.2) r) := by
      intro q
      induction q with
      | nil => intro r _ h; exact h
      | cons e q ih =>
        intro r hq h
        rw [List.foldl_cons]
        exact ih _ (fun e he => hq e (List.mem_cons_of_mem _ he))
          (h.processPrepare hD _ _ (hq e List.mem_cons_self))
    have h1 := hfold q _ (fun e he => (h.prW k q hq e he).2) h0
    exact { h1 with
      prW := by
        intro j q' hj e he
        simp only [Dict.get?_erase] at hj
        split at hj
        · cases hj
        · exact h1.prW j q' hj e he }

/-- What storing `pp` at its key does to the one held there. -/
theorem NInv.store {r r' : Replica} (h : NInv cfg D A r) (pp : PrePrepare) (hw : r.waiting = false)
    (hold : ∀ k, pp.key ≠ k → r'.getPP k = r.getPP k) (hnew : r'.getPP pp.key = some pp)
    (hsame : ∀ old, r.getPP pp.key = some old → old.content.digest = pp.content.digest)
    (hr : ∃ a b, r' = { r with sentPP := a, recvPP := b })
    (hsto : ∀ k q, r'.sentPP.get? k = some q ∨ r'.recvPP.get? k = some q → q.key = k ∧ k.1 = r.view ∧ A k q.content.digest)
    (hpps : ∀ k q, r'.sentPP.get? k = some q → cfg.primary r.view = cfg.name ∧ k.2 ≤ r.lastPP)
    (hppr : ∀ k q, r'.recvPP.get? k = some q → cfg.primary r.view ≠ cfg.name)
    (hown : ∀ k q, r.recvPP.get? k = some q → ∃ q', r'.recvPP.get? k = some q' ∧ q.content.digest = q'.content.digest) :
    NInv cfg D A r' := by
  have hget : ∀ k q, r.getPP k = some q → ∃ q', r'.getPP k = some q' ∧ q.content.digest = q'.content.digest := by
    intro k q hq
    by_cases e : pp.key = k
    · subst e; exact ⟨pp, hnew, hsame q hq⟩
    · exact ⟨q, by rw [hold k e]; exact hq, rfl⟩
  obtain ⟨a, b, rfl⟩ := hr
  exact { h with
    sto := hsto
    pps := hpps
    ppr := hppr
    wait := by intro x; simp only at x; rw [hw] at x; cases x
    ownP := by
      intro p hp a
      rcases h.ownP p hp a with x | ⟨q, x1, x2⟩
      · exact .inl x
      · obtain ⟨q', y1, y2⟩ := hown _ _ x1
        exact .inr ⟨q', y1, x2.trans y2⟩
    vot := by
      intro k vs m hk
      obtain ⟨n0, n1, q, n2, n3⟩ := h.vot k vs m hk
      obtain ⟨q', y1, y2⟩ := hget _ _ n2
      exact ⟨n0, n1, q', y1, fun w hw => ⟨(n3 w hw).1, by
        obtain ⟨p, p1, p2, p3⟩ := (n3 w hw).2
        exact ⟨p, p1, p2.trans y2, p3⟩⟩⟩
    cmA := by
      intro c hc a
      rcases h.cmA c hc a with x | ⟨q, x1, x2⟩
      · exact .inl x
      · obtain ⟨q', y1, y2⟩ := hget _ _ x1
        exact .inr ⟨q', y1, by rw [← y2]; exact x2⟩
    ordB := by
      intro o ho a
      rcases h.ordB o ho a with x | ⟨q, x1, x2⟩
      · exact .inl x
      · obtain ⟨q', y1, y2⟩ := hget _ _ x1
        exact .inr ⟨q', y1, x2.trans y2⟩ }

theorem NInv.setRecv {r : Replica} (h : NInv cfg D A r) (pp : PrePrepare) (hv : pp.viewNo = r.view)
    (hw : r.waiting = false) (hprim : cfg.primary r.view ≠ cfg.name) (hA : A pp.key pp.content.digest)
    (hsame : ∀ old, r.getPP pp.key = some old → old.content.digest = pp.content.digest) :
    NInv cfg D A { r with recvPP := r.recvPP.set pp.key pp } := by
  have hns : ∀ k, r.sentPP.get? k = none := by
    intro k
    cases hk : r.sentPP.get? k with
    | none => rfl
    | some x => exact (hprim (h.pps _ _ hk).1).elim
  refine h.store pp hw ?_ ?_ hsame ⟨_, _, rfl⟩ ?_ h.pps ?_ ?_
  · intro k hk
    unfold Replica.getPP
    simp only [Dict.get?_set, if_neg hk]
  · unfold Replica.getPP
    simp only [Dict.get?_set, hns, if_true]
  · intro k q hk
    rcases hk with hk | hk
    · exact h.sto k q (.inl hk)
    · simp only [Dict.get?_set] at hk
      by_cases e : pp.key = k
      · rw [if_pos e] at hk; cases hk; subst e; exact ⟨rfl, hv, hA⟩
      · rw [if_neg e] at hk; exact h.sto k q (.inr hk)
  · exact fun _ _ _ => hprim
  · intro k q hk
    simp only [Dict.get?_set]
    by_cases e : pp.key = k
    · subst e
      rw [if_pos rfl]
      refine ⟨pp, rfl, hsame q ?_⟩
      unfold Replica.getPP
      simp only [hns]; exact hk
    · rw [if_neg e]; exact ⟨q, hk, rfl⟩

theorem NInv.setSent {r : Replica} (h : NInv cfg D A r) (pp : PrePrepare) (hv : pp.viewNo = r.view)
    (hw : r.waiting = false) (hprim : cfg.primary r.view = cfg.name) (hle : pp.seqNo ≤ r.lastPP) (hA : A pp.key pp.content.digest)
    (hsame : ∀ old, r.getPP pp.key = some old → old.content.digest = pp.content.digest) :
    NInv cfg D A { r with sentPP := r.sentPP.set pp.key pp } := by
  refine h.store pp hw ?_ ?_ hsame ⟨_, _, rfl⟩ ?_ ?_ h.ppr (fun k q hk => (h.ppr _ _ hk hprim).elim)
  · intro k hk
    unfold Replica.getPP
    simp only [Dict.get?_set, if_neg hk]
  · unfold Replica.getPP
    simp only [Dict.get?_set, if_true]
  · intro k q hk
    rcases hk with hk | hk
    · simp only [Dict.get?_set] at hk
      by_cases e : pp.key = k
      · rw [if_pos e] at hk; cases hk; subst e; exact ⟨rfl, hv, hA⟩
      · rw [if_neg e] at hk; exact h.sto k q (.inl hk)
    · exact h.sto k q (.inr hk)
  · intro k q hk
    simp only [Dict.get?_set] at hk
    by_cases e : pp.key = k
    · subst e; exact ⟨hprim, hle⟩
    · rw [if_neg e] at hk; exact h.pps k q hk

theorem NInv.bump {r : Replica} (h : NInv cfg D A r) (s : Nat) : NInv cfg D A (r.bumpLastPP s) :=
  { h with
    pps := fun k' q hq => ⟨(h.pps k' q hq).1, by
      have := (h.pps k' q hq).2; simp only [Replica.bumpLastPP]; split <;> omega⟩
    ppo := by
      intro p hp
      refine ⟨(h.ppo p hp).1, fun hv => ?_⟩
      have := (h.ppo p hp).2 hv
      simp only [Replica.bumpLastPP]; split <;> omega }

theorem NInv.tryPrepare {r : Replica} (h : NInv cfg D A r) (hD : ∀ w m, D w m → w ≠ cfg.name)
    (pp : PrePrepare) (hv : pp.viewNo = r.view) (hw : r.waiting = false)
    (hk1 : r.stable < pp.seqNo) (hk2 : pp.seqNo ≤ r.stable + 300)
    (hprim : cfg.primary r.view ≠ cfg.name) (hg : r.recvPP.get? pp.key = some pp) :
    NInv cfg D A (r.tryPrepare cfg pp) := by
  unfold Replica.tryPrepare
  split
  · exact h
  · unfold Replica.doPrepare
    simp only
    have h1 := h.put (.prepare ⟨pp.viewNo, pp.seqNo, pp.time, pp.content⟩) hw hv r.lastPP (Nat.le_refl _)
      (by intro p hp; cases hp; exact ⟨⟨pp, hg, rfl⟩, hk1⟩) (by intro p hp; cases hp) (by intro p hp; cases hp)
    refine h1.addToPrepares hD _ _ hv hw hk1 hk2 (fun e => hprim e.symm) (.inl ⟨rfl, by simp⟩) ⟨pp, ?_, rfl⟩
    show Replica.getPP r pp.key = some pp
    unfold Replica.getPP
    cases hk : r.sentPP.get? pp.key with
    | none => exact hg
    | some x => exact (hprim (h.pps _ _ hk).1).elim

theorem NInv.processPrePrepare {r : Replica} (h : NInv cfg D A r) (hD : ∀ w m, D w m → w ≠ cfg.name)
    (pp : PrePrepare) (w : Node) (env : PPEnv)
    (hs : r.admits pp.viewNo pp.seqNo = true → r.canProcessPP cfg pp w env = true →
      A pp.key pp.content.digest ∧ ∀ old, r.getPP pp.key = some old → old.content.digest = pp.content.digest) :
    NInv cfg D A (r.processPrePrepare cfg pp w env) := by
  unfold Replica.processPrePrepare
  split
  · exact h
  · next ha =>
    have ha : r.admits pp.viewNo pp.seqNo = true := by simpa using ha
    obtain ⟨a1, a2, -⟩ := admits_iff r _ _ ha
    obtain ⟨m1, m2⟩ := h.marks ha
    split
    · exact h
    · next hcan =>
      have hcan : r.canProcessPP cfg pp w env = true := by simpa using hcan
      obtain ⟨hA, hsame⟩ := hs ha hcan
      unfold Replica.processValidPP
      split
      · exact h
      · simp only
        refine NInv.dequeueCommits ?_ hD _
        refine NInv.dequeuePrepares ?_ hD _
        have h0 : NInv cfg D A (if r.alreadyOrdered pp.seqNo then r
            else { r with batches := (r.batches.filter (fun k => ¬ k = pp.key)) ++ [pp.key] }) := by
          split
          · exact h
          · exact { h with }
        generalize hr0 : (if r.alreadyOrdered pp.seqNo then r
            else { r with batches := (r.batches.filter (fun k => ¬ k = pp.key)) ++ [pp.key] }) = r0 at h0 ⊢
        have ev : r0.view = r.view := by subst hr0; split <;> rfl
        have ew : r0.waiting = r.waiting := by subst hr0; split <;> rfl
        have es : r0.stable = r.stable := by subst hr0; split <;> rfl
        have eg : r0.getPP pp.key = r.getPP pp.key := by subst hr0; split <;> rfl
        have h1 := h0.trackPreprepared (trackBatch r0.preprepared pp.batchId)
          (fun x hx => (mem_trackBatch.1 hx).imp id (fun e => by
            subst e
            refine ⟨by rw [ev]; exact a1, ?_⟩
            rw [ev, ← a1]; exact hA))
        split
        · next hprim =>
          have hprim : cfg.primary r0.view = cfg.name := by simpa [Replica.isPrimary] using hprim
          unfold Replica.addToSentPP
          exact (h1.bump pp.seqNo).setSent pp (by show _ = r0.view; rw [ev]; exact a1)
            (by show r0.waiting = _; rw [ew]; exact a2) hprim (by simp only [Replica.bumpLastPP]; split <;> omega) hA
            (fun old ho => hsame old (by rw [← eg]; exact ho))
        · next hprim =>
          have hprim : cfg.primary r0.view ≠ cfg.name := by simpa [Replica.isPrimary] using hprim
          unfold Replica.addToPrePrepares
          have h2 := (h1.setRecv pp (by rw [ev]; exact a1) (by rw [ew]; exact a2) hprim hA
            (fun old ho => hsame old (by rw [← eg]; exact ho))).bump pp.seqNo
          refine h2.tryPrepare hD pp (by show _ = r0.view; rw [ev]; exact a1)
            (by show r0.waiting = _; rw [ew]; exact a2) (by show r0.stable < _; rw [es]; exact m1)
            (by show _ ≤ r0.stable + 300; rw [es]; exact m2) hprim ?_
          simp [Replica.bumpLastPP, Dict.get?_set]

/-- A PRE-PREPARE above the certificate is accepted only from the primary, and
only the first for its key. -/
theorem fresh_accepted {r : Replica} (h : NInv cfg D A r) {pp : PrePrepare} {w : Node} {env : PPEnv}
    (ha : r.admits pp.viewNo pp.seqNo = true) (hc : r.canProcessPP cfg pp w env = true) (hw : w ≠ cfg.name)
    (hf : r.prevCert < pp.seqNo) : w = cfg.primary r.view ∧ r.getPP pp.key = none := by
  obtain ⟨a1, a2, a3, a4, -⟩ := admits_iff r _ _ ha
  have hl := a4 hf
  unfold Replica.canProcessPP at hc
  rw [if_neg (by rw [alreadyOrdered_iff]; omega)] at hc
  split at hc
  · cases hc
  · split at hc
    · cases hc
    · next hf =>
      split at hc
      · cases hc
      · next hh =>
        have hf : cfg.primary r.view = w := by simpa [Replica.fromPrimary] using hf
        refine ⟨hf.symm, ?_⟩
        have h1 : r.recvPP.get? pp.key = none := (Dict.has_false_iff _ _).1 (by simpa using hh)
        unfold Replica.getPP
        cases hk : r.sentPP.get? pp.key with
        | none => exact h1
        | some x => exact (hw (hf.symm.trans (h.pps _ _ hk).1)).elim

theorem canSend_prim {r : Replica} (hc : r.canSendBatch cfg = true) :
    cfg.primary r.view = cfg.name ∧ r.waiting = false ∧ r.prevCert ≤ r.lastPP := by
  unfold Replica.canSendBatch at hc
  split at hc
  · cases hc
  · next h1 =>
    split at hc
    · cases hc
    · split at hc
      · cases hc
      · next h3 =>
        split at hc
        · cases hc
        · next h4 => exact ⟨by simpa [Replica.isPrimary] using h1, by simpa using h3, by omega⟩

/-- The primary's own batch. -/
theorem NInv.createBatch {r : Replica} (h : NInv cfg D A r) (b : NewBatch)
    (hs : r.canSendBatch cfg = true → A (r.view, r.lastPP + 1) (cfg.digest b.reqs r.view b.time)) : NInv cfg D A (r.createBatch cfg b) := by
  unfold Replica.createBatch
  split
  · exact h
  · next hc =>
    have hc : r.canSendBatch cfg = true := by simpa using hc
    obtain ⟨c1, c2, -⟩ := canSend_prim hc
    have hA := hs hc
    have hn : r.getPP (r.view, r.lastPP + 1) = none := by
      cases hg : r.getPP (r.view, r.lastPP + 1) with
      | none => rfl
      | some x =>
        rcases getPP_some hg with hg | hg
        · have h2 : r.lastPP + 1 ≤ r.lastPP := (h.pps _ _ hg).2
          omega
        · exact (h.ppr _ _ hg c1).elim
    simp only [Replica.addToSentPP, Replica.bumpLastPP]
    obtain ⟨pp, hpp⟩ : ∃ pp : PrePrepare, pp =
      { viewNo := r.view, seqNo := r.lastPP + 1, origView := r.view, time := b.time, reqs := b.reqs
        ledger := b.ledger, poolRoot := b.poolRoot
        content := ⟨cfg.digest b.reqs r.view b.time, b.stateRoot, b.txnRoot, b.auditRoot⟩ } := ⟨_, rfl⟩
    have hk : pp.key = (r.view, r.lastPP + 1) := by rw [hpp]; rfl
    have hd : pp.content.digest = cfg.digest b.reqs r.view b.time := by rw [hpp]
    have hv : pp.viewNo = r.view := by rw [hpp]
    have hsq : pp.seqNo = r.lastPP + 1 := by rw [hpp]
    rw [← hpp]
    have h1 := h.trackPreprepared (trackBatch r.preprepared pp.batchId)
      (fun x hx => (mem_trackBatch.1 hx).imp id (fun e => by
        subst e
        refine ⟨hv, ?_⟩
        show A (r.view, pp.seqNo) pp.content.digest
        rw [hsq, hd]; exact hA))
    have h2 := h1.put (.prePrepare pp) c2 hv (if r.lastPP + 1 > r.lastPP then r.lastPP + 1 else r.lastPP)
      (by simp only; split <;> omega)
      (by intro p hp; cases hp) (by intro p hp; cases hp)
      (by intro p hp; cases hp; exact ⟨c1, by show r.lastPP < _; omega, by split <;> omega⟩)
    have h3 := h2.setSent pp hv c2 c1 (by simp only; split <;> omega) (by rw [hk, hd]; exact hA)
      (fun old ho => by
        have ho : r.getPP pp.key = some old := ho
        rw [hk, hn] at ho; cases ho)
    exact { h3 with }

theorem NInv.processOutOfOrder {r : Replica} (h : NInv cfg D A r) (hw : r.waiting = false) :
    NInv cfg D A (r.processOutOfOrder cfg) := by
  unfold Replica.processOutOfOrder
  split
  · exact h
  · simp only
    have hfold : ∀ (q : List (Key × Commit)) (s : Replica × Key × List Key), NInv cfg D A s.1 → s.1.waiting = false →
        NInv cfg D A (q.foldl (Replica.orderStashed cfg) s).1 := by
      intro q
      induction q with
      | nil => intro s h _; exact h
      | cons e q ih =>
        intro s h hw
        rw [List.foldl_cons]
        obtain ⟨r, lo, del⟩ := s
        have key : NInv cfg D A (Replica.orderStashed cfg (r, lo, del) e).1 ∧
            (Replica.orderStashed cfg (r, lo, del) e).1.waiting = false := by
          unfold Replica.orderStashed
          simp only
          split
          · exact ⟨h, hw⟩
          · split
            · exact ⟨h, hw⟩
            · split
              · have f := frame_tryOrder (cfg := cfg) r e.2
                split
                · exact ⟨h.tryOrder _ hw, f.waiting.trans hw⟩
                · exact ⟨h.tryOrder _ hw, f.waiting.trans hw⟩
              · exact ⟨h, hw⟩
        exact ih _ key.1 key.2
    exact { hfold r.outOfOrder (r, r.lastOrdered, []) h hw with }

/-- With nothing counted, nothing is ordered. -/
theorem waiting_outOfOrder {r : Replica} (h : NInv cfg D A r) (hw : r.waiting = true) :
    NInv cfg D A (r.processOutOfOrder cfg) := by
  have hn : ∀ k, r.getPP k = none := by
    intro k
    unfold Replica.getPP
    simp only [((h.wait hw).1 k).1, ((h.wait hw).1 k).2.1]
  have hfold : ∀ (q : List (Key × Commit)) (s : Replica × Key × List Key), NInv cfg D A s.1 → (∀ k, s.1.getPP k = none) →
      NInv cfg D A (q.foldl (Replica.orderStashed cfg) s).1 := by
    intro q
    induction q with
    | nil => intro s h _; exact h
    | cons e q ih =>
      intro s h hn
      rw [List.foldl_cons]
      obtain ⟨r, lo, del⟩ := s
      have ht : NInv cfg D A (r.tryOrder cfg e.2).1 := by
        unfold Replica.tryOrder
        split
        · exact h
        · split
          · exact h
          · split
            · exact { h with }
            · unfold Replica.order; rw [hn]; exact h
      have key : NInv cfg D A (Replica.orderStashed cfg (r, lo, del) e).1 ∧
          ∀ k, (Replica.orderStashed cfg (r, lo, del) e).1.getPP k = none := by
        unfold Replica.orderStashed
        simp only
        split
        · exact ⟨h, hn⟩
        · split
          · exact ⟨h, hn⟩
          · split
            · have f := frame_tryOrder (cfg := cfg) r e.2
              split
              · exact ⟨ht, fun k => (f.getPP k).trans (hn k)⟩
              · exact ⟨ht, fun k => (f.getPP k).trans (hn k)⟩
            · exact ⟨h, hn⟩
      exact ih _ key.1 key.2
  unfold Replica.processOutOfOrder
  split
  · exact h
  · simp only
    exact { hfold r.outOfOrder (r, r.lastOrdered, []) h hn with }

/-! ### What ordinary events leave alone -/

structure Quiet (r r' : Replica) : Prop where
  view : r'.view = r.view
  waiting : r'.waiting = r.waiting
  prevCert : r'.prevCert = r.prevCert
  stable : r'.stable = r.stable
  keep : ∀ m ∈ r.out, m ∈ r'.out
  new : ∀ m ∈ r'.out, m ∈ r.out ∨ m.viewNo = r.view

theorem Quiet.refl (r : Replica) : Quiet r r := ⟨rfl, rfl, rfl, rfl, fun _ h => h, fun _ h => .inl h⟩

theorem Quiet.trans {a b c : Replica} (h : Quiet a b) (g : Quiet b c) : Quiet a c :=
  ⟨g.1.trans h.1, g.2.trans h.2, g.3.trans h.3, g.4.trans h.4, fun m hm => g.5 m (h.5 m hm), fun m hm => by
    rcases g.6 m hm with x | x
    · exact h.6 m x
    · exact .inr (x.trans h.1)⟩

theorem Quiet.after {a b c : Replica} (g : Quiet b c) (h : Quiet a b) : Quiet a c := h.trans g

theorem quiet_of {r r' : Replica} (f : Frame r r') (g : Frame2 r r') : Quiet r r' :=
  ⟨f.view, f.waiting, f.prevCert, g.stable, fun m hm => by rw [f.out]; exact hm, fun m hm => by rw [f.out] at hm; exact .inl hm⟩

theorem quiet_tryCommit (r : Replica) (k : Key) (hk : k.1 = r.view) : Quiet r (r.tryCommit cfg k) := by
  unfold Replica.tryCommit
  split
  · exact .refl _
  · split
    · exact .refl _
    · have h2 : ∀ l, Quiet r (Replica.doCommit cfg { r with prepared := l } k) := by
        intro l
        unfold Replica.doCommit
        simp only
        refine Quiet.after (quiet_of (frame_addToCommits _ _ _) (frame2_addToCommits _ _ _))
          ⟨rfl, rfl, rfl, rfl, mem_append_right', ?_⟩
        intro m hm
        rcases List.mem_append.1 hm with hm | hm
        · exact .inl hm
        · rw [List.mem_singleton.1 hm]; exact .inr hk
      exact h2 _

theorem quiet_addToPrepares (r : Replica) (p : Prepare) (w : Node) (hk : p.viewNo = r.view) :
    Quiet r (r.addToPrepares cfg p w) := by
  unfold Replica.addToPrepares
  simp only
  have h1 : Quiet r (Replica.dequeueCommits cfg { r with prepares := addVote r.prepares p.key p w } p.key) :=
    Quiet.trans (b := { r with prepares := addVote r.prepares p.key p w })
      ⟨rfl, rfl, rfl, rfl, fun _ h => h, fun _ h => .inl h⟩ (quiet_of (frame_dequeueCommits _ _) (frame2_dequeueCommits _ _))
  exact h1.trans (quiet_tryCommit _ _ (by rw [h1.view]; exact hk))

theorem quiet_processPrepare (r : Replica) (p : Prepare) (w : Node) : Quiet r (r.processPrepare cfg p w) := by
  have henq : Quiet r (r.enqueuePrepare p w) := ⟨rfl, rfl, rfl, rfl, fun _ h => h, fun _ h => .inl h⟩
  unfold Replica.processPrepare
  split
  · exact .refl _
  · next ha =>
    have ha : r.admits p.viewNo p.seqNo = true := by simpa using ha
    obtain ⟨a1, a2, -⟩ := admits_iff r _ _ ha
    repeat' split
    all_goals first | exact .refl _ | exact henq | exact quiet_addToPrepares r p w a1

theorem quiet_dequeuePrepares (r : Replica) (k : Key) : Quiet r (r.dequeuePrepares cfg k) := by
  unfold Replica.dequeuePrepares
  split
  · exact .refl _
  · next q hq =>
    have hfold : ∀ (q : List (Prepare × Node)) (r : Replica),
        Quiet r (q.foldl (fun r e => r.processPrepare cfg e.1 e.2) r) := by
      intro q
      induction q with
      | nil => intro r; exact .refl _
      | cons e q ih => intro r; exact (quiet_processPrepare r _ _).trans (ih _)
    have h1 := hfold q { r with prepWait := r.prepWait.set k [] }
    exact ⟨h1.1, h1.2, h1.3, h1.4, h1.5, h1.6⟩

theorem quiet_tryPrepare (r : Replica) (pp : PrePrepare) (hk : pp.viewNo = r.view) : Quiet r (r.tryPrepare cfg pp) := by
  unfold Replica.tryPrepare
  split
  · exact .refl _
  · unfold Replica.doPrepare
    simp only
    refine Quiet.trans (b := { r with out := r.out ++ [.prepare _] }) ⟨rfl, rfl, rfl, rfl, mem_append_right', ?_⟩
        (quiet_addToPrepares _ _ _ hk)
    intro m hm
    rcases List.mem_append.1 hm with hm | hm
    · exact .inl hm
    · rw [List.mem_singleton.1 hm]; exact .inr hk

theorem quiet_processPrePrepare (r : Replica) (pp : PrePrepare) (w : Node) (env : PPEnv) :
    Quiet r (r.processPrePrepare cfg pp w env) := by
  unfold Replica.processPrePrepare
  split
  · exact .refl _
  · next ha =>
    have ha : r.admits pp.viewNo pp.seqNo = true := by simpa using ha
    obtain ⟨a1, a2, -⟩ := admits_iff r _ _ ha
    split
    · exact .refl _
    · unfold Replica.processValidPP
      split
      · exact .refl _
      · simp only
        refine Quiet.trans ?_ (quiet_of (frame_dequeueCommits _ _) (frame2_dequeueCommits _ _))
        refine Quiet.trans ?_ (quiet_dequeuePrepares _ _)
        generalize hr0 : (if r.alreadyOrdered pp.seqNo then r
            else { r with batches := (r.batches.filter (fun k => ¬ k = pp.key)) ++ [pp.key] }) = r0
        have h0 : Quiet r r0 := by
          subst hr0; split <;> exact ⟨rfl, rfl, rfl, rfl, fun _ h => h, fun _ h => .inl h⟩
        refine h0.trans ?_
        split
        · exact ⟨rfl, rfl, rfl, rfl, fun _ h => h, fun _ h => .inl h⟩
        · unfold Replica.addToPrePrepares
          simp only
          exact Quiet.after (quiet_tryPrepare _ _ (by show _ = r0.view; rw [h0.view]; exact a1))
            ⟨rfl, rfl, rfl, rfl, fun _ h => h, fun _ h => .inl h⟩

theorem quiet_createBatch (r : Replica) (b : NewBatch) : Quiet r (r.createBatch cfg b) := by
  unfold Replica.createBatch
  split
  · exact .refl _
  · refine ⟨rfl, rfl, rfl, rfl, mem_append_right', ?_⟩
    intro m hm
    rcases List.mem_append.1 hm with hm | hm
    · exact .inl hm
    · rw [List.mem_singleton.1 hm]; exact .inr rfl

theorem quiet_processOutOfOrder (r : Replica) : Quiet r (r.processOutOfOrder cfg) := by
  unfold Replica.processOutOfOrder
  split
  · exact .refl _
  · simp only
    have hfold : ∀ (q : List (Key × Commit)) (s : Replica × Key × List Key),
        Quiet s.1 (q.foldl (Replica.orderStashed cfg) s).1 := by
      intro q
      induction q with
      | nil => intro s; exact .refl _
      | cons e q ih =>
        intro s
        rw [List.foldl_cons]
        refine Quiet.trans ?_ (ih _)
        obtain ⟨r, lo, del⟩ := s
        unfold Replica.orderStashed
        simp only
        repeat' split
        all_goals first | exact .refl _ | exact quiet_of (frame_tryOrder _ _) (frame2_tryOrder _ _)
    have h1 := hfold r.outOfOrder (r, r.lastOrdered, [])
    exact ⟨h1.1, h1.2, h1.3, h1.4, h1.5, h1.6⟩

theorem quiet_oldViewPP (r : Replica) (pp : PrePrepare) (env : PPEnv) : Quiet r (r.oldViewPP cfg pp env) := by
  unfold Replica.oldViewPP
  split
  · exact quiet_processPrePrepare _ _ _ _
  · exact .refl _

/-- A checkpoint becomes stable and the watermarks move. -/
theorem NInv.stabilize {r : Replica} (h : NInv cfg D A r) (till : Nat) (h1 : r.stable ≤ till) (h2 : till ≤ r.lastOrdered.2)
    (od : List Key) :
    NInv cfg D A { r.dropKeys (fun k => k.2 ≤ till) with
      ordered := od, stable := till, lowWM := till, highWM := till + 300 } := by
  obtain ⟨q, hq⟩ : ∃ q : Key → Bool, q = (fun k => decide (k.2 ≤ till) && (r.getPP k).isSome) := ⟨_, rfl⟩
  have hqle : ∀ k, q k = true → k.2 ≤ till := by
    intro k hk; rw [hq] at hk; simp only [Bool.and_eq_true, decide_eq_true_eq] at hk; exact hk.1
  have hget : ∀ {β : Type} (d : Dict Key β) (k : Key),
      Dict.get? (d.filter (fun e => !q e.1)) k = if q k then none else d.get? k := by
    intro β d k
    rw [Dict.get?_filter d (fun k => !q k)]
    cases q k <;> rfl
  have hsome : ∀ {β : Type} (d : Dict Key β) (k : Key) (v : β),
      Dict.get? (d.filter (fun e => !q e.1)) k = some v → q k = false ∧ d.get? k = some v := by
    intro β d k v hv
    rw [hget] at hv
    cases e : q k with
    | true => rw [e] at hv; cases hv
    | false => rw [e] at hv; exact ⟨rfl, hv⟩
  have hq' : ∀ k : Key, (decide (k.2 ≤ till) && (r.getPP k).isSome) = q k := fun k => by rw [hq]
  unfold Replica.dropKeys
  simp only [hq']
  have hpp : ∀ k, q k = false → ({ r with
      sentPP := r.sentPP.filter (fun e => !q e.1)
      recvPP := r.recvPP.filter (fun e => !q e.1)
      prepares := r.prepares.filter (fun e => !q e.1)
      commits := r.commits.filter (fun e => !q e.1)
      batches := r.batches.filter (fun k => !q k)
      preprepared := r.preprepared.filter (fun b => !r.clears (fun k => decide (k.2 ≤ till)) b)
      prepared := r.prepared.filter (fun b => !r.clears (fun k => decide (k.2 ≤ till)) b)
      ordered := od, stable := till, lowWM := till, highWM := till + 300 } : Replica).getPP k = r.getPP k := by
    intro k hk
    unfold Replica.getPP
    simp only [hget, hk, Bool.false_eq_true, if_false]
  exact { h with
    lo := rfl
    hi := rfl
    stl := h2
    sto := by
      intro k x hk
      rcases hk with hk | hk
      · exact h.sto k x (.inl (hsome _ _ _ hk).2)
      · exact h.sto k x (.inr (hsome _ _ _ hk).2)
    pps := fun k x hk => h.pps k x (hsome _ _ _ hk).2
    ppr := fun k x hk => h.ppr k x (hsome _ _ _ hk).2
    wait := by
      intro hw
      obtain ⟨a, b⟩ := h.wait hw
      refine ⟨fun k => ?_, b⟩
      obtain ⟨a1, a2, a3, a4⟩ := a k
      refine ⟨?_, ?_, ?_, ?_⟩ <;> simp only [hget, a1, a2, a3, a4, ite_self]
    ownP := by
      intro x hx a
      rcases h.ownP x hx a with c | ⟨pp, c1, c2⟩
      · exact .inl (Nat.le_trans c h1)
      · cases e : q x.key with
        | true => exact .inl (hqle _ e)
        | false =>
          refine .inr ⟨pp, ?_, c2⟩
          simp only [hget, e, Bool.false_eq_true, if_false]; exact c1
    vot := by
      intro k vs m hk
      obtain ⟨e, hk⟩ := hsome _ _ _ hk
      obtain ⟨n0, n1, pp, n2, n3⟩ := h.vot k vs m hk
      exact ⟨n0, n1, pp, by rw [hpp k e]; exact n2, n3⟩
    com := fun k vs m hk => h.com k vs m (hsome _ _ _ hk).2
    cmA := by
      intro c hc a
      rcases h.cmA c hc a with x | ⟨pp, y1, y2⟩
      · exact .inl (Nat.le_trans x h1)
      · cases e : q c.key with
        | true => exact .inl (hqle _ e)
        | false => exact .inr ⟨pp, by rw [hpp _ e]; exact y1, y2⟩
    cmt := fun c hc => ⟨by have := (h.cmt c hc).1; simp only; omega, (h.cmt c hc).2⟩
    ordB := by
      intro o ho a
      rcases h.ordB o ho a with x | ⟨pp, y1, y2⟩
      · exact .inl (Nat.le_trans x h1)
      · cases e : q o.key with
        | true => exact .inl (hqle _ e)
        | false => exact .inr ⟨pp, by rw [hpp _ e]; exact y1, y2⟩
    prp := fun b hb => h.prp b (List.mem_filter.1 hb).1
    trk := fun b hb => h.trk b (List.mem_filter.1 hb).1
    rep := by
      intro c hc a
      rcases h.rep c hc a with x | ⟨b, y1, y2⟩
      · exact .inl (Nat.le_trans x h1)
      · by_cases e : c.seqNo ≤ till
        · exact .inl e
        · refine .inr ⟨b, List.mem_filter.2 ⟨y1, ?_⟩, y2⟩
          simp only [Replica.clears, y2, e, decide_false, Bool.false_and, Bool.not_false] }

theorem NInv.startViewChange {r : Replica} (h : NInv cfg D A r) (v : Nat) : NInv cfg D A (r.startViewChange v) := by
  unfold Replica.startViewChange
  split
  · exact h
  · next hv =>
    have hlt : ∀ m ∈ r.out, m.viewNo < v := fun m hm => by have := h.outv m hm; omega
    simp only [Replica.revertUnordered]
    exact { h with
      sto := by intro k pp hk; simp at hk
      pps := by intro k pp hk; simp at hk
      ppr := by intro k pp hk; simp at hk
      wait := by intro _; exact ⟨fun k => by simp, hlt⟩
      outv := fun m hm => Nat.le_of_lt (hlt m hm)
      ownP := by
        intro p hp a
        have := hlt _ hp
        simp only [Msg.viewNo] at this a
        omega
      vot := by intro k vs m hk; simp at hk
      com := by intro k vs m hk; simp at hk
      cmA := by
        intro p hp a
        have := hlt _ hp
        simp only [Msg.viewNo] at this a
        omega
      ordv := fun o ho => by have := h.ordv o ho; simp only; omega
      ordB := by
        intro o ho a
        have := h.ordv o ho
        simp only at a
        omega
      prp := by intro b hb; simp at hb
      trk := by intro b hb; simp at hb
      rep := by
        intro p hp a
        have := hlt _ hp
        simp only [Msg.viewNo] at this a
        omega
      ppo := by
        intro p hp
        refine ⟨(h.ppo p hp).1, fun e => ?_⟩
        have := hlt _ hp
        simp only [Msg.viewNo] at this e
        omega }

theorem NInv.acceptNewView {r : Replica} (h : NInv cfg D A r) : NInv cfg D A (r.acceptNewView cfg) := by
  unfold Replica.acceptNewView
  split
  · exact { h with wait := by intro hw'; cases hw' }
  · exact h

theorem NInv.init : NInv cfg D A {} where
  part := rfl
  lo := rfl
  hi := rfl
  stl := Nat.le_refl _
  caught := rfl
  sto := by intro k pp hk; simp at hk
  pps := by intro k pp hk; simp at hk
  ppr := by intro k pp hk; simp at hk
  wait := by intro hw; cases hw
  outv := by simp
  ownP := by simp
  uniqP := by simp
  outA := by simp
  vot := by intro k vs m hk; simp at hk
  com := by intro k vs m hk; simp at hk
  cmA := by simp
  cmt := by simp
  ordv := by simp
  ordp := List.Pairwise.nil
  ordB := by simp
  ordC := by simp
  ord := by simp
  prp := by simp
  trk := by simp
  rep := by simp
  ppo := by simp
  ppu := by simp
  prW := by intro k q hk; simp at hk
  cmW := by intro k q hk; simp at hk

end Verif.TPC
