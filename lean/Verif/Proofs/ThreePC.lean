import Verif.Model.ThreePC
/-! Invariants of one replica's three-phase commit. -/
namespace Verif.TPC

/-- View of a message. -/
def Msg.viewNo : Msg → Nat
  | .prePrepare p => p.viewNo
  | .prepare p => p.viewNo
  | .commit c => c.viewNo

/-! ## Votes -/

theorem addVote_get {μ : Type} (d : Dict Key (List Node × μ)) (k : Key) (m : μ) (w : Node) (j : Key) :
    (addVote d k m w).get? j =
      if k = j then
        some (match d.get? k with
          | none => ([w], m)
          | some (vs, m0) => (if w ∈ vs then vs else vs ++ [w], m0))
      else d.get? j := by
  unfold addVote
  cases h : d.get? k with
  | none => simp only [Dict.get?_set]
  | some e => obtain ⟨vs, m0⟩ := e; simp only [Dict.get?_set]

theorem hasVote_iff {μ : Type} (d : Dict Key (List Node × μ)) (k : Key) (w : Node) :
    hasVote d k w = true ↔ ∃ vs m, d.get? k = some (vs, m) ∧ w ∈ vs := by
  unfold hasVote
  cases h : d.get? k with
  | none => simp
  | some e => obtain ⟨vs, m⟩ := e; simp

theorem addVote_hasVote {μ : Type} (d : Dict Key (List Node × μ)) (k : Key) (m : μ) (w : Node)
    (j : Key) (u : Node) (h : hasVote d j u = true) : hasVote (addVote d k m w) j u = true := by
  rw [hasVote_iff] at *
  obtain ⟨vs, m0, h1, h2⟩ := h
  rw [addVote_get]
  by_cases hk : k = j
  · subst hk
    rw [if_pos rfl, h1]
    exact ⟨_, _, rfl, by split <;> simp [h2]⟩
  · rw [if_neg hk]; exact ⟨_, _, h1, h2⟩

theorem addVote_hasVote_self {μ : Type} (d : Dict Key (List Node × μ)) (k : Key) (m : μ) (w : Node) :
    hasVote (addVote d k m w) k w = true := by
  rw [hasVote_iff, addVote_get, if_pos rfl]
  cases h : d.get? k with
  | none => exact ⟨_, _, rfl, by simp⟩
  | some e =>
    obtain ⟨vs, m0⟩ := e
    refine ⟨_, _, rfl, ?_⟩
    split <;> simp_all

/-! ## Admission -/

/-- Exactly when a 3PC message is processed. -/
theorem validate3pc_process (d : SharedData) (i v s : Nat) : (d.validate3pc i v s).1 = .process ↔
    i = d.instId ∧ 0 < s ∧ d.lowWatermark < s ∧ s ≤ d.highWatermark ∧ v = d.viewNo ∧
    d.participating = true ∧ d.waitingForNewView = false ∧
    (s ≤ d.lastOrdered.2 → s ≤ d.prevViewPrepareCert) ∧
    (0 < v → d.prevViewPrepareCert + 1 < s → d.prevViewPrepareCert < d.lastOrdered.2) := by
  unfold SharedData.validate3pc SharedData.validateBase SharedData.hasAlreadyOrdered
  by_cases h1 : i = d.instId <;> simp only [h1, ne_eq, not_true, if_false, not_false_iff, if_true]
  case neg => simp
  by_cases h2 : s = 0 <;> simp only [h2, if_true, if_false]
  case pos => simp
  by_cases h3 : s ≤ d.lowWatermark <;> simp only [h3, if_true, if_false]
  case pos => simp; omega
  by_cases h4 : v < d.viewNo <;> simp only [h4, if_true, if_false]
  case pos => simp; omega
  by_cases h5 : v > d.viewNo <;> simp only [h5, if_true, if_false]
  case pos => simp; omega
  by_cases h6 : d.participating <;> simp only [h6, Bool.not_true, Bool.not_false, if_true, if_false, Bool.false_eq_true]
  case neg => simp
  by_cases h7 : d.waitingForNewView <;> simp only [h7, not_true, if_true, if_false, Bool.false_eq_true]
  case pos => simp
  by_cases h8 : s > d.highWatermark <;> simp only [h8, if_true, if_false]
  case pos => simp; omega
  by_cases h9 : s ≤ d.lastOrdered.2 ∧ d.prevViewPrepareCert < s
  · simp [h9]; omega
  · rw [if_neg (by simpa using h9)]
    by_cases h10 : (0 < v ∧ d.prevViewPrepareCert + 1 < s) ∧ d.lastOrdered.2 < d.prevViewPrepareCert + 1
    · rw [if_pos (by simpa using h10)]; simp; omega
    · rw [if_neg (by simpa using h10)]; simp; omega

theorem admits_iff (r : Replica) (v s : Nat) : r.admits v s = true →
    v = r.view ∧ r.waiting = false ∧ 0 < s ∧ (r.prevCert < s → r.lastOrdered.2 < s) ∧
      r.participating = true := by
  intro h
  have h := (validate3pc_process r.shared 0 v s).1 (by simpa [Replica.admits] using h)
  obtain ⟨-, h0, -, -, h1, h2, h3, h4, -⟩ := h
  simp only [Replica.shared] at *
  refine ⟨h1, h3, h0, fun h => ?_, h2⟩
  omega

@[simp] theorem alreadyOrdered_iff (r : Replica) (s : Nat) : r.alreadyOrdered s = true ↔ s ≤ r.lastOrdered.2 := by
  unfold Replica.alreadyOrdered SharedData.hasAlreadyOrdered Replica.shared
  exact decide_eq_true_iff

@[simp] theorem alreadyOrdered_false (r : Replica) (s : Nat) : r.alreadyOrdered s = false ↔ r.lastOrdered.2 < s := by
  rw [← Bool.not_eq_true, alreadyOrdered_iff]; omega

theorem Cfg.cert_lt (cfg : Cfg) {v s : Nat} (h : cfg.top v < s) : cfg.cert v < s := by
  unfold Cfg.top at h; omega

variable (cfg : Cfg) (D : Node → Msg → Prop)

/-- Message `m` of node `w` was seen: sent by this replica or delivered. -/
def Src (out : List Msg) (w : Node) (m : Msg) : Prop :=
  (w = cfg.name ∧ m ∈ out) ∨ (w ≠ cfg.name ∧ D w m)

theorem Src.mono {out out' : List Msg} (h : ∀ m ∈ out, m ∈ out') {w m} (hs : Src cfg D out w m) :
    Src cfg D out' w m := by
  rcases hs with ⟨a, b⟩ | b
  · exact .inl ⟨a, h _ b⟩
  · exact .inr b

/-- A prepare certificate for `pp` at key `k`. -/
def Certified (out : List Msg) (k : Key) (pp : PrePrepare) : Prop :=
  pp.key = k ∧ Src cfg D out (cfg.primary k.1) (.prePrepare pp) ∧
  ∃ Q : List Node, Q.Nodup ∧ (Quorums.ofN cfg.n).prepare.value ≤ Q.length ∧
    ∀ q ∈ Q, q ≠ cfg.primary k.1 ∧
      ∃ p : Prepare, p.key = k ∧ p.content = pp.content ∧ Src cfg D out q (.prepare p)

/-- The evidence for ordering `pp`. -/
def OrderEvidence (out : List Msg) (pp : PrePrepare) : Prop :=
  Src cfg D out (cfg.primary pp.viewNo) (.prePrepare pp) ∧
  ∃ Q : List Node, Q.Nodup ∧ (Quorums.ofN cfg.n).commit.value ≤ Q.length ∧
    ∀ q ∈ Q, ∃ c : Commit, c.key = pp.key ∧ blsAccepts pp c = true ∧ Src cfg D out q (.commit c)

theorem Certified.mono {out out' : List Msg} (h : ∀ m ∈ out, m ∈ out') {k pp}
    (hs : Certified cfg D out k pp) : Certified cfg D out' k pp := by
  obtain ⟨a, b, Q, c, d, e⟩ := hs
  refine ⟨a, b.mono cfg D h, Q, c, d, fun q hq => ⟨(e q hq).1, ?_⟩⟩
  obtain ⟨p, p1, p2, p3⟩ := (e q hq).2
  exact ⟨p, p1, p2, p3.mono cfg D h⟩

theorem Certified.monoD {D' : Node → Msg → Prop} {out : List Msg} (h : ∀ w m, D w m → D' w m) {k pp}
    (hs : Certified cfg D out k pp) : Certified cfg D' out k pp := by
  have sm : ∀ {w m}, Src cfg D out w m → Src cfg D' out w m := by
    intro w m hx
    rcases hx with hx | ⟨a, b⟩
    · exact .inl hx
    · exact .inr ⟨a, h _ _ b⟩
  obtain ⟨a, b, Q, c, d, e⟩ := hs
  refine ⟨a, sm b, Q, c, d, fun q hq => ⟨(e q hq).1, ?_⟩⟩
  obtain ⟨p, p1, p2, p3⟩ := (e q hq).2
  exact ⟨p, p1, p2, sm p3⟩

theorem OrderEvidence.mono {out out' : List Msg} (h : ∀ m ∈ out, m ∈ out') {pp}
    (hs : OrderEvidence cfg D out pp) : OrderEvidence cfg D out' pp := by
  obtain ⟨b, Q, c, d, e⟩ := hs
  refine ⟨b.mono cfg D h, Q, c, d, fun q hq => ?_⟩
  obtain ⟨p, p1, p2, p3⟩ := e q hq
  exact ⟨p, p1, p2, p3.mono cfg D h⟩

/-- The invariant behind C17 and C19. Sequence numbers at or below the view's
prepared certificate (re-ordering after a view change) are left out of most
parts. -/
structure Inv (r : Replica) : Prop where
  kv : ∀ k, (∃ v, r.sentPP.get? k = some v) ∨ (∃ v, r.recvPP.get? k = some v) ∨
    (∃ v, r.prepares.get? k = some v) ∨ (∃ v, r.commits.get? k = some v) → k.1 = r.view
  ppk : ∀ k pp, r.sentPP.get? k = some pp ∨ r.recvPP.get? k = some pp → pp.key = k
  wait : r.waiting = true → (∀ k, r.sentPP.get? k = none ∧ r.recvPP.get? k = none ∧
    r.prepares.get? k = none ∧ r.commits.get? k = none) ∧ ∀ m ∈ r.out, m.viewNo < r.view
  outv : ∀ m ∈ r.out, m.viewNo ≤ r.view
  cert : r.waiting = false → r.prevCert = cfg.cert r.view
  ownP : ∀ p, .prepare p ∈ r.out → p.viewNo = r.view → cfg.top r.view < p.seqNo →
    p.seqNo ≤ r.lastOrdered.2 ∨
      ∃ pp, r.recvPP.get? p.key = some pp ∧ p.content = pp.content ∧ hasVote r.prepares p.key cfg.name = true
  uniqP : ∀ p q, .prepare p ∈ r.out → .prepare q ∈ r.out → p.key = q.key → cfg.top p.viewNo < p.seqNo →
    p = q
  ownC : ∀ c, .commit c ∈ r.out → c.viewNo = r.view → cfg.top r.view < c.seqNo →
    c.seqNo ≤ r.lastOrdered.2 ∨ hasVote r.commits c.key cfg.name = true
  uniqC : ∀ c d, .commit c ∈ r.out → .commit d ∈ r.out → c.key = d.key → cfg.top c.viewNo < c.seqNo →
    c = d
  ordv : ∀ o ∈ r.ordLog, o.viewNo ≤ r.view
  cmA : ∀ c, .commit c ∈ r.out → c.viewNo = r.view → cfg.top r.view < c.seqNo → r.lastOrdered.2 < c.seqNo →
    ∃ pp, r.getPP c.key = some pp ∧ Certified cfg D r.out c.key pp
  ordB : ∀ o ∈ r.ordLog, o.viewNo = r.view → cfg.top r.view < o.seqNo →
    o.seqNo ≤ r.lastOrdered.2 ∧ (cfg.primary r.view = cfg.name → o.seqNo ≤ r.lastPP) ∧
      (r.getPP o.key = some o ∨ r.getPP o.key = none)
  ordC : ∀ o ∈ r.ordLog, ∀ c, .commit c ∈ r.out → c.key = o.key → cfg.top o.viewNo < o.seqNo →
    Certified cfg D r.out o.key o
  notPrim : ∀ p, .prepare p ∈ r.out → cfg.primary p.viewNo ≠ cfg.name
  vot : ∀ k vs m, r.prepares.get? k = some (vs, m) → cfg.top r.view < k.2 →
    vs.Nodup ∧ ∃ pp, r.getPP k = some pp ∧ ∀ w ∈ vs, w ≠ cfg.primary k.1 ∧
      ∃ p : Prepare, p.key = k ∧ p.content = pp.content ∧ Src cfg D r.out w (.prepare p)
  ppr : ∀ k pp, r.recvPP.get? k = some pp → cfg.top r.view < k.2 →
    cfg.primary k.1 ≠ cfg.name ∧ D (cfg.primary k.1) (.prePrepare pp)
  pps : ∀ k pp, r.sentPP.get? k = some pp → cfg.top r.view < k.2 →
    cfg.primary k.1 = cfg.name ∧ .prePrepare pp ∈ r.out
  com : ∀ k vs m, r.commits.get? k = some (vs, m) → cfg.top r.view < k.2 →
    vs.Nodup ∧ ∃ pp, r.getPP k = some pp ∧ ∀ w ∈ vs,
      ∃ c : Commit, c.key = k ∧ blsAccepts pp c = true ∧ Src cfg D r.out w (.commit c)
  cmt : ∀ c, .commit c ∈ r.out → cfg.top c.viewNo < c.seqNo →
    ∃ pp, Certified cfg D r.out c.key pp ∧ c.bls = if cfg.bls then some (blsValue pp) else none
  ord : ∀ o ∈ r.ordLog, cfg.top o.viewNo < o.seqNo → OrderEvidence cfg D r.out o
  ppo : ∀ pp, .prePrepare pp ∈ r.out → cfg.primary pp.viewNo = cfg.name ∧
    (pp.viewNo = r.view → pp.seqNo ≤ r.lastPP)
  ppu : ∀ p q, .prePrepare p ∈ r.out → .prePrepare q ∈ r.out → p.key = q.key → p = q
  prW : ∀ k q, r.prepWait.get? k = some q → ∀ e ∈ q, e.1.key = k ∧ D e.2 (.prepare e.1)
  cmW : ∀ k q, r.commWait.get? k = some q → ∀ e ∈ q, e.1.key = k ∧ D e.2 (.commit e.1)
  ooo : ∀ e ∈ r.outOfOrder, e.2.key = e.1
  trk : r.caught = 0 → ∀ b ∈ r.preprepared, b.viewNo ≤ r.view
  prp : r.caught = 0 → ∀ b ∈ r.prepared, cfg.top r.view < b.ppSeqNo →
    ∃ pp, pp.batchId = b ∧ Certified cfg D r.out (r.view, b.ppSeqNo) pp
  rep : ∀ c, .commit c ∈ r.out → c.viewNo = r.view → cfg.top r.view < c.seqNo →
    c.seqNo ≤ r.stable ∨ c.seqNo ≤ r.caught ∨ ∃ pp, pp.batchId ∈ r.prepared ∧ Certified cfg D r.out c.key pp

variable {cfg D}

theorem getPP_some {r : Replica} {k : Key} {pp : PrePrepare} (h : r.getPP k = some pp) :
    r.sentPP.get? k = some pp ∨ r.recvPP.get? k = some pp := by
  unfold Replica.getPP at h
  split at h
  · next x hx => cases h; exact .inl hx
  · exact .inr h

theorem getPP_of {r : Replica} {k : Key} (h : (∃ v, r.sentPP.get? k = some v) ∨ ∃ v, r.recvPP.get? k = some v) :
    ∃ pp, r.getPP k = some pp := by
  unfold Replica.getPP
  split
  · exact ⟨_, rfl⟩
  · next hn =>
    rcases h with ⟨v, h⟩ | h
    · rw [h] at hn; cases hn
    · exact h

theorem mem_trackBatch {l : List BatchID} {a b : BatchID} : b ∈ trackBatch l a ↔ b ∈ l ∨ b = a := by
  unfold trackBatch
  split
  · next h => exact ⟨.inl, fun x => x.elim id (fun e => e ▸ h)⟩
  · simp

/-- Pre-prepared and prepared batches may be added and the stable checkpoint may
rise. -/
theorem Inv.track {r : Replica} (h : Inv cfg D r) (a b : List BatchID)
    (ha : ∀ x ∈ a, x ∈ r.preprepared ∨ x.viewNo ≤ r.view) (hb : ∀ x ∈ r.prepared, x ∈ b)
    (hp : ∀ x ∈ b, x ∈ r.prepared ∨ (cfg.top r.view < x.ppSeqNo → ∃ pp, pp.batchId = x ∧
      Certified cfg D r.out (r.view, x.ppSeqNo) pp)) (s t : Nat)
    (hs : r.stable ≤ s) (ht : r.caught ≤ t) :
    Inv cfg D { r with preprepared := a, prepared := b, stable := s, caught := t } :=
  { h with
    trk := fun hc x hx => (ha x hx).elim (h.trk (Nat.le_zero.1 (hc ▸ ht)) x) id
    prp := fun hc x hx => (hp x hx).elim (h.prp (Nat.le_zero.1 (hc ▸ ht)) x) id
    rep := by
      intro c h1 h2 h3
      rcases h.rep c h1 h2 h3 with x | x | ⟨pp, x, y⟩
      · exact .inl (Nat.le_trans x hs)
      · exact .inr (.inl (Nat.le_trans x ht))
      · exact .inr (.inr ⟨pp, hb _ x, y⟩) }

/-- The PRE-PREPARE held for a key above the certificate came from the primary. -/
theorem Inv.ppSrc {r : Replica} (h : Inv cfg D r) {k pp}
    (hp : r.getPP k = some pp) (hk : cfg.top r.view < k.2) :
    Src cfg D r.out (cfg.primary k.1) (.prePrepare pp) := by
  rcases getPP_some hp with h1 | h1
  · have := h.pps k pp h1 hk; exact .inl this
  · have := h.ppr k pp h1 hk; exact .inr this

/-! ## Ordering -/

theorem Inv.order {r : Replica} (h : Inv cfg D r) (k : Key)
    (hq : hasQuorum r.commits k (Quorums.ofN cfg.n).commit.value = true)
    (hlast : r.lastOrdered.2 < k.2) : Inv cfg D (r.order k) := by
  cases hp : r.getPP k with
  | none => unfold Replica.order; rw [hp]; exact h
  | some pp =>
    have hk : pp.key = k := h.ppk k pp (getPP_some hp)
    have hv : k.1 = r.view := h.kv k (by
      rcases getPP_some hp with h1 | h1
      · exact .inl ⟨_, h1⟩
      · exact .inr (.inl ⟨_, h1⟩))
    have hpv : pp.viewNo = k.1 := by rw [← hk]; rfl
    have hps : pp.seqNo = k.2 := by rw [← hk]; rfl
    have e : r.order k =
      { r with ordered := r.ordered ++ [k], lastOrdered := k
               lastPP := if k.2 > r.lastPP then k.2 else r.lastPP, ordLog := r.ordLog ++ [pp] } := by
      unfold Replica.order; rw [hp]; rfl
    rw [e]
    exact { h with
      ownP := by
        intro p a b c
        rcases h.ownP p a b c with d | d
        · exact .inl (by simp only; omega)
        · exact .inr d
      ownC := by
        intro p a b c
        rcases h.ownC p a b c with d | d
        · exact .inl (by simp only; omega)
        · exact .inr d
      ordv := by
        intro o ho
        rcases List.mem_append.1 ho with ho | ho
        · exact h.ordv o ho
        · rw [List.mem_singleton] at ho; subst ho; simp only; omega
      cmA := by
        intro c a b d e
        exact h.cmA c a b d (by simp only at e; omega)
      ordB := by
        intro o ho a b
        rcases List.mem_append.1 ho with ho | ho
        · obtain ⟨b1, b2, b3⟩ := h.ordB o ho a b
          exact ⟨by simp only; omega, fun x => by have := b2 x; simp only; split <;> omega, b3⟩
        · rw [List.mem_singleton] at ho; subst ho
          exact ⟨by simp only; omega, fun _ => by simp only; split <;> omega, .inl (by rw [hk]; exact hp)⟩
      ordC := by
        intro o ho c hc hck hcert
        rcases List.mem_append.1 ho with ho | ho
        · exact h.ordC o ho c hc hck hcert
        · rw [List.mem_singleton] at ho; subst ho
          have e1 : c.viewNo = o.viewNo := congrArg Prod.fst hck
          have e2 : c.seqNo = o.seqNo := congrArg Prod.snd hck
          have e3 : o.viewNo = r.view := by omega
          obtain ⟨q, q1, q2⟩ := h.cmA c hc (by omega) (by rw [← e3, e2]; exact hcert) (by omega)
          rw [hck, hk, hp] at q1; cases q1
          rw [hck] at q2; exact q2
      ord := by
        intro o ho hc
        rcases List.mem_append.1 ho with ho | ho
        · exact h.ord o ho hc
        · rw [List.mem_singleton] at ho
          subst ho
          have hc' : cfg.top r.view < k.2 := by rw [← hv, ← hpv, ← hps]; exact hc
          refine ⟨by rw [hpv]; exact h.ppSrc hp hc', ?_⟩
          unfold hasQuorum at hq
          cases hg : r.commits.get? k with
          | none =>
            rw [hg] at hq
            simp only [ge_iff_le, Nat.le_zero_eq, decide_eq_true_eq] at hq
            exact ⟨[], List.nodup_nil, by rw [hq]; exact Nat.zero_le _, by simp⟩
          | some x =>
            obtain ⟨vs, m⟩ := x
            rw [hg] at hq
            simp only [ge_iff_le, decide_eq_true_eq] at hq
            obtain ⟨n1, qq, n2, n3⟩ := h.com k vs m hg hc'
            rw [hp] at n2; cases n2
            exact ⟨vs, n1, hq, fun q hq => by
              obtain ⟨c, c1, c2, c3⟩ := n3 q hq
              exact ⟨c, by rw [c1, hk], c2, c3⟩⟩
      ppo := by
        intro p hp'
        refine ⟨(h.ppo p hp').1, fun hv => ?_⟩
        have := (h.ppo p hp').2 hv
        simp only; split <;> omega }

theorem Inv.tryOrder {r : Replica} (h : Inv cfg D r) (c : Commit) :
    Inv cfg D (r.tryOrder cfg c).1 := by
  unfold Replica.tryOrder
  split
  · exact h
  · next hq =>
    split
    · exact h
    · next ha =>
      split
      · exact { h with
          ooo := by
            intro e he
            simp only at he
            revert he
            have : ∀ (d : Dict Key Commit), (∀ e ∈ d, e.2.key = e.1) →
                e ∈ d.set c.key c → e.2.key = e.1 := by
              intro d
              induction d with
              | nil => intro _ he; simp [Dict.set] at he; subst he; rfl
              | cons x d ih =>
                intro hd he
                unfold Dict.set at he
                split at he
                · next hx =>
                  rcases List.mem_cons.1 he with e1 | e1
                  · subst e1; exact hx.symm
                  · exact hd _ (List.mem_cons_of_mem _ e1)
                · rcases List.mem_cons.1 he with e1 | e1
                  · subst e1; exact hd _ List.mem_cons_self
                  · exact ih (fun y hy => hd y (List.mem_cons_of_mem _ hy)) e1
            exact this _ h.ooo }
      · refine h.order c.key (by simpa using hq) ?_
        rw [alreadyOrdered_iff] at ha
        show r.lastOrdered.2 < c.seqNo
        omega

/-- Counting a vote for a key above the certificate needs the PRE-PREPARE. -/
theorem Inv.addToCommits {r : Replica} (h : Inv cfg D r) (_ : ∀ w m, D w m → w ≠ cfg.name)
    (c : Commit) (w : Node) (out' : List Msg) (hv : c.viewNo = r.view) (hw : r.waiting = false)
    (hs : Src cfg D out' w (.commit c))
    (hout : out' = r.out ∨ (out' = r.out ++ [.commit c] ∧ w = cfg.name ∧
      (cfg.top r.view < c.seqNo → (∀ d, .commit d ∈ r.out → d.key ≠ c.key) ∧
        ∃ pp, r.getPP c.key = some pp ∧ Certified cfg D r.out c.key pp ∧ c.bls = (if cfg.bls then some (blsValue pp) else none) ∧ pp.batchId ∈ r.prepared)))
    (hb : cfg.top r.view < c.seqNo → ∃ pp, r.getPP c.key = some pp ∧ blsAccepts pp c = true) :
    Inv cfg D (({ r with out := out' } : Replica).addToCommits cfg c w) := by
  have hsub : ∀ m ∈ r.out, m ∈ out' := by
    rcases hout with e | ⟨e, -⟩ <;> subst e
    · exact fun _ h => h
    · exact fun _ h => List.mem_append_left _ h
  have hmem : ∀ x ∈ out', x ∈ r.out ∨ (x = .commit c ∧ w = cfg.name ∧
      (cfg.top r.view < c.seqNo → (∀ d, .commit d ∈ r.out → d.key ≠ c.key) ∧
        ∃ pp, r.getPP c.key = some pp ∧ Certified cfg D r.out c.key pp ∧ c.bls = (if cfg.bls then some (blsValue pp) else none) ∧ pp.batchId ∈ r.prepared)) := by
    intro x hx
    rcases hout with e | ⟨e, e1, e2⟩ <;> subst e
    · exact .inl hx
    · rcases List.mem_append.1 hx with hx | hx
      · exact .inl hx
      · exact .inr ⟨List.mem_singleton.1 hx, e1, e2⟩
  unfold Replica.addToCommits
  refine Inv.tryOrder ?_ c
  exact { h with
    kv := by
      intro k hk
      rcases hk with hk | hk | hk | ⟨v, hk⟩
      · exact h.kv k (.inl hk)
      · exact h.kv k (.inr (.inl hk))
      · exact h.kv k (.inr (.inr (.inl hk)))
      · simp only [addVote_get] at hk
        by_cases e : c.key = k
        · rw [← e]; exact hv
        · rw [if_neg e] at hk; exact h.kv k (.inr (.inr (.inr ⟨v, hk⟩)))
    wait := by intro hw'; simp only at hw'; rw [hw] at hw'; cases hw'
    com := by
      intro k vs m hk hc
      simp only [addVote_get] at hk
      by_cases e : c.key = k
      · subst e
        rw [if_pos rfl] at hk
        obtain ⟨pp, hp, hbl⟩ := hb hc
        cases hg : r.commits.get? c.key with
        | none =>
          rw [hg] at hk; cases hk
          refine ⟨by simp, pp, hp, fun u hu => ?_⟩
          rw [List.mem_singleton] at hu; subst hu
          exact ⟨c, rfl, hbl, hs⟩
        | some x =>
          obtain ⟨us, m0⟩ := x
          rw [hg] at hk
          obtain ⟨n1, qq, n2, n3⟩ := h.com _ _ _ hg hc
          rw [hp] at n2; cases n2
          have n3 : ∀ u ∈ us, ∃ d : Commit, d.key = c.key ∧ blsAccepts pp d = true ∧
              Src cfg D out' u (.commit d) := fun u hu => by
            obtain ⟨p, p1, p2, p3⟩ := n3 u hu
            exact ⟨p, p1, p2, p3.mono cfg D hsub⟩
          simp only [Option.some.injEq, Prod.mk.injEq] at hk
          obtain ⟨hk, -⟩ := hk
          split at hk
          · subst hk; exact ⟨n1, pp, hp, n3⟩
          · next hnot =>
            subst hk
            refine ⟨?_, pp, hp, fun u hu => ?_⟩
            · rw [List.nodup_append]
              refine ⟨n1, by simp, ?_⟩
              intro a ha b hb' e
              rw [List.mem_singleton] at hb'; subst hb'; subst e; exact hnot ha
            · rcases List.mem_append.1 hu with hu | hu
              · exact n3 u hu
              · rw [List.mem_singleton] at hu; subst hu; exact ⟨c, rfl, hbl, hs⟩
      · rw [if_neg e] at hk
        obtain ⟨n1, pp, n2, n3⟩ := h.com k vs m hk hc
        exact ⟨n1, pp, n2, fun u hu => by
          obtain ⟨p, p1, p2, p3⟩ := n3 u hu
          exact ⟨p, p1, p2, p3.mono cfg D hsub⟩⟩
    outv := by
      intro x hx
      rcases hmem x hx with hx | ⟨hx, -⟩
      · exact h.outv x hx
      · subst hx; exact Nat.le_of_eq hv
    ownP := by
      intro q hq a b
      rcases hmem _ hq with hq | ⟨hq, -⟩
      · exact h.ownP q hq a b
      · cases hq
    uniqP := by
      intro a b ha hb
      rcases hmem _ ha with ha | ⟨ha, -⟩
      · rcases hmem _ hb with hb | ⟨hb, -⟩
        · exact h.uniqP a b ha hb
        · cases hb
      · cases ha
    ownC := by
      intro q hq a b
      rcases hmem _ hq with hq | ⟨hq, e1, -⟩
      · rcases h.ownC q hq a b with d | d
        · exact .inl d
        · exact .inr (addVote_hasVote _ _ _ _ _ _ d)
      · cases hq
        exact .inr (by rw [e1]; exact addVote_hasVote_self _ _ _ _)
    uniqC := by
      intro a b ha hb hk hc
      have hcert : ∀ d : Commit, d.key = c.key → cfg.top d.viewNo < d.seqNo → cfg.top r.view < c.seqNo := by
        intro d hd hc
        have e1 : d.viewNo = c.viewNo := congrArg Prod.fst hd
        have e2 : d.seqNo = c.seqNo := congrArg Prod.snd hd
        rw [← hv, ← e1, ← e2]; exact hc
      rcases hmem _ ha with ha | ⟨ha, -, e2⟩
      · rcases hmem _ hb with hb | ⟨hb, -, e2⟩
        · exact h.uniqC a b ha hb hk hc
        · cases hb; exact ((e2 (hcert a hk hc)).1 a ha hk).elim
      · cases ha
        rcases hmem _ hb with hb | ⟨hb, -⟩
        · exact ((e2 (hcert _ rfl hc)).1 b hb hk.symm).elim
        · cases hb; rfl
    rep := by
      intro d hd a b
      rcases hmem _ hd with hd | ⟨hd, -, e2⟩
      · rcases h.rep d hd a b with x | x | ⟨pp, x, y⟩
        · exact .inl x
        · exact .inr (.inl x)
        · exact .inr (.inr ⟨pp, x, y.mono cfg D hsub⟩)
      · cases hd
        obtain ⟨-, pp, -, h1, -, h2⟩ := e2 b
        exact .inr (.inr ⟨pp, h2, h1.mono cfg D hsub⟩)
    prp := by
      intro hc b hb l
      obtain ⟨pp, x, y⟩ := h.prp hc b hb l
      exact ⟨pp, x, y.mono cfg D hsub⟩
    cmA := by
      intro d hd a b l
      rcases hmem _ hd with hd | ⟨hd, -, e2⟩
      · obtain ⟨pp, h1, h2⟩ := h.cmA d hd a b l
        exact ⟨pp, h1, h2.mono cfg D hsub⟩
      · cases hd
        obtain ⟨-, pp, h1, h2, -⟩ := e2 b
        exact ⟨pp, h1, h2.mono cfg D hsub⟩
    ordC := by
      intro o ho d hd hk hc
      rcases hmem _ hd with hd | ⟨hd, -, e2⟩
      · exact (h.ordC o ho d hd hk hc).mono cfg D hsub
      · cases hd
        have e1 : c.viewNo = o.viewNo := congrArg Prod.fst hk
        have e3 : c.seqNo = o.seqNo := congrArg Prod.snd hk
        have ec : cfg.top r.view < c.seqNo := by rw [← hv, e1, e3]; exact hc
        obtain ⟨-, pp, h1, h2, -⟩ := e2 ec
        obtain ⟨-, -, b3⟩ := h.ordB o ho (by omega) (by rw [← e3]; exact ec)
        rw [hk] at h1 h2
        rcases b3 with b3 | b3
        · rw [h1] at b3; cases b3; exact h2.mono cfg D hsub
        · rw [h1] at b3; cases b3
    notPrim := by
      intro q hq
      rcases hmem _ hq with hq | ⟨hq, -⟩
      · exact h.notPrim q hq
      · cases hq
    vot := by
      intro j us m' hj hc
      obtain ⟨n1, pp, n2, n3⟩ := h.vot j us m' hj hc
      exact ⟨n1, pp, n2, fun w hw => ⟨(n3 w hw).1, by
        obtain ⟨p, p1, p2, p3⟩ := (n3 w hw).2
        exact ⟨p, p1, p2, p3.mono cfg D hsub⟩⟩⟩
    pps := fun j pp hj hc => ⟨(h.pps j pp hj hc).1, hsub _ (h.pps j pp hj hc).2⟩
    cmt := by
      intro d hd hcert
      rcases hmem _ hd with hd | ⟨hd, -, e2⟩
      · obtain ⟨pp, h1, h2⟩ := h.cmt d hd hcert
        exact ⟨pp, h1.mono cfg D hsub, h2⟩
      · cases hd
        obtain ⟨-, pp, -, h1, h2, -⟩ := e2 (by rw [← hv]; exact hcert)
        exact ⟨pp, h1.mono cfg D hsub, h2⟩
    ord := fun o ho hc => (h.ord o ho hc).mono cfg D hsub
    ppo := by
      intro q hq
      rcases hmem _ hq with hq | ⟨hq, -⟩
      · exact h.ppo q hq
      · cases hq
    ppu := by
      intro a b ha hb
      rcases hmem _ ha with ha | ⟨ha, -⟩
      · rcases hmem _ hb with hb | ⟨hb, -⟩
        · exact h.ppu a b ha hb
        · cases hb
      · cases ha }

theorem Inv.processCommit {r : Replica} (h : Inv cfg D r) (hD : ∀ w m, D w m → w ≠ cfg.name)
    (c : Commit) (w : Node) (hs : D w (.commit c)) : Inv cfg D (r.processCommit cfg c w) := by
  unfold Replica.processCommit
  split
  · exact h
  · next ha =>
    have ha : r.admits c.viewNo c.seqNo = true := by simpa using ha
    obtain ⟨a1, a2, a3, a4, -⟩ := admits_iff r _ _ ha
    split
    · exact { h with
        cmW := by
          intro k q hk e he
          simp only [Dict.get?_set] at hk
          split at hk
          · next e1 =>
            cases hk
            rcases List.mem_append.1 he with he | he
            · cases hg : r.commWait.get? c.key with
              | none => rw [hg] at he; simp at he
              | some q => rw [hg] at he; rw [← e1]; exact h.cmW _ _ hg e he
            · rw [List.mem_singleton] at he; subst he; exact ⟨e1, hs⟩
          · exact h.cmW k q hk e he }
    · next hp =>
      split
      · exact h
      · split
        · exact h
        · next hb =>
          refine h.addToCommits hD c w r.out a1 a2 (.inr ⟨hD _ _ hs, hs⟩) (.inl rfl) ?_
          intro hc
          have hp : r.hasPrepared c.key = true := by simpa using hp
          unfold Replica.hasPrepared at hp
          rw [Bool.and_eq_true] at hp
          obtain ⟨pp, hpp⟩ := Option.isSome_iff_exists.1 hp.1
          have hl : r.lastOrdered.2 < c.seqNo := a4 (by rw [h.cert a2]; exact cfg.cert_lt hc)
          refine ⟨pp, hpp, ?_⟩
          rw [hpp] at hb
          rw [(alreadyOrdered_false r c.seqNo).2 hl] at hb
          simpa using hb

theorem Inv.dequeueCommits {r : Replica} (h : Inv cfg D r) (hD : ∀ w m, D w m → w ≠ cfg.name)
    (k : Key) : Inv cfg D (r.dequeueCommits cfg k) := by
  unfold Replica.dequeueCommits
  split
  · exact h
  · next q hq =>
    split
    · exact h
    · have h0 : Inv cfg D { r with commWait := r.commWait.set k [] } := { h with
        cmW := by
          intro j q' hj e he
          simp only [Dict.get?_set] at hj
          split at hj
          · cases hj; simp at he
          · exact h.cmW j q' hj e he }
      have hfold : ∀ (q : List (Commit × Node)) (r : Replica), (∀ e ∈ q, D e.2 (.commit e.1)) →
          Inv cfg D r → Inv cfg D (q.foldl (fun r e => r.processCommit cfg e.1 e.2) r) := by
        intro q
        induction q with
        | nil => intro r _ h; exact h
        | cons e q ih =>
          intro r hq h
          rw [List.foldl_cons]
          exact ih _ (fun e he => hq e (List.mem_cons_of_mem _ he))
            (h.processCommit hD _ _ (hq e List.mem_cons_self))
      have h1 := hfold q _ (fun e he => (h.cmW k q hq e he).2) h0
      exact { h1 with
        cmW := by
          intro j q' hj e he
          simp only [Dict.get?_erase] at hj
          split at hj
          · cases hj
          · exact h1.cmW j q' hj e he }

/-! ## Frames -/

/-- The parts of the state that counting COMMITs leaves alone. -/
structure Frame (r r' : Replica) : Prop where
  view : r'.view = r.view
  waiting : r'.waiting = r.waiting
  prevCert : r'.prevCert = r.prevCert
  part : r'.participating = r.participating
  sentPP : r'.sentPP = r.sentPP
  recvPP : r'.recvPP = r.recvPP
  prepares : r'.prepares = r.prepares
  prepWait : r'.prepWait = r.prepWait
  out : r'.out = r.out
  votes : ∀ k w, hasVote r.commits k w = true → hasVote r'.commits k w = true

theorem Frame.refl (r : Replica) : Frame r r := ⟨rfl, rfl, rfl, rfl, rfl, rfl, rfl, rfl, rfl, fun _ _ h => h⟩

theorem Frame.trans {a b c : Replica} (h : Frame a b) (g : Frame b c) : Frame a c :=
  ⟨g.view.trans h.view, g.waiting.trans h.waiting, g.prevCert.trans h.prevCert, g.part.trans h.part,
   g.sentPP.trans h.sentPP, g.recvPP.trans h.recvPP, g.prepares.trans h.prepares, g.prepWait.trans h.prepWait,
   g.out.trans h.out, fun k w x => g.votes k w (h.votes k w x)⟩

theorem Frame.getPP {a b : Replica} (h : Frame a b) (k : Key) : b.getPP k = a.getPP k := by
  unfold Replica.getPP; rw [h.sentPP, h.recvPP]

theorem frame_order (r : Replica) (k : Key) : Frame r (r.order k) := by
  unfold Replica.order; split
  · exact .refl r
  · exact ⟨rfl, rfl, rfl, rfl, rfl, rfl, rfl, rfl, rfl, fun _ _ h => h⟩

theorem frame_tryOrder (r : Replica) (c : Commit) : Frame r (r.tryOrder cfg c).1 := by
  unfold Replica.tryOrder
  split
  · exact .refl r
  · split
    · exact .refl r
    · split
      · exact ⟨rfl, rfl, rfl, rfl, rfl, rfl, rfl, rfl, rfl, fun _ _ h => h⟩
      · exact frame_order r _

theorem frame_addToCommits (r : Replica) (c : Commit) (w : Node) : Frame r (r.addToCommits cfg c w) := by
  unfold Replica.addToCommits
  exact Frame.trans (b := { r with commits := addVote r.commits c.key c w })
    ⟨rfl, rfl, rfl, rfl, rfl, rfl, rfl, rfl, rfl, fun _ _ h => addVote_hasVote _ _ _ _ _ _ h⟩ (frame_tryOrder _ _)

theorem frame_processCommit (r : Replica) (c : Commit) (w : Node) : Frame r (r.processCommit cfg c w) := by
  unfold Replica.processCommit
  split
  · exact .refl r
  · split
    · exact ⟨rfl, rfl, rfl, rfl, rfl, rfl, rfl, rfl, rfl, fun _ _ h => h⟩
    · split
      · exact .refl r
      · split
        · exact .refl r
        · exact frame_addToCommits r c w

theorem frame_dequeueCommits (r : Replica) (k : Key) : Frame r (r.dequeueCommits cfg k) := by
  unfold Replica.dequeueCommits
  split
  · exact .refl r
  · next q hq =>
    split
    · exact .refl r
    · have hfold : ∀ (q : List (Commit × Node)) (r : Replica),
          Frame r (q.foldl (fun r e => r.processCommit cfg e.1 e.2) r) := by
        intro q
        induction q with
        | nil => intro r; exact .refl r
        | cons e q ih => intro r; exact (frame_processCommit r _ _).trans (ih _)
      have h0 : Frame r { r with commWait := r.commWait.set k [] } := ⟨rfl, rfl, rfl, rfl, rfl, rfl, rfl, rfl, rfl, fun _ _ h => h⟩
      have h1 := h0.trans (hfold q _)
      exact ⟨h1.view, h1.waiting, h1.prevCert, h1.part, h1.sentPP, h1.recvPP, h1.prepares, h1.prepWait, h1.out, h1.votes⟩

/-! ## PREPARE -/

theorem mem_append_right' {α : Type} {l : List α} {a : α} : ∀ m ∈ l, m ∈ l ++ [a] :=
  fun _ h => List.mem_append_left _ h

theorem Inv.doCommit {r : Replica} (h : Inv cfg D r) (hD : ∀ w m, D w m → w ≠ cfg.name) (k : Key)
    (hv : k.1 = r.view) (hw : r.waiting = false) {vs m} (hg : r.prepares.get? k = some (vs, m))
    (hq : (Quorums.ofN cfg.n).prepare.value ≤ vs.length)
    (hno : cfg.top r.view < k.2 → ∀ d, .commit d ∈ r.out → d.key ≠ k)
    (htr : ∀ pp, r.getPP k = some pp → pp.batchId ∈ r.prepared) : Inv cfg D (r.doCommit cfg k) := by
  unfold Replica.doCommit
  simp only
  refine h.addToCommits hD _ _ _ hv hw (.inl ⟨rfl, by simp⟩) (.inr ⟨rfl, rfl, fun hcert => ⟨hno hcert, ?_⟩⟩) ?_
  · obtain ⟨n1, pp, n2, n3⟩ := h.vot k vs m hg hcert
    exact ⟨pp, n2, ⟨h.ppk k pp (getPP_some n2), h.ppSrc n2 hcert, vs, n1, hq, n3⟩, by
      simp only [n2, Option.map_some], htr pp n2⟩
  · intro hc
    obtain ⟨n1, pp, n2, n3⟩ := h.vot k vs m hg hc
    refine ⟨pp, n2, ?_⟩
    unfold blsAccepts
    simp only [n2, Option.map_some]
    cases cfg.bls <;> simp

theorem Inv.tryCommit {r : Replica} (h : Inv cfg D r) (hD : ∀ w m, D w m → w ≠ cfg.name) (k : Key)
    (hv : k.1 = r.view) (hw : r.waiting = false) (hg : ∃ x, r.prepares.get? k = some x)
    (hno : cfg.top r.view < k.2 → ∀ d, .commit d ∈ r.out → d.key = k → hasVote r.commits k cfg.name = true) :
    Inv cfg D (r.tryCommit cfg k) := by
  unfold Replica.tryCommit
  split
  · exact h
  · next hq =>
    split
    · exact h
    · next hnv =>
      obtain ⟨⟨vs, m⟩, hg⟩ := hg
      unfold hasQuorum at hq
      rw [hg] at hq
      refine (h.track r.preprepared (match r.getPP k with
        | some pp => trackBatch r.prepared pp.batchId
        | none => r.prepared) (fun _ h => .inl h) ?_ ?_ r.stable r.caught (Nat.le_refl _) (Nat.le_refl _)).doCommit hD k hv hw hg
        (by simpa using hq) (fun hc d hd e => hnv (hno hc d hd e)) ?_
      · intro x hx
        split
        · exact mem_trackBatch.2 (.inl hx)
        · exact hx
      · intro x hx
        split at hx
        · next pp hp =>
          refine (mem_trackBatch.1 hx).imp id (fun e => ?_)
          subst e
          intro hc
          have ek := h.ppk k pp (getPP_some hp)
          have e2 : pp.seqNo = k.2 := congrArg Prod.snd ek
          obtain ⟨n1, qq, n2, n3⟩ := h.vot k vs m hg (by rw [← e2]; exact hc)
          rw [hp] at n2; cases n2
          refine ⟨pp, rfl, ?_⟩
          rw [show (r.view, pp.batchId.ppSeqNo) = k by rw [← hv]; exact Prod.ext rfl e2]
          exact ⟨ek, h.ppSrc hp (by rw [← e2]; exact hc), vs, n1, by simpa using hq, n3⟩
        · exact .inl hx
      · intro pp hp
        have hp : r.getPP k = some pp := hp
        simp only [hp]
        exact mem_trackBatch.2 (.inr rfl)

/-- Counting a PREPARE, possibly an own one just put on the network. -/
theorem Inv.addToPrepares {r : Replica} (h : Inv cfg D r) (hD : ∀ w m, D w m → w ≠ cfg.name)
    (p : Prepare) (w : Node) (out' : List Msg)
    (hv : p.viewNo = r.view) (hw : r.waiting = false)
    (hlast : cfg.top r.view < p.seqNo → r.lastOrdered.2 < p.seqNo)
    (hprim : w ≠ cfg.primary r.view)
    (hs : Src cfg D out' w (.prepare p))
    (hout : out' = r.out ∨ (out' = r.out ++ [.prepare p] ∧ w = cfg.name ∧
      (cfg.top r.view < p.seqNo → r.lastOrdered.2 < p.seqNo ∧ hasVote r.prepares p.key cfg.name = false ∧
        ∃ pp, r.recvPP.get? p.key = some pp ∧ p.content = pp.content)))
    (hpp : cfg.top r.view < p.seqNo → ∃ pp, r.getPP p.key = some pp ∧ p.content = pp.content) :
    Inv cfg D (({ r with out := out' } : Replica).addToPrepares cfg p w) := by
  have hsub : ∀ m ∈ r.out, m ∈ out' := by
    rcases hout with e | ⟨e, -⟩ <;> subst e
    · exact fun _ h => h
    · exact mem_append_right'
  have hmem : ∀ x ∈ out', x ∈ r.out ∨ (x = .prepare p ∧ w = cfg.name ∧
      (cfg.top r.view < p.seqNo → r.lastOrdered.2 < p.seqNo ∧ hasVote r.prepares p.key cfg.name = false ∧
        ∃ pp, r.recvPP.get? p.key = some pp ∧ p.content = pp.content)) := by
    intro x hx
    rcases hout with e | ⟨e, e1, e2⟩ <;> subst e
    · exact .inl hx
    · rcases List.mem_append.1 hx with hx | hx
      · exact .inl hx
      · exact .inr ⟨List.mem_singleton.1 hx, e1, e2⟩
  unfold Replica.addToPrepares
  simp only
  have hh : Inv cfg D { r with out := out', prepares := addVote r.prepares p.key p w } := {
    trk := h.trk
    kv := by
      intro k hk
      rcases hk with hk | hk | ⟨v, hk⟩ | hk
      · exact h.kv k (.inl hk)
      · exact h.kv k (.inr (.inl hk))
      · simp only [addVote_get] at hk
        by_cases e : p.key = k
        · rw [← e]; exact hv
        · rw [if_neg e] at hk; exact h.kv k (.inr (.inr (.inl ⟨v, hk⟩)))
      · exact h.kv k (.inr (.inr (.inr hk)))
    ppk := h.ppk
    wait := by intro hw'; simp only at hw'; rw [hw] at hw'; cases hw'
    outv := by
      intro x hx
      rcases hmem x hx with hx | ⟨hx, -⟩
      · exact h.outv x hx
      · subst hx; exact Nat.le_of_eq hv
    cert := h.cert
    ownP := by
      intro q hq a b
      rcases hmem _ hq with hq | ⟨hq, e1, e2⟩
      · rcases h.ownP q hq a b with c | ⟨pp, c1, c2, c3⟩
        · exact .inl c
        · exact .inr ⟨pp, c1, c2, addVote_hasVote _ _ _ _ _ _ c3⟩
      · cases hq
        obtain ⟨-, -, pp, c1, c2⟩ := e2 b
        exact .inr ⟨pp, c1, c2, by rw [e1]; exact addVote_hasVote_self _ _ _ _⟩
    uniqP := by
      have one : ∀ q, .prepare q ∈ r.out → q.key = p.key → cfg.top r.view < p.seqNo →
          hasVote r.prepares p.key cfg.name = false → r.lastOrdered.2 < p.seqNo → False := by
        intro q hq hk hc h1 h2
        have e1 : q.viewNo = p.viewNo := congrArg Prod.fst hk
        have e2 : q.seqNo = p.seqNo := congrArg Prod.snd hk
        rcases h.ownP q hq (by rw [e1, hv]) (by rw [e2]; exact hc) with c | ⟨pp, c1, c2, c3⟩
        · omega
        · rw [hk, h1] at c3; cases c3
      intro a b ha hb hk hc
      rcases hmem _ ha with ha | ⟨ha, e1, e2⟩
      · rcases hmem _ hb with hb | ⟨hb, e1, e2⟩
        · exact h.uniqP a b ha hb hk hc
        · cases hb
          have c1 : a.viewNo = p.viewNo := congrArg Prod.fst hk
          have c2 : a.seqNo = p.seqNo := congrArg Prod.snd hk
          have hc : cfg.top r.view < p.seqNo := by rw [← hv, ← c1, ← c2]; exact hc
          obtain ⟨d1, d2, -⟩ := e2 hc
          exact (one a ha hk hc d2 d1).elim
      · cases ha
        rcases hmem _ hb with hb | ⟨hb, -⟩
        · have hc : cfg.top r.view < p.seqNo := by rw [← hv]; exact hc
          obtain ⟨d1, d2, -⟩ := e2 hc
          exact (one b hb hk.symm hc d2 d1).elim
        · cases hb; rfl
    ownC := by
      intro q hq a b
      rcases hmem _ hq with hq | ⟨hq, -⟩
      · exact h.ownC q hq a b
      · cases hq
    uniqC := by
      intro a b ha hb
      rcases hmem _ ha with ha | ⟨ha, -⟩
      · rcases hmem _ hb with hb | ⟨hb, -⟩
        · exact h.uniqC a b ha hb
        · cases hb
      · cases ha
    ordv := h.ordv
    rep := by
      intro d hd a b
      rcases hmem _ hd with hd | ⟨hd, -⟩
      · rcases h.rep d hd a b with x | x | ⟨pp, x, y⟩
        · exact .inl x
        · exact .inr (.inl x)
        · exact .inr (.inr ⟨pp, x, y.mono cfg D hsub⟩)
      · cases hd
    prp := by
      intro hc b hb l
      obtain ⟨pp, x, y⟩ := h.prp hc b hb l
      exact ⟨pp, x, y.mono cfg D hsub⟩
    cmA := by
      intro d hd a b l
      rcases hmem _ hd with hd | ⟨hd, -⟩
      · obtain ⟨pp, h1, h2⟩ := h.cmA d hd a b l
        exact ⟨pp, h1, h2.mono cfg D hsub⟩
      · cases hd
    ordC := by
      intro o ho d hd hk hc
      rcases hmem _ hd with hd | ⟨hd, -⟩
      · exact (h.ordC o ho d hd hk hc).mono cfg D hsub
      · cases hd
    ordB := h.ordB
    notPrim := by
      intro q hq
      rcases hmem _ hq with hq | ⟨hq, e1, -⟩
      · exact h.notPrim q hq
      · cases hq; rw [hv, ← e1]; exact fun e => hprim e.symm
    vot := by
      intro k vs m hk hc
      simp only [addVote_get] at hk
      have hc : cfg.top r.view < k.2 := hc
      by_cases e : p.key = k
      · subst e
        rw [if_pos rfl] at hk
        obtain ⟨pp, hp, hcont⟩ := hpp hc
        have hnew : w ≠ cfg.primary p.key.1 ∧
            ∃ q : Prepare, q.key = p.key ∧ q.content = pp.content ∧ Src cfg D out' w (.prepare q) :=
          ⟨by rw [show p.key.1 = r.view from hv]; exact hprim, p, rfl, hcont, hs⟩
        cases hg : r.prepares.get? p.key with
        | none =>
          rw [hg] at hk; cases hk
          refine ⟨by simp, pp, hp, fun u hu => ?_⟩
          rw [List.mem_singleton] at hu; subst hu
          exact hnew
        | some x =>
          obtain ⟨us, m0⟩ := x
          rw [hg] at hk
          obtain ⟨n1, qq, n2, n3⟩ := h.vot _ _ _ hg hc
          rw [hp] at n2; cases n2
          have n3 : ∀ u ∈ us, u ≠ cfg.primary p.key.1 ∧
              ∃ q : Prepare, q.key = p.key ∧ q.content = pp.content ∧ Src cfg D out' u (.prepare q) :=
            fun u hu => ⟨(n3 u hu).1, by
              obtain ⟨p, p1, p2, p3⟩ := (n3 u hu).2
              exact ⟨p, p1, p2, p3.mono cfg D hsub⟩⟩
          simp only [Option.some.injEq, Prod.mk.injEq] at hk
          obtain ⟨hk, -⟩ := hk
          split at hk
          · subst hk; exact ⟨n1, pp, hp, n3⟩
          · next hnot =>
            subst hk
            refine ⟨?_, pp, hp, fun u hu => ?_⟩
            · rw [List.nodup_append]
              refine ⟨n1, by simp, ?_⟩
              intro a ha b hb' e
              rw [List.mem_singleton] at hb'; subst hb'; subst e; exact hnot ha
            · rcases List.mem_append.1 hu with hu | hu
              · exact n3 u hu
              · rw [List.mem_singleton] at hu; subst hu; exact hnew
      · rw [if_neg e] at hk
        obtain ⟨n1, pp, n2, n3⟩ := h.vot k vs m hk hc
        exact ⟨n1, pp, n2, fun u hu => ⟨(n3 u hu).1, by
          obtain ⟨p, p1, p2, p3⟩ := (n3 u hu).2
          exact ⟨p, p1, p2, p3.mono cfg D hsub⟩⟩⟩
    ppr := h.ppr
    pps := fun j pp hj hc => ⟨(h.pps j pp hj hc).1, hsub _ (h.pps j pp hj hc).2⟩
    com := by
      intro j us m' hj hc
      obtain ⟨n1, pp, n2, n3⟩ := h.com j us m' hj hc
      exact ⟨n1, pp, n2, fun w hw => by
        obtain ⟨p, p1, p2, p3⟩ := n3 w hw
        exact ⟨p, p1, p2, p3.mono cfg D hsub⟩⟩
    cmt := by
      intro c hc hcert
      rcases hmem _ hc with hc | ⟨hc, -⟩
      · obtain ⟨pp, h1, h2⟩ := h.cmt c hc hcert
        exact ⟨pp, h1.mono cfg D hsub, h2⟩
      · cases hc
    ord := fun o ho hc => (h.ord o ho hc).mono cfg D hsub
    ppo := by
      intro q hq
      rcases hmem _ hq with hq | ⟨hq, -⟩
      · exact h.ppo q hq
      · cases hq
    ppu := by
      intro a b ha hb
      rcases hmem _ ha with ha | ⟨ha, -⟩
      · rcases hmem _ hb with hb | ⟨hb, -⟩
        · exact h.ppu a b ha hb
        · cases hb
      · cases ha
    prW := h.prW
    cmW := h.cmW
    ooo := h.ooo }
  have h2 := hh.dequeueCommits hD p.key
  have f2 := frame_dequeueCommits (cfg := cfg)
    ({ r with out := out', prepares := addVote r.prepares p.key p w } : Replica) p.key
  refine h2.tryCommit hD p.key (by rw [f2.view]; exact hv) (by rw [f2.waiting]; exact hw) ?_ ?_
  · rw [f2.prepares]
    exact ⟨_, by rw [addVote_get, if_pos rfl]⟩
  · intro hc d hd e
    rw [f2.view] at hc
    rw [f2.out] at hd
    refine f2.votes _ _ ?_
    have e1 : d.viewNo = p.viewNo := congrArg Prod.fst e
    have e2 : d.seqNo = p.seqNo := congrArg Prod.snd e
    rcases hh.ownC d hd (by rw [e1]; exact hv) (by rw [e2]; exact hc) with x | x
    · have := hlast hc
      simp only at x
      omega
    · rw [← e]; exact x

theorem Inv.processPrepare {r : Replica} (h : Inv cfg D r) (hD : ∀ w m, D w m → w ≠ cfg.name)
    (p : Prepare) (w : Node) (hs : D w (.prepare p)) : Inv cfg D (r.processPrepare cfg p w) := by
  have henq : Inv cfg D (r.enqueuePrepare p w) := { h with
    prW := by
      intro k q hk e he
      simp only [Replica.enqueuePrepare, Dict.get?_set] at hk
      split at hk
      · next e1 =>
        cases hk
        rcases List.mem_append.1 he with he | he
        · cases hg : r.prepWait.get? p.key with
          | none => rw [hg] at he; simp at he
          | some q => rw [hg] at he; rw [← e1]; exact h.prW _ _ hg e he
        · rw [List.mem_singleton] at he; subst he; exact ⟨e1, hs⟩
      · exact h.prW k q hk e he }
  unfold Replica.processPrepare
  split
  · exact h
  · next ha =>
    have ha : r.admits p.viewNo p.seqNo = true := by simpa using ha
    obtain ⟨a1, a2, a3, a4, -⟩ := admits_iff r _ _ ha
    split
    · exact h
    · next hpr =>
      split
      · exact h
      · split
        · split
          · split
            · exact henq
            · exact h
          · exact henq
        · next pp hpp =>
          split
          · exact h
          · next hc =>
            have hc : p.content = pp.content := Classical.not_not.1 hc
            have := h.addToPrepares hD p w r.out a1 a2 (fun hc => a4 (by rw [h.cert a2]; exact cfg.cert_lt hc))
              (by intro e; apply hpr; simp [Replica.fromPrimary, e]) (.inr ⟨hD _ _ hs, hs⟩) (.inl rfl)
              (fun _ => ⟨pp, hpp, hc⟩)
            exact this

theorem Inv.dequeuePrepares {r : Replica} (h : Inv cfg D r) (hD : ∀ w m, D w m → w ≠ cfg.name)
    (k : Key) : Inv cfg D (r.dequeuePrepares cfg k) := by
  unfold Replica.dequeuePrepares
  split
  · exact h
  · next q hq =>
    have h0 : Inv cfg D { r with prepWait := r.prepWait.set k [] } := { h with
      prW := by
        intro j q' hj e he
        simp only [Dict.get?_set] at hj
        split at hj
        · cases hj; simp at he
        · exact h.prW j q' hj e he }
    have hfold : ∀ (q : List (Prepare × Node)) (r : Replica), (∀ e ∈ q, D e.2 (.prepare e.1)) →
        Inv cfg D r → Inv cfg D (q.foldl (fun r e => r.processPrepare cfg e.1 e.2) r) := by
      intro q
      induction q with
      | nil => intro r _ h; exact h
      | cons e q ih =>
        intro r hq h
        rw [List.foldl_cons]
        exact ih _ (fun e he => hq e (List.mem_cons_of_mem _ he))
          (h.processPrepare hD _ _ (hq e List.mem_cons_self))
    have h1 := hfold q _ (fun e he => (h.prW k q hq e he).2) h0
    exact { h1 with
      prW := by
        intro j q' hj e he
        simp only [Dict.get?_erase] at hj
        split at hj
        · cases hj
        · exact h1.prW j q' hj e he }

/-! ## PRE-PREPARE -/

/-- Storing a PRE-PREPARE received by a replica that is not the primary. -/
theorem Inv.setRecv {r : Replica} (h : Inv cfg D r) (pp : PrePrepare)
    (hv : pp.viewNo = r.view) (hw : r.waiting = false) (hprim : cfg.primary r.view ≠ cfg.name)
    (hnew : cfg.top r.view < pp.seqNo →
      r.recvPP.get? pp.key = none ∧ r.lastOrdered.2 < pp.seqNo ∧ D (cfg.primary r.view) (.prePrepare pp)) :
    Inv cfg D (({ r with recvPP := r.recvPP.set pp.key pp } : Replica).bumpLastPP pp.seqNo) := by
  have hold : ∀ k, pp.key ≠ k → ({ r with recvPP := r.recvPP.set pp.key pp } : Replica).getPP k = r.getPP k := by
    intro k hk
    unfold Replica.getPP
    simp only [Dict.get?_set, if_neg hk]
  have hnone : cfg.top r.view < pp.seqNo → r.getPP pp.key = none := by
    intro hc
    cases hp : r.getPP pp.key with
    | none => rfl
    | some x =>
      rcases getPP_some hp with h1 | h1
      · exact (hprim (by rw [← hv]; exact (h.pps _ _ h1 hc).1)).elim
      · rw [(hnew hc).1] at h1; cases h1
  unfold Replica.bumpLastPP
  exact { h with
    kv := by
      intro k hk
      rcases hk with hk | ⟨v, hk⟩ | hk
      · exact h.kv k (.inl hk)
      · simp only [Dict.get?_set] at hk
        by_cases e : pp.key = k
        · rw [← e]; exact hv
        · rw [if_neg e] at hk; exact h.kv k (.inr (.inl ⟨v, hk⟩))
      · exact h.kv k (.inr (.inr hk))
    ppk := by
      intro k q hk
      rcases hk with hk | hk
      · exact h.ppk k q (.inl hk)
      · simp only [Dict.get?_set] at hk
        by_cases e : pp.key = k
        · rw [if_pos e] at hk; cases hk; exact e
        · rw [if_neg e] at hk; exact h.ppk k q (.inr hk)
    wait := by intro hw'; simp only at hw'; rw [hw] at hw'; cases hw'
    ownP := by
      intro p hp a b
      rcases h.ownP p hp a b with c | ⟨q, c1, c2, c3⟩
      · exact .inl c
      · refine .inr ⟨q, ?_, c2, c3⟩
        simp only [Dict.get?_set]
        split
        · next e =>
          have es : pp.seqNo = p.seqNo := congrArg Prod.snd e
          rw [← e, (hnew (by rw [es]; exact b)).1] at c1; cases c1
        · exact c1
    cmA := by
      intro c hc a b l
      obtain ⟨q, h1, h2⟩ := h.cmA c hc a b l
      refine ⟨q, ?_, h2⟩
      by_cases e : pp.key = c.key
      · have es : pp.seqNo = c.seqNo := congrArg Prod.snd e
        rw [← e, hnone (by rw [es]; exact b)] at h1; cases h1
      · rw [← h1]; exact hold _ e
    ordB := by
      intro o ho a b
      obtain ⟨b1, b2, b3⟩ := h.ordB o ho a b
      refine ⟨b1, fun x => by have := b2 x; simp only; split <;> omega, ?_⟩
      have e : pp.key ≠ o.key := by
        intro e
        have es : pp.seqNo = o.seqNo := congrArg Prod.snd e
        have := (hnew (by rw [es]; exact b)).2.1
        omega
      exact b3.imp (fun x => (hold _ e).trans x) (fun x => (hold _ e).trans x)
    vot := by
      intro k vs m hk hc
      obtain ⟨n1, q, n2, n3⟩ := h.vot k vs m hk hc
      refine ⟨n1, q, ?_, n3⟩
      by_cases e : pp.key = k
      · subst e; rw [hnone hc] at n2; cases n2
      · rw [← n2]; exact hold k e
    ppr := by
      intro k q hk hc
      simp only [Dict.get?_set] at hk
      by_cases e : pp.key = k
      · rw [if_pos e] at hk; cases hk; subst e
        rw [show pp.key.1 = r.view from hv]
        exact ⟨hprim, (hnew hc).2.2⟩
      · rw [if_neg e] at hk; exact h.ppr k q hk hc
    com := by
      intro k vs m hk hc
      obtain ⟨n1, q, n2, n3⟩ := h.com k vs m hk hc
      refine ⟨n1, q, ?_, n3⟩
      by_cases e : pp.key = k
      · subst e; rw [hnone hc] at n2; cases n2
      · rw [← n2]; exact hold k e
    ppo := by
      intro p hp'
      refine ⟨(h.ppo p hp').1, fun hv => ?_⟩
      have := (h.ppo p hp').2 hv
      simp only; split <;> omega }

theorem Inv.tryPrepare {r : Replica} (h : Inv cfg D r) (hD : ∀ w m, D w m → w ≠ cfg.name)
    (pp : PrePrepare) (hv : pp.viewNo = r.view) (hw : r.waiting = false)
    (hprim : cfg.primary r.view ≠ cfg.name) (hg : r.recvPP.get? pp.key = some pp)
    (hl : cfg.top r.view < pp.seqNo → r.lastOrdered.2 < pp.seqNo) :
    Inv cfg D (r.tryPrepare cfg pp) := by
  unfold Replica.tryPrepare
  split
  · exact h
  · next hn =>
    have hn : hasVote r.prepares pp.key cfg.name = false := by simpa using hn
    unfold Replica.doPrepare
    simp only
    refine h.addToPrepares hD _ _ _ hv hw hl (fun e => hprim e.symm) (.inl ⟨rfl, by simp⟩) (.inr ⟨rfl, rfl, ?_⟩) ?_
    · intro hc; exact ⟨hl hc, hn, pp, hg, rfl⟩
    · intro hc
      obtain ⟨q, hq⟩ := getPP_of (r := r) (.inr ⟨pp, hg⟩)
      refine ⟨q, hq, ?_⟩
      rcases getPP_some hq with h1 | h1
      · exact (hprim (by rw [← hv]; exact (h.pps _ _ h1 hc).1)).elim
      · have h1 : r.recvPP.get? pp.key = some q := h1
        rw [hg] at h1; cases h1; rfl

/-- Storing a PRE-PREPARE the primary made itself (or, at or below the
certificate, one taken over from an old view). -/
theorem Inv.setSent {r : Replica} (h : Inv cfg D r) (pp : PrePrepare) (out' : List Msg)
    (hv : pp.viewNo = r.view) (hw : r.waiting = false) (hprim : cfg.primary r.view = cfg.name)
    (hout : out' = r.out ∨ (out' = r.out ++ [.prePrepare pp] ∧ r.lastPP < pp.seqNo))
    (hnew : cfg.top r.view < pp.seqNo → out' = r.out ++ [.prePrepare pp]) :
    Inv cfg D ({ r with sentPP := r.sentPP.set pp.key pp
                        lastPP := if pp.seqNo > r.lastPP then pp.seqNo else r.lastPP, out := out' }) := by
  have hsub : ∀ m ∈ r.out, m ∈ out' := by
    rcases hout with e | ⟨e, -⟩ <;> subst e
    · exact fun _ h => h
    · exact mem_append_right'
  have hmem : ∀ x ∈ out', x ∈ r.out ∨ (x = .prePrepare pp ∧ r.lastPP < pp.seqNo) := by
    intro x hx
    rcases hout with e | ⟨e, e1⟩ <;> subst e
    · exact .inl hx
    · rcases List.mem_append.1 hx with hx | hx
      · exact .inl hx
      · exact .inr ⟨List.mem_singleton.1 hx, e1⟩
  have hlast : cfg.top r.view < pp.seqNo → r.lastPP < pp.seqNo := by
    intro hc
    rcases hout with e | e
    · have := hnew hc; rw [e] at this; simp at this
    · exact e.2
  have hnone : cfg.top r.view < pp.seqNo → r.getPP pp.key = none := by
    intro hc
    have hlast := hlast hc
    cases hp : r.getPP pp.key with
    | none => rfl
    | some x =>
      have hk := h.ppk _ _ (getPP_some hp)
      have e1 : x.viewNo = pp.viewNo := congrArg Prod.fst hk
      have e2 : x.seqNo = pp.seqNo := congrArg Prod.snd hk
      rcases getPP_some hp with h1 | h1
      · have := (h.ppo x (h.pps _ _ h1 hc).2).2 (by rw [e1, hv])
        omega
      · exact ((h.ppr _ _ h1 hc).1 (by rw [show pp.key.1 = r.view from hv]; exact hprim)).elim
  have hold : ∀ k, pp.key ≠ k → ({ r with
      sentPP := r.sentPP.set pp.key pp
      lastPP := if pp.seqNo > r.lastPP then pp.seqNo else r.lastPP, out := out' } : Replica).getPP k = r.getPP k := by
    intro k hk
    unfold Replica.getPP
    simp only [Dict.get?_set, if_neg hk]
  exact { h with
    kv := by
      intro k hk
      rcases hk with ⟨v, hk⟩ | hk
      · simp only [Dict.get?_set] at hk
        by_cases e : pp.key = k
        · rw [← e]; exact hv
        · rw [if_neg e] at hk; exact h.kv k (.inl ⟨v, hk⟩)
      · exact h.kv k (.inr hk)
    ppk := by
      intro k q hk
      rcases hk with hk | hk
      · simp only [Dict.get?_set] at hk
        by_cases e : pp.key = k
        · rw [if_pos e] at hk; cases hk; exact e
        · rw [if_neg e] at hk; exact h.ppk k q (.inl hk)
      · exact h.ppk k q (.inr hk)
    wait := by intro hw'; simp only at hw'; rw [hw] at hw'; cases hw'
    outv := by
      intro x hx
      rcases hmem x hx with hx | ⟨hx, -⟩
      · exact h.outv x hx
      · subst hx; exact Nat.le_of_eq hv
    ownP := by
      intro q hq a b
      rcases hmem _ hq with hq | ⟨hq, -⟩
      · exact h.ownP q hq a b
      · cases hq
    uniqP := by
      intro a b ha hb
      rcases hmem _ ha with ha | ⟨ha, -⟩
      · rcases hmem _ hb with hb | ⟨hb, -⟩
        · exact h.uniqP a b ha hb
        · cases hb
      · cases ha
    ownC := by
      intro q hq a b
      rcases hmem _ hq with hq | ⟨hq, -⟩
      · exact h.ownC q hq a b
      · cases hq
    uniqC := by
      intro a b ha hb
      rcases hmem _ ha with ha | ⟨ha, -⟩
      · rcases hmem _ hb with hb | ⟨hb, -⟩
        · exact h.uniqC a b ha hb
        · cases hb
      · cases ha
    rep := by
      intro d hd a b
      rcases hmem _ hd with hd | ⟨hd, -⟩
      · rcases h.rep d hd a b with x | x | ⟨pp, x, y⟩
        · exact .inl x
        · exact .inr (.inl x)
        · exact .inr (.inr ⟨pp, x, y.mono cfg D hsub⟩)
      · cases hd
    prp := by
      intro hc b hb l
      obtain ⟨pp, x, y⟩ := h.prp hc b hb l
      exact ⟨pp, x, y.mono cfg D hsub⟩
    cmA := by
      intro c hc a b l
      rcases hmem _ hc with hc | ⟨hc, -⟩
      · obtain ⟨q, h1, h2⟩ := h.cmA c hc a b l
        refine ⟨q, ?_, h2.mono cfg D hsub⟩
        by_cases e : pp.key = c.key
        · have es : pp.seqNo = c.seqNo := congrArg Prod.snd e
          rw [← e, hnone (by rw [es]; exact b)] at h1; cases h1
        · rw [← h1]; exact hold _ e
      · cases hc
    ordB := by
      intro o ho a b
      obtain ⟨b1, b2, b3⟩ := h.ordB o ho a b
      refine ⟨b1, fun x => by have := b2 x; simp only; split <;> omega, ?_⟩
      have e : pp.key ≠ o.key := by
        intro e
        have es : pp.seqNo = o.seqNo := congrArg Prod.snd e
        have := hlast (by rw [es]; exact b)
        have := b2 hprim
        omega
      exact b3.imp (fun x => (hold _ e).trans x) (fun x => (hold _ e).trans x)
    ordC := by
      intro o ho d hd hk hc
      rcases hmem _ hd with hd | ⟨hd, -⟩
      · exact (h.ordC o ho d hd hk hc).mono cfg D hsub
      · cases hd
    notPrim := by
      intro q hq
      rcases hmem _ hq with hq | ⟨hq, -⟩
      · exact h.notPrim q hq
      · cases hq
    vot := by
      intro k vs m hk hc
      obtain ⟨n1, q, n2, n3⟩ := h.vot k vs m hk hc
      refine ⟨n1, q, ?_, fun w hw => ⟨(n3 w hw).1, by
        obtain ⟨p, p1, p2, p3⟩ := (n3 w hw).2
        exact ⟨p, p1, p2, p3.mono cfg D hsub⟩⟩⟩
      by_cases e : pp.key = k
      · subst e; rw [hnone hc] at n2; cases n2
      · rw [← n2]; exact hold k e
    pps := by
      intro k q hk hc
      simp only [Dict.get?_set] at hk
      by_cases e : pp.key = k
      · rw [if_pos e] at hk; cases hk; subst e
        rw [show pp.key.1 = r.view from hv]
        exact ⟨hprim, by simp only; rw [hnew hc]; simp⟩
      · rw [if_neg e] at hk; exact ⟨(h.pps k q hk hc).1, hsub _ (h.pps k q hk hc).2⟩
    com := by
      intro k vs m hk hc
      obtain ⟨n1, q, n2, n3⟩ := h.com k vs m hk hc
      refine ⟨n1, q, ?_, fun w hw => by
        obtain ⟨p, p1, p2, p3⟩ := n3 w hw
        exact ⟨p, p1, p2, p3.mono cfg D hsub⟩⟩
      by_cases e : pp.key = k
      · subst e; rw [hnone hc] at n2; cases n2
      · rw [← n2]; exact hold k e
    cmt := by
      intro c hc hcert
      rcases hmem _ hc with hc | ⟨hc, -⟩
      · obtain ⟨pp, h1, h2⟩ := h.cmt c hc hcert
        exact ⟨pp, h1.mono cfg D hsub, h2⟩
      · cases hc
    ord := fun o ho hc => (h.ord o ho hc).mono cfg D hsub
    ppo := by
      intro p hp'
      rcases hmem _ hp' with hp' | ⟨hp', -⟩
      · refine ⟨(h.ppo p hp').1, fun hv => ?_⟩
        have := (h.ppo p hp').2 hv
        simp only; split <;> omega
      · cases hp'
        refine ⟨by rw [hv]; exact hprim, fun _ => ?_⟩
        simp only; split <;> omega
    ppu := by
      have one : ∀ q, .prePrepare q ∈ r.out → q.key = pp.key → r.lastPP < pp.seqNo → False := by
        intro q hq hk hl
        have e1 : q.viewNo = pp.viewNo := congrArg Prod.fst hk
        have e2 : q.seqNo = pp.seqNo := congrArg Prod.snd hk
        have := (h.ppo q hq).2 (by rw [e1, hv])
        omega
      intro a b ha hb hk
      rcases hmem _ ha with ha | ⟨ha, hl⟩
      · rcases hmem _ hb with hb | ⟨hb, hl⟩
        · exact h.ppu a b ha hb hk
        · cases hb; exact (one a ha hk hl).elim
      · cases ha
        rcases hmem _ hb with hb | ⟨hb, hl⟩
        · exact (one b hb hk.symm hl).elim
        · cases hb; rfl }

theorem Inv.processPrePrepare {r : Replica} (h : Inv cfg D r) (hD : ∀ w m, D w m → w ≠ cfg.name)
    (pp : PrePrepare) (w : Node) (env : PPEnv)
    (hs : D w (.prePrepare pp) ∨ (r.waiting = false → pp.seqNo ≤ cfg.top r.view)) :
    Inv cfg D (r.processPrePrepare cfg pp w env) := by
  unfold Replica.processPrePrepare
  split
  · exact h
  · next ha =>
    have ha : r.admits pp.viewNo pp.seqNo = true := by simpa using ha
    obtain ⟨a1, a2, a3, a4, -⟩ := admits_iff r _ _ ha
    have hcert := h.cert a2
    split
    · exact h
    · next hcan =>
      have hcan : r.canProcessPP cfg pp w env = true := by simpa using hcan
      have hfresh : cfg.top r.view < pp.seqNo →
          r.lastOrdered.2 < pp.seqNo ∧ r.recvPP.get? pp.key = none ∧ w = cfg.primary r.view ∧
          D (cfg.primary r.view) (.prePrepare pp) := by
        intro hc
        have hl : r.lastOrdered.2 < pp.seqNo := a4 (by rw [hcert]; exact cfg.cert_lt hc)
        unfold Replica.canProcessPP at hcan
        rw [if_neg (by rw [alreadyOrdered_iff]; omega)] at hcan
        split at hcan
        · cases hcan
        · split at hcan
          · cases hcan
          · next hf =>
            split at hcan
            · cases hcan
            · next hh =>
              have hf : cfg.primary r.view = w := by simpa [Replica.fromPrimary] using hf
              refine ⟨hl, ?_, hf.symm, ?_⟩
              · exact (Dict.has_false_iff _ _).1 (by simpa using hh)
              · rw [hf]
                rcases hs with hs | hs
                · exact hs
                · have := hs a2; omega
      unfold Replica.processValidPP
      split
      · exact h
      · simp only
        refine Inv.dequeueCommits ?_ hD _
        refine Inv.dequeuePrepares ?_ hD _
        have h0 : Inv cfg D (if r.alreadyOrdered pp.seqNo then r
            else { r with batches := (r.batches.filter (fun k => ¬ k = pp.key)) ++ [pp.key] }) := by
          split
          · exact h
          · exact { h with }
        generalize hr0 : (if r.alreadyOrdered pp.seqNo then r
            else { r with batches := (r.batches.filter (fun k => ¬ k = pp.key)) ++ [pp.key] }) = r0 at h0 ⊢
        have ev : r0.view = r.view := by subst hr0; split <;> rfl
        have ew : r0.waiting = r.waiting := by subst hr0; split <;> rfl
        have er : r0.recvPP = r.recvPP := by subst hr0; split <;> rfl
        have el : r0.lastOrdered = r.lastOrdered := by subst hr0; split <;> rfl
        have htrk : ∀ x ∈ trackBatch r0.preprepared pp.batchId, x ∈ r0.preprepared ∨ x.viewNo ≤ r0.view :=
          fun x hx => (mem_trackBatch.1 hx).imp id (fun e => by
            rw [e, ev]; exact Nat.le_of_eq a1)
        split
        · next hprim =>
          have hprim : cfg.primary r0.view = cfg.name := by simpa [Replica.isPrimary] using hprim
          unfold Replica.addToSentPP Replica.bumpLastPP
          simp only
          refine (h0.track (trackBatch r0.preprepared pp.batchId) r0.prepared htrk (fun _ h => h) (fun _ h => .inl h) r0.stable r0.caught (Nat.le_refl _) (Nat.le_refl _)).setSent pp r0.out (by rw [ev]; exact a1) (by rw [ew]; exact a2) hprim (.inl rfl) ?_
          intro hc
          rw [ev] at hc hprim
          obtain ⟨-, -, -, b⟩ := hfresh hc
          exact (hD _ _ b hprim).elim
        · next hprim =>
          have hprim : cfg.primary r0.view ≠ cfg.name := by simpa [Replica.isPrimary] using hprim
          unfold Replica.addToPrePrepares
          simp only
          refine Inv.tryPrepare ?_ hD pp (by show _ = r0.view; rw [ev]; exact a1)
            (by show r0.waiting = _; rw [ew]; exact a2) hprim ?_ ?_
          · refine (h0.track (trackBatch r0.preprepared pp.batchId) r0.prepared htrk (fun _ h => h) (fun _ h => .inl h) r0.stable r0.caught (Nat.le_refl _) (Nat.le_refl _)).setRecv pp (by rw [ev]; exact a1) (by rw [ew]; exact a2) hprim ?_
            intro hc
            rw [ev] at hc ⊢
            obtain ⟨b0, b1, -, b2⟩ := hfresh hc
            exact ⟨by rw [er]; exact b1, by rw [el]; exact b0, b2⟩
          · simp [Replica.bumpLastPP, Dict.get?_set]
          · intro hc
            show r0.lastOrdered.2 < _
            have hc : cfg.top r0.view < pp.seqNo := hc
            rw [ev] at hc; rw [el]
            exact (hfresh hc).1

theorem Inv.createBatch {r : Replica} (h : Inv cfg D r) (b : NewBatch) :
    Inv cfg D (r.createBatch cfg b) := by
  unfold Replica.createBatch
  split
  · exact h
  · next hc =>
    unfold Replica.canSendBatch at hc
    have hc1 : cfg.primary r.view = cfg.name ∧ r.waiting = false := by
      by_cases h1 : r.isPrimary cfg = true
      · refine ⟨by simpa [Replica.isPrimary] using h1, ?_⟩
        cases hw : r.waiting with
        | false => rfl
        | true =>
          exfalso; apply hc
          rw [hw]
          cases r.participating <;> simp
      · exfalso; apply hc; simp [h1]
    simp only [Replica.addToSentPP, Replica.bumpLastPP]
    have := h.setSent
      { viewNo := r.view, seqNo := r.lastPP + 1, origView := r.view, time := b.time, reqs := b.reqs
        ledger := b.ledger, poolRoot := b.poolRoot
        content := ⟨cfg.digest b.reqs r.view b.time, b.stateRoot, b.txnRoot, b.auditRoot⟩ } _
      rfl hc1.2 hc1.1 (.inr ⟨rfl, by simp⟩) (fun _ => rfl)
    exact { this with
      trk := fun h0 x hx => (mem_trackBatch.1 hx).elim (h.trk h0 x) (fun e => by rw [e]; exact Nat.le_refl r.view) }

/-! ## Housekeeping -/

theorem Inv.processOutOfOrder {r : Replica} (h : Inv cfg D r) (_ : ∀ w m, D w m → w ≠ cfg.name) :
    Inv cfg D (r.processOutOfOrder cfg) := by
  unfold Replica.processOutOfOrder
  split
  · exact h
  · simp only
    have hfold : ∀ (q : List (Key × Commit)) (s : Replica × Key × List Key), Inv cfg D s.1 →
        Inv cfg D (q.foldl (Replica.orderStashed cfg) s).1 := by
      intro q
      induction q with
      | nil => intro s h; exact h
      | cons e q ih =>
        intro s h
        rw [List.foldl_cons]
        refine ih _ ?_
        obtain ⟨r, lo, del⟩ := s
        unfold Replica.orderStashed
        simp only
        split
        · exact h
        · split
          · exact h
          · split
            · split
              · exact h.tryOrder _
              · exact h.tryOrder _
            · exact h
    have := hfold r.outOfOrder (r, r.lastOrdered, []) h
    exact { this with
      ooo := fun e he => this.ooo e (List.mem_filter.1 he).1 }

theorem Inv.dropBy {r : Replica} (h : Inv cfg D r) (q : Key → Bool)
    (hq1 : ∀ k, q k = true → k.2 ≤ r.lastOrdered.2) : Inv cfg D { r with
      sentPP := r.sentPP.filter (fun e => !q e.1)
      recvPP := r.recvPP.filter (fun e => !q e.1)
      prepares := r.prepares.filter (fun e => !q e.1)
      commits := r.commits.filter (fun e => !q e.1)
      batches := r.batches.filter (fun k => !q k) } := by
  have hget : ∀ {β : Type} (d : Dict Key β) (k : Key),
      Dict.get? (d.filter (fun e => !q e.1)) k = if q k then none else d.get? k := by
    intro β d k
    rw [Dict.get?_filter d (fun k => !q k)]
    cases q k <;> rfl
  have hsome : ∀ {β : Type} (d : Dict Key β) (k : Key) (v : β),
      Dict.get? (d.filter (fun e => !q e.1)) k = some v → q k = false ∧ d.get? k = some v := by
    intro β d k v hv
    rw [hget] at hv
    cases e : q k with
    | true => rw [e] at hv; cases hv
    | false => rw [e] at hv; exact ⟨rfl, hv⟩
  have hpp : ∀ k, q k = false → ({ r with
      sentPP := r.sentPP.filter (fun e => !q e.1)
      recvPP := r.recvPP.filter (fun e => !q e.1)
      prepares := r.prepares.filter (fun e => !q e.1)
      commits := r.commits.filter (fun e => !q e.1)
      batches := r.batches.filter (fun k => !q k) } : Replica).getPP k = r.getPP k := by
    intro k hk
    unfold Replica.getPP
    simp only [hget, hk, Bool.false_eq_true, if_false]
  exact { h with
    kv := by
      intro k hk
      rcases hk with ⟨v, hk⟩ | ⟨v, hk⟩ | ⟨v, hk⟩ | ⟨v, hk⟩
      · exact h.kv k (.inl ⟨v, (hsome _ _ _ hk).2⟩)
      · exact h.kv k (.inr (.inl ⟨v, (hsome _ _ _ hk).2⟩))
      · exact h.kv k (.inr (.inr (.inl ⟨v, (hsome _ _ _ hk).2⟩)))
      · exact h.kv k (.inr (.inr (.inr ⟨v, (hsome _ _ _ hk).2⟩)))
    ppk := by
      intro k q hk
      rcases hk with hk | hk
      · exact h.ppk k q (.inl (hsome _ _ _ hk).2)
      · exact h.ppk k q (.inr (hsome _ _ _ hk).2)
    wait := by
      intro hw
      obtain ⟨a, b⟩ := h.wait hw
      refine ⟨fun k => ?_, b⟩
      obtain ⟨a1, a2, a3, a4⟩ := a k
      refine ⟨?_, ?_, ?_, ?_⟩ <;> simp only [hget, a1, a2, a3, a4, ite_self]
    ownP := by
      intro x hx a b
      rcases h.ownP x hx a b with c | ⟨pp, c1, c2, c3⟩
      · exact .inl c
      · cases e : q x.key with
        | true => exact .inl (hq1 _ e)
        | false =>
          refine .inr ⟨pp, ?_, c2, ?_⟩
          · simp only [hget, e, Bool.false_eq_true, if_false]; exact c1
          · unfold hasVote at c3 ⊢
            simp only [hget, e, Bool.false_eq_true, if_false]; exact c3
    ownC := by
      intro x hx a b
      rcases h.ownC x hx a b with c | c
      · exact .inl c
      · cases e : q x.key with
        | true => exact .inl (hq1 _ e)
        | false =>
          refine .inr ?_
          unfold hasVote at c ⊢
          simp only [hget, e, Bool.false_eq_true, if_false]; exact c
    cmA := by
      intro c hc a b l
      obtain ⟨pp, h1, h2⟩ := h.cmA c hc a b l
      refine ⟨pp, ?_, h2⟩
      cases e : q c.key with
      | true =>
        have := hq1 _ e
        have l : r.lastOrdered.2 < c.key.2 := l
        omega
      | false => rw [hpp _ e]; exact h1
    ordB := by
      intro o ho a b
      obtain ⟨b1, b2, b3⟩ := h.ordB o ho a b
      refine ⟨b1, b2, ?_⟩
      cases e : q o.key with
      | true =>
        refine .inr ?_
        unfold Replica.getPP
        simp only [hget, e, if_true]
      | false => rw [hpp _ e]; exact b3
    vot := by
      intro k vs m hk hc
      obtain ⟨e, hk⟩ := hsome _ _ _ hk
      obtain ⟨n1, pp, n2, n3⟩ := h.vot k vs m hk hc
      exact ⟨n1, pp, by rw [hpp k e]; exact n2, n3⟩
    ppr := fun k pp hk hc => h.ppr k pp (hsome _ _ _ hk).2 hc
    pps := fun k pp hk hc => h.pps k pp (hsome _ _ _ hk).2 hc
    com := by
      intro k vs m hk hc
      obtain ⟨e, hk⟩ := hsome _ _ _ hk
      obtain ⟨n1, pp, n2, n3⟩ := h.com k vs m hk hc
      exact ⟨n1, pp, by rw [hpp k e]; exact n2, n3⟩ }

theorem Inv.dropKeys {r : Replica} (h : Inv cfg D r) (p : Key → Bool)
    (hp : ∀ k, p k = true → k.2 ≤ r.lastOrdered.2) (hs : ∀ k, p k = true → k.2 ≤ r.stable ∨ k.2 ≤ r.caught) :
    Inv cfg D (r.dropKeys p) := by
  have h1 := h.dropBy (fun k => p k && (r.getPP k).isSome) (fun k hk => hp k (by
    simp only [Bool.and_eq_true] at hk; exact hk.1))
  exact { h1 with
    trk := fun hc b hb => h.trk hc b (List.mem_filter.1 hb).1
    prp := fun hc b hb => h.prp hc b (List.mem_filter.1 hb).1
    rep := by
      intro c x1 x2 x3
      rcases h.rep c x1 x2 x3 with x | x | ⟨pp, x, y⟩
      · exact .inl x
      · exact .inr (.inl x)
      · cases e : p c.key with
        | true => exact (hs _ e).imp id .inl
        | false =>
          refine .inr (.inr ⟨pp, ?_, y⟩)
          refine List.mem_filter.2 ⟨x, ?_⟩
          have : (pp.batchId.viewNo, pp.batchId.ppSeqNo) = c.key := y.1
          simp [Replica.clears, this, e] }

theorem Inv.setLastOrdered {r : Replica} (h : Inv cfg D r) (k : Key) (hk : r.lastOrdered.2 < k.2) :
    Inv cfg D (r.setLastOrdered k) := by
  unfold Replica.setLastOrdered
  exact { h with
    ownP := by
      intro p a b c
      rcases h.ownP p a b c with d | d
      · exact .inl (by simp only; omega)
      · exact .inr d
    ownC := by
      intro p a b c
      rcases h.ownC p a b c with d | d
      · exact .inl (by simp only; omega)
      · exact .inr d
    cmA := by
      intro c a b d e
      exact h.cmA c a b d (by simp only at e; omega)
    ordB := by
      intro o ho a b
      obtain ⟨b1, b2, b3⟩ := h.ordB o ho a b
      exact ⟨by simp only; omega, fun x => by have := b2 x; simp only; split <;> omega, b3⟩
    ppo := by
      intro p hp'
      refine ⟨(h.ppo p hp').1, fun hv => ?_⟩
      have := (h.ppo p hp').2 hv
      simp only; split <;> omega }

theorem Inv.startViewChange {r : Replica} (h : Inv cfg D r) (v : Nat) :
    Inv cfg D (r.startViewChange v) := by
  unfold Replica.startViewChange
  split
  · exact h
  · next hv =>
    have hlt : ∀ m ∈ r.out, m.viewNo < v := fun m hm => by have := h.outv m hm; omega
    simp only [Replica.revertUnordered]
    exact {
      kv := by intro k hk; simp at hk
      ppk := by intro k pp hk; simp at hk
      wait := by intro _; exact ⟨fun k => by simp, hlt⟩
      outv := fun m hm => Nat.le_of_lt (hlt m hm)
      cert := by intro hw; cases hw
      ownP := by
        intro p hp a
        have := hlt _ hp
        simp only [Msg.viewNo] at this a
        omega
      uniqP := h.uniqP
      ownC := by
        intro p hp a
        have := hlt _ hp
        simp only [Msg.viewNo] at this a
        omega
      uniqC := h.uniqC
      ordv := fun o ho => by have := h.ordv o ho; simp only; omega
      rep := by
        intro p hp a
        have := hlt _ hp
        simp only [Msg.viewNo] at this a
        omega
      trk := by intro _ b hb; simp at hb
      prp := by intro _ b hb; simp at hb
      cmA := by
        intro p hp a
        have := hlt _ hp
        simp only [Msg.viewNo] at this a
        omega
      ordB := by
        intro o ho a
        have := h.ordv o ho
        simp only at a
        omega
      ordC := h.ordC
      notPrim := h.notPrim
      vot := by intro k vs m hk; simp at hk
      ppr := by intro k pp hk; simp at hk
      pps := by intro k pp hk; simp at hk
      com := by intro k vs m hk; simp at hk
      cmt := h.cmt
      ord := h.ord
      ppo := by
        intro p hp
        refine ⟨(h.ppo p hp).1, fun e => ?_⟩
        have := hlt _ hp
        simp only [Msg.viewNo] at this e
        omega
      ppu := h.ppu
      prW := h.prW
      cmW := h.cmW
      ooo := h.ooo }

theorem Inv.step {r : Replica} (h : Inv cfg D r) (hD : ∀ w m, D w m → w ≠ cfg.name) (e : Event)
    (he : ∀ m w env, e = .deliver m w env → D w m) : Inv cfg D (r.step cfg e) := by
  cases e with
  | deliver m w env =>
    have hd := he m w env rfl
    cases m with
    | prePrepare pp => exact h.processPrePrepare hD pp w env (.inl hd)
    | prepare p => exact h.processPrepare hD p w hd
    | commit c => exact h.processCommit hD c w hd
  | createBatch b => exact h.createBatch b
  | orderStashed => exact h.processOutOfOrder hD
  | stabilize till =>
    unfold Replica.step
    simp only
    split
    · next hle =>
      unfold Replica.gc
      have := (h.track r.preprepared r.prepared (fun _ h => .inl h) (fun _ h => h) (fun _ h => .inl h) till r.caught hle.1 (Nat.le_refl _)).dropKeys
        (fun k => k.2 ≤ till) (fun k hk => by
          have : k.2 ≤ till := of_decide_eq_true hk
          exact Nat.le_trans this hle.2) (fun k hk => .inl (of_decide_eq_true hk))
      exact { this with }
    · exact h
  | watermarks low high => exact { h with }
  | startCatchup =>
    unfold Replica.step Replica.startCatchup Replica.revertUnordered
    simp only
    split
    · exact h
    · next hp =>
      have hp : cfg.primary r.view ≠ cfg.name := by simpa [Replica.isPrimary] using hp
      exact { h with
        ordB := by
          intro o ho a b
          obtain ⟨b1, b2, b3⟩ := h.ordB o ho a b
          exact ⟨b1, fun x => (hp x).elim, b3⟩
        ppo := by
          intro p hp'
          refine ⟨(h.ppo p hp').1, fun e => ?_⟩
          have := (h.ppo p hp').1
          simp only at e
          rw [e] at this
          exact (hp this).elim }
  | caughtUp k restored =>
    unfold Replica.step Replica.caughtUp
    simp only
    split
    · next hk =>
      have h0 := (h.setLastOrdered k hk).track (r.setLastOrdered k).preprepared (r.setLastOrdered k).prepared
        (fun _ h => .inl h) (fun _ h => h) (fun _ h => .inl h) (r.setLastOrdered k).stable (max r.caught k.2) (Nat.le_refl _) (Nat.le_max_left _ _)
      have h1 := h0.dropKeys (fun j => j.2 ≤ k.2) (fun j hj => of_decide_eq_true hj)
        (fun j hj => .inr (Nat.le_trans (of_decide_eq_true hj) (Nat.le_max_right _ _)))
      exact { h1 with
        trk := by
          intro hc
          simp only [Replica.dropKeys, Replica.setLastOrdered] at hc
          omega
        prp := by
          intro hc
          simp only [Replica.dropKeys, Replica.setLastOrdered] at hc
          omega
        rep := by
          intro c x1 x2 x3
          rcases h1.rep c x1 x2 x3 with x | x | ⟨pp, x, y⟩
          · exact .inl x
          · exact .inr (.inl x)
          · exact .inr (.inr ⟨pp, List.mem_append_left _ x, y⟩) }
    · exact { h with }
  | startViewChange v => exact h.startViewChange v
  | acceptNewView =>
    unfold Replica.step Replica.acceptNewView
    simp only
    split
    · next hw =>
      obtain ⟨a, b⟩ := h.wait hw
      exact { h with
        wait := by intro hw'; cases hw'
        cert := fun _ => rfl }
    · exact h
  | oldViewPP pp env =>
    unfold Replica.step Replica.oldViewPP
    simp only
    split
    · next hle =>
      refine h.processPrePrepare hD _ _ env (.inr fun hw => ?_)
      exact hle
    · exact h

theorem Inv.mono {D' : Node → Msg → Prop} {r : Replica} (h : Inv cfg D r) (hs : ∀ w m, D w m → D' w m) :
    Inv cfg D' r := by
  have sm : ∀ {w m}, Src cfg D r.out w m → Src cfg D' r.out w m := by
    intro w m hx
    rcases hx with hx | ⟨a, b⟩
    · exact .inl hx
    · exact .inr ⟨a, hs _ _ b⟩
  exact { h with
    vot := by
      intro k vs m hk hc
      obtain ⟨n1, q, n2, n3⟩ := h.vot k vs m hk hc
      refine ⟨n1, q, n2, fun w hw => ⟨(n3 w hw).1, by
        obtain ⟨p, p1, p2, p3⟩ := (n3 w hw).2
        exact ⟨p, p1, p2, sm p3⟩⟩⟩
    rep := by
      intro c a b l
      rcases h.rep c a b l with x | x | ⟨pp, x, y⟩
      · exact .inl x
      · exact .inr (.inl x)
      · exact .inr (.inr ⟨pp, x, y.monoD cfg D hs⟩)
    prp := by
      intro hc b hb l
      obtain ⟨pp, x, y⟩ := h.prp hc b hb l
      exact ⟨pp, x, y.monoD cfg D hs⟩
    cmA := by
      intro c hc a b l
      obtain ⟨pp, h1, h2⟩ := h.cmA c hc a b l
      exact ⟨pp, h1, h2.monoD cfg D hs⟩
    ordC := fun o ho c hc hk hcert => (h.ordC o ho c hc hk hcert).monoD cfg D hs
    ppr := fun k pp hk hc => ⟨(h.ppr k pp hk hc).1, hs _ _ (h.ppr k pp hk hc).2⟩
    com := by
      intro k vs m hk hc
      obtain ⟨n1, q, n2, n3⟩ := h.com k vs m hk hc
      exact ⟨n1, q, n2, fun w hw => by
        obtain ⟨p, p1, p2, p3⟩ := n3 w hw
        exact ⟨p, p1, p2, sm p3⟩⟩
    cmt := by
      intro c hc hcert
      obtain ⟨pp, ⟨a, b, Q, c, d, e⟩, h2⟩ := h.cmt c hc hcert
      refine ⟨pp, ⟨a, sm b, Q, c, d, fun q hq => ⟨(e q hq).1, ?_⟩⟩, h2⟩
      obtain ⟨p, p1, p2, p3⟩ := (e q hq).2
      exact ⟨p, p1, p2, sm p3⟩
    ord := by
      intro o ho hc
      obtain ⟨b, Q, c, d, e⟩ := h.ord o ho hc
      refine ⟨sm b, Q, c, d, fun q hq => ?_⟩
      obtain ⟨p, p1, p2, p3⟩ := e q hq
      exact ⟨p, p1, p2, sm p3⟩
    prW := fun k q hk e he => ⟨(h.prW k q hk e he).1, hs _ _ (h.prW k q hk e he).2⟩
    cmW := fun k q hk e he => ⟨(h.cmW k q hk e he).1, hs _ _ (h.cmW k q hk e he).2⟩ }

/-- The invariant holds after every run whose deliveries come from others.
The first view has no prepared certificate. -/
theorem Inv.run (h0 : cfg.cert 0 = 0) (evs : List Event)
    (hD : ∀ w m, Delivered evs w m → w ≠ cfg.name) : Inv cfg (Delivered evs) (run cfg evs) := by
  have base : ∀ D, Inv cfg D ({} : Replica) := fun D => {
    kv := by intro k hk; simp at hk
    ppk := by intro k pp hk; simp at hk
    wait := by intro hw; cases hw
    outv := by simp
    cert := by intro _; exact h0.symm
    ownP := by simp
    uniqP := by simp
    ownC := by simp
    uniqC := by simp
    ordv := by simp
    cmA := by simp
    rep := by simp
    trk := by simp
    prp := by simp
    ordB := by simp
    ordC := by simp
    notPrim := by simp
    vot := by intro k vs m hk; simp at hk
    ppr := by intro k pp hk; simp at hk
    pps := by intro k pp hk; simp at hk
    com := by intro k vs m hk; simp at hk
    cmt := by simp
    ord := by simp
    ppo := by simp
    ppu := by simp
    prW := by intro k q hk; simp at hk
    cmW := by intro k q hk; simp at hk
    ooo := by simp }
  have fold : ∀ (l : List Event) (r : Replica), Inv cfg (Delivered evs) r → (∀ e ∈ l, e ∈ evs) →
      Inv cfg (Delivered evs) (l.foldl (Replica.step cfg) r) := by
    intro l
    induction l with
    | nil => intro r h _; exact h
    | cons e l ih =>
      intro r h hl
      rw [List.foldl_cons]
      refine ih _ (h.step hD e ?_) (fun x hx => hl x (List.mem_cons_of_mem _ hx))
      intro m w env he
      exact ⟨env, by rw [← he]; exact hl e List.mem_cons_self⟩
  exact fold evs {} (base _) (fun _ h => h)

end Verif.TPC
