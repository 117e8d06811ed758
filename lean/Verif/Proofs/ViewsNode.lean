import Verif.Proofs.ViewsNV
/-! One honest node through its view changes. -/
namespace Verif.Views

open TPC (NInv CertD Committed Src)

variable {C : Cfg} {i : Node}

/-! ### Contiguous ordering -/

structure Seq (C : Cfg) (w : Node) (s : St) : Prop where
  ctg : TPC.Ctg (tcfg C w {}) True s.tpc
  log : s.tpc.ordLog.map (·.seqNo) = List.range' 1 s.tpc.ordLog.length
  last : s.tpc.lastOrdered.2 = s.tpc.ordLog.length

theorem ctg_conv {C : Cfg} {w : Node} {s t : St} {nc : Prop} {r : TPC.Replica} (h : TPC.Ctg (tcfg C w s) nc r) :
    TPC.Ctg (tcfg C w t) nc r := { h with }

theorem seq_closed (C : Cfg) (w : Node) : Closed C w (Seq C w) where
  order := by
    intro s evs hp h
    have key : ∀ (cfg : TPC.Cfg) (evs : List TPC.Event) (r : TPC.Replica), Plain evs → TPC.Ctg cfg True r →
        r.ordLog.map (·.seqNo) = List.range' 1 r.ordLog.length → r.lastOrdered.2 = r.ordLog.length →
        TPC.Ctg cfg True (evs.foldl (TPC.Replica.step cfg) r) ∧
        (evs.foldl (TPC.Replica.step cfg) r).ordLog.map (·.seqNo) =
          List.range' 1 (evs.foldl (TPC.Replica.step cfg) r).ordLog.length ∧
        (evs.foldl (TPC.Replica.step cfg) r).lastOrdered.2 = (evs.foldl (TPC.Replica.step cfg) r).ordLog.length := by
      intro cfg evs
      induction evs with
      | nil => intro r _ a b c; exact ⟨a, b, c⟩
      | cons e evs ih =>
        intro r hp a b c
        obtain ⟨h1, -, h3⟩ := a.step e (fun _ h => hp.1 (by rw [← h]; exact List.mem_cons_self))
        obtain ⟨new, n1, n2, n3, -⟩ := h3 (fun k l h => hp.2 k l (by rw [← h]; exact List.mem_cons_self)) (.inl trivial)
        rw [List.foldl_cons]
        refine ih _ ⟨fun h => hp.1 (List.mem_cons_of_mem _ h), fun k l h => hp.2 k l (List.mem_cons_of_mem _ h)⟩ h1 ?_ ?_
        · rw [n1, List.map_append, b, n2, c, List.length_append, Nat.add_comm r.ordLog.length 1, List.range'_append_1]
        · rw [n3, n1, List.length_append, c]
    obtain ⟨a, b, c⟩ := key (tcfg C w s) evs s.tpc hp (ctg_conv h.ctg) h.log h.last
    exact ⟨ctg_conv a, b, c⟩
  serve := fun s e h => ⟨h.ctg, h.log, h.last⟩
  rest := fun s _ _ h => ⟨h.ctg, h.log, h.last⟩

theorem seq_node (C : Cfg) (pre : Schedule) (w : Node) : Seq C w (node C pre w) := by
  refine prefix_induction (σ := pre) (P := fun _ s => Seq C w s) ?_ ?_ (fun _ _ _ _ _ h => h) pre [] (List.append_nil _).symm
  · exact ⟨TPC.Ctg.run [] (by simp), rfl, rfl⟩
  · intro pre e post _ h; exact (seq_closed C w).step h e

/-- Below an ordered batch every place was ordered, not in a later view. -/
theorem ordered_below {pre : Schedule} {w : Node} (hp : (node C pre w).tpc.ordLog.Pairwise (fun a b => a.viewNo ≤ b.viewNo))
    {o : TPC.PrePrepare} (ho : o ∈ (node C pre w).tpc.ordLog) {t : Nat} (h1 : 0 < t) (h2 : t ≤ o.seqNo) :
    ∃ q ∈ (node C pre w).tpc.ordLog, q.seqNo = t ∧ q.viewNo ≤ o.viewNo := by
  have hl := (seq_node C pre w).log
  obtain ⟨a, ha, rfl⟩ := List.mem_iff_getElem.1 ho
  have hsq : ∀ b (hb : b < (node C pre w).tpc.ordLog.length), (node C pre w).tpc.ordLog[b].seqNo = 1 + b := by
    intro b hb
    have h3 : ((node C pre w).tpc.ordLog.map (·.seqNo))[b]'(by rw [List.length_map]; exact hb) = 1 + b := by
      simp only [hl, List.getElem_range', Nat.one_mul]
    rw [List.getElem_map] at h3
    exact h3
  have e1 := hsq a ha
  have hb : t - 1 < (node C pre w).tpc.ordLog.length := by omega
  have e2 := hsq (t - 1) hb
  refine ⟨(node C pre w).tpc.ordLog[t - 1], List.getElem_mem hb, by omega, ?_⟩
  by_cases e : t - 1 = a
  · simp only [e]; exact Nat.le_refl _
  · exact List.pairwise_iff_getElem.1 hp (t - 1) a hb ha (by omega)

/-! ### What a node may store -/

/-- The highest place a NEW_VIEW speaks of. -/
def topOf (nv : VC.NewView) : Nat := max nv.cert (highest nv.batches)

theorem le_highest {l : List BatchID} {b : BatchID} (h : b ∈ l) : b.ppSeqNo ≤ highest l := by
  unfold highest
  have key : ∀ (l : List BatchID) (m : Nat), m ≤ l.foldl (fun m b => max m b.ppSeqNo) m ∧
      ∀ b ∈ l, b.ppSeqNo ≤ l.foldl (fun m b => max m b.ppSeqNo) m := by
    intro l
    induction l with
    | nil => intro m; exact ⟨Nat.le_refl _, by simp⟩
    | cons a l ih =>
      intro m
      obtain ⟨h1, h2⟩ := ih (max m a.ppSeqNo)
      rw [List.foldl_cons]
      refine ⟨by omega, fun b hb => ?_⟩
      rcases List.mem_cons.1 hb with hb | hb
      · rw [hb]; omega
      · exact h2 b hb
  exact (key l 0).2 b h

/-- The messages delivered to node `i`. -/
def Got (σ : Schedule) (i : Node) (w : Node) (m : TPC.Msg) : Prop := ∃ env, (i, .msg m w env) ∈ σ

/-- Node `i` accepted a NEW_VIEW naming `d` at `k`. -/
def Stale (C : Cfg) (σ : Schedule) (i : Node) (k : TPC.Key) (d : Nat) : Prop :=
  ∃ nv ∈ (node C σ i).vc.accepted, nv.viewNo = k.1 ∧ ∃ b ∈ nv.batches, b.ppSeqNo = k.2 ∧ b.ppDigest = d

/-- Node `i` has a PRE-PREPARE of the primary at `k`, above all the NEW_VIEW
names. -/
def Fresh (C : Cfg) (σ : Schedule) (i : Node) (k : TPC.Key) (d : Nat) : Prop :=
  (k.1 = 0 ∨ ∃ nv ∈ (node C σ i).vc.accepted, nv.viewNo = k.1 ∧ topOf nv < k.2) ∧
  ∃ pp : TPC.PrePrepare, pp.key = k ∧ pp.content.digest = d ∧
    Src (tcfg C i {}) (Got σ i) (node C σ i).tpc.out (C.primary k.1) (.prePrepare pp)

def Adm (C : Cfg) (σ : Schedule) (i : Node) (k : TPC.Key) (d : Nat) : Prop := Stale C σ i k d ∨ Fresh C σ i k d

variable {σ : Schedule}

/-- The places a NEW_VIEW names are above its checkpoint, each named once. -/
theorem NvOk.places {nv : VC.NewView} (h : NvOk C σ nv) :
    (∀ b ∈ nv.batches, nv.checkpoint.seqNoEnd < b.ppSeqNo) ∧
    (∀ b ∈ nv.batches, ∀ c ∈ nv.batches, b.ppSeqNo = c.ppSeqNo → b = c) ∧ nv.checkpoint.seqNoEnd ≤ topOf nv := by
  obtain ⟨nvs, -, -, -, h4⟩ := h
  obtain ⟨new, e, -, f, -⟩ := VC.calcBatches_spec h4
  have hb : ∀ b ∈ nv.batches, nv.checkpoint.seqNoEnd < b.ppSeqNo := by
    intro b hb
    obtain ⟨a, ha, rfl⟩ := List.mem_iff_getElem.1 ((e b).1 hb)
    have := (VC.tryFindBatch_some (f a ha)).2.1
    omega
  refine ⟨hb, ?_, ?_⟩
  · intro b hb c hc he
    obtain ⟨x, hx, rfl⟩ := List.mem_iff_getElem.1 ((e b).1 hb)
    obtain ⟨y, hy, rfl⟩ := List.mem_iff_getElem.1 ((e c).1 hc)
    have h1 := (VC.tryFindBatch_some (f x hx)).2.1
    have h2 := (VC.tryFindBatch_some (f y hy)).2.1
    have : x = y := by omega
    subst this; rfl
  · unfold topOf VC.NewView.cert
    cases hl : nv.batches.getLast? with
    | none => simp only; omega
    | some b =>
      have := hb b (List.mem_of_getLast? hl)
      simp only; omega

/-- What a node stores at a place the NEW_VIEW names. -/
theorem Adm.named (hok : Ok C σ) (hd : Distinct C σ) (hi : C.Honest i) {nv : VC.NewView}
    (hn : nv ∈ (node C σ i).vc.accepted) {b : BatchID} (hb : b ∈ nv.batches) {d : Nat}
    (h : Adm C σ i (nv.viewNo, b.ppSeqNo) d) : d = b.ppDigest := by
  have hS := sync hok hi σ [] (List.append_nil _).symm
  rcases h with ⟨nv', h1, h2, c, c1, c2, c3⟩ | ⟨h, -⟩
  · have := pairwise_lt_unique hS.accI h1 hn h2
    subst this
    have := ((nvOk hok hd hi hn).places).2.1 c c1 b hb c2
    rw [← c3, this]
  · rcases h with h | ⟨nv', h1, h2, h3⟩
    · have := (hS.accL nv hn).1
      simp only at h; omega
    · have := pairwise_lt_unique hS.accI h1 hn h2
      subst this
      have := le_highest hb
      unfold topOf at h3
      simp only at h3; omega

/-! ### The invariant -/

theorem n_conv {w : Node} {s t : St} {D A} {r : TPC.Replica} (h : NInv (tcfg C w s) D A r) : NInv (tcfg C w t) D A r :=
  { h with }

/-- A VIEW_CHANGE the node sent is right about its messages `out`. -/
structure VOk (C : Cfg) (σ : Schedule) (i : Node) (out : List TPC.Msg) (vc : VC.ViewChange) : Prop where
  prp : ∀ b ∈ vc.prepared, b.viewNo < vc.viewNo ∧
    CertD (tcfg C i {}) (Got σ i) (Adm C σ i) out (b.viewNo, b.ppSeqNo) b.ppDigest
  pre : ∀ b ∈ vc.preprepared, b.viewNo < vc.viewNo ∧ Adm C σ i (b.viewNo, b.ppSeqNo) b.ppDigest
  com : ∀ c, .commit c ∈ out → c.viewNo < vc.viewNo →
    (c.seqNo ≤ vc.stableCheckpoint ∨ ∃ b ∈ vc.prepared, b.ppSeqNo = c.seqNo ∧ c.viewNo ≤ b.viewNo) ∧
    c.seqNo ≤ vc.stableCheckpoint + 300

structure W (C : Cfg) (σ : Schedule) (i : Node) (s : St) : Prop where
  N : NInv (tcfg C i {}) (Got σ i) (Adm C σ i) s.tpc
  kp : ∀ e ∈ s.vc.oldPrepared, e.2.ppSeqNo = e.1 ∧ e.2.viewNo < s.vc.viewNo ∧
    CertD (tcfg C i {}) (Got σ i) (Adm C σ i) s.tpc.out (e.2.viewNo, e.2.ppSeqNo) e.2.ppDigest
  kpp : ∀ e ∈ s.vc.oldPreprepared, ∀ b ∈ e.2, b.viewNo < s.vc.viewNo ∧ Adm C σ i (b.viewNo, b.ppSeqNo) b.ppDigest
  kc : ∀ c, .commit c ∈ s.tpc.out → c.viewNo < s.vc.viewNo →
    c.seqNo ≤ s.tpc.stable ∨ ∃ b, s.vc.oldPrepared.get? c.seqNo = some b ∧ c.viewNo ≤ b.viewNo
  kv : ∀ vc ∈ s.vc.sentVC, vc.viewNo ≤ s.vc.viewNo ∧ VOk C σ i s.tpc.out vc
  oldk : ∀ e ∈ s.old, e.1 = oldKey e.2

theorem VOk.mono {out out' : List TPC.Msg} {vc : VC.ViewChange} (h : VOk C σ i out vc) (h1 : ∀ m ∈ out, m ∈ out')
    (h2 : ∀ m ∈ out', m ∈ out ∨ vc.viewNo ≤ m.viewNo) : VOk C σ i out' vc where
  prp := fun b hb => ⟨(h.prp b hb).1, (h.prp b hb).2.mono _ _ _ h1⟩
  pre := h.pre
  com := by
    intro c hc hv
    rcases h2 _ hc with x | x
    · exact h.com c x hv
    · simp only [TPC.Msg.viewNo] at x; omega

/-- The ordering service handled something quietly. -/
theorem W.quiet {s : St} (h : W C σ i s) (hS : Sync0 C i s) {evs : List TPC.Event}
    (q : TPC.Quiet s.tpc (s.order C i evs).tpc) (hN : NInv (tcfg C i s) (Got σ i) (Adm C σ i) (s.order C i evs).tpc) :
    W C σ i (s.order C i evs) where
  N := n_conv hN
  kp := fun e he => ⟨(h.kp e he).1, (h.kp e he).2.1, (h.kp e he).2.2.mono _ _ _ q.keep⟩
  kpp := h.kpp
  kc := by
    intro c hc hv
    rw [q.stable]
    rcases q.new _ hc with x | x
    · exact h.kc c x hv
    · simp only [TPC.Msg.viewNo] at x
      have := hS.view
      have hv : c.viewNo < s.vc.viewNo := hv
      omega
  kv := fun vc hvc => ⟨(h.kv vc hvc).1, (h.kv vc hvc).2.mono q.keep (fun m hm => by
    rcases q.new m hm with x | x
    · exact .inl x
    · have := hS.view
      have := (h.kv vc hvc).1
      exact .inr (by omega))⟩
  oldk := h.oldk

theorem got_ne (hok : Ok C σ) (hi : C.Honest i) : ∀ w m, Got σ i w m → w ≠ i := by
  rintro w m ⟨env, h⟩
  obtain ⟨a, b, e⟩ := List.append_of_mem h
  exact (hok.net a i _ b e hi).2.1

/-- A batch the NEW_VIEW names is applied. -/
theorem W.apply (hok : Ok C σ) (hd : Distinct C σ) (hi : C.Honest i) {s : St} (h : W C σ i s) (hS : Sync C i s)
    (hg : ∀ x ∈ s.vc.accepted, x ∈ (node C σ i).vc.accepted) {nv : VC.NewView} (hn : nv ∈ s.vc.accepted)
    (hv : nv.viewNo = s.vc.viewNo) {b : BatchID} (hb : b ∈ nv.batches) {pp : TPC.PrePrepare}
    (h1 : pp.seqNo = b.ppSeqNo) (h2 : pp.content.digest = b.ppDigest) (env : TPC.PPEnv) :
    W C σ i (s.order C i [.oldViewPP pp env]) := by
  refine h.quiet hS.toSync0 (TPC.quiet_oldViewPP s.tpc pp env) ?_
  show NInv (tcfg C i s) _ _ (s.tpc.oldViewPP (tcfg C i s) pp env)
  unfold TPC.Replica.oldViewPP
  split
  · refine NInv.processPrePrepare (n_conv h.N) (got_ne hok hi) _ _ _ (fun _ _ => ?_)
    have ek : ({ pp with viewNo := s.tpc.view } : TPC.PrePrepare).key = (nv.viewNo, b.ppSeqNo) := by
      show (s.tpc.view, pp.seqNo) = _
      rw [hS.view, hv, h1]
    rw [ek]
    refine ⟨.inl ⟨nv, hg nv hn, rfl, b, hb, rfl, h2.symm⟩, fun old ho => ?_⟩
    have := (h.N.getPP ho).2.2
    rw [this.named hok hd hi (hg nv hn) hb]
    exact h2.symm
  · exact n_conv h.N

theorem named_mem {s : St} (hS : Sync C i s) {b : BatchID} (hb : b ∈ s.named) :
    s.vc.waiting = false ∧ ∃ nv ∈ s.vc.accepted, nv.viewNo = s.vc.viewNo ∧ b ∈ nv.batches := by
  unfold St.named at hb
  split at hb
  · cases hb
  · next hw =>
    have hw : s.vc.waiting = false := by simpa using hw
    refine ⟨hw, ?_⟩
    cases hl : s.vc.accepted.getLast? with
    | none => rw [hl] at hb; cases hb
    | some nv =>
      rw [hl] at hb
      have hm := List.mem_of_getLast? hl
      have h0 := hS.accL nv hm
      obtain ⟨nv', h1, h2, -⟩ := hS.cur hw (by omega)
      rw [hl] at h1; cases h1
      exact ⟨nv, hm, h2, hb⟩

theorem W.takeOver (hok : Ok C σ) (hd : Distinct C σ) (hi : C.Honest i) {s : St} (h : W C σ i s) (hS : Sync C i s)
    (hg : ∀ x ∈ s.vc.accepted, x ∈ (node C σ i).vc.accepted) {nv : VC.NewView} (hn : nv ∈ s.vc.accepted)
    (hv : nv.viewNo = s.vc.viewNo) {b : BatchID} (hb : b ∈ nv.batches) (env : Nat → TPC.PPEnv) :
    W C σ i (s.takeOver C i b env) := by
  unfold St.takeOver
  split
  · next pp hp =>
    have hk := h.oldk _ (Dict.mem_of_get? hp)
    simp only [bidKey, oldKey, Prod.mk.injEq] at hk
    exact h.apply hok hd hi hS hg hn hv hb hk.2.1.symm hk.2.2.symm _
  · exact { h with }

theorem W.replied (hok : Ok C σ) (hd : Distinct C σ) (hi : C.Honest i) {s : St} (h : W C σ i s) (hS : Sync C i s)
    (hg : ∀ x ∈ s.vc.accepted, x ∈ (node C σ i).vc.accepted) (pp : TPC.PrePrepare) (env : Nat → TPC.PPEnv) :
    W C σ i (s.replied C i pp env) := by
  unfold St.replied
  split
  · next hb =>
    obtain ⟨-, nv, h1, h2, h3⟩ := named_mem hS hb
    exact h.apply hok hd hi hS hg h1 h2 h3 rfl rfl _
  · exact h

theorem W.stabilize {s : St} (h : W C σ i s) (hc : s.vc.crashed = false) (till : Nat) :
    W C σ i (s.stabilize C i till) := by
  by_cases hg : s.tpc.stable ≤ till ∧ till ≤ s.tpc.lastOrdered.2
  · have e1 := stabilize_tpc (C := C) (w := i) s hg
    obtain ⟨e2, -⟩ := stabilize_vc (C := C) (w := i) s hg hc
    have e3 : (s.stabilize C i till).old = s.old.filter (fun e => !(e.1.2.1 ≤ till)) := by
      unfold St.stabilize; rw [if_pos hg]; rfl
    generalize s.stabilize C i till = t at *
    obtain ⟨tpc, vc, old, asked, tlog, vlog⟩ := t
    simp only at e1 e2 e3
    subst e1; subst e2; subst e3
    exact {
      N := h.N.stabilize till hg.1 hg.2 _
      kp := h.kp
      kpp := h.kpp
      kc := fun c hc hv => (h.kc c hc hv).imp (fun x => Nat.le_trans x hg.1) id
      kv := h.kv
      oldk := fun e he => h.oldk e (List.mem_filter.1 he).1 }
  · rw [stabilize_skip s hg]; exact h

theorem W.shared {s : St} (h : W C σ i s) (hc : s.vc.crashed = false) (cps : List VC.Checkpoint) :
    W C σ i (s.serve C i (.shared true s.vc.stableCheckpoint cps)) := by
  have e : s.vc.step (vcfg C i) (.shared true s.vc.stableCheckpoint cps) =
      { s.vc with participating := true, checkpoints := cps } := by
    unfold VC.Service.step; rw [hc]; rfl
  unfold St.serve
  rw [e]
  exact { h with }

/-- What the ordering service does does not touch the view change service. -/
theorem takeOver_vc (s : St) (b : BatchID) (env : Nat → TPC.PPEnv) : (s.takeOver C i b env).vc = s.vc := by
  unfold St.takeOver; split <;> rfl

theorem stabilize_acc (s : St) (till : Nat) (hc : s.vc.crashed = false) :
    (s.stabilize C i till).vc.accepted = s.vc.accepted ∧ (s.stabilize C i till).vc.viewNo = s.vc.viewNo := by
  by_cases hg : s.tpc.stable ≤ till ∧ till ≤ s.tpc.lastOrdered.2
  · rw [(stabilize_vc s hg hc).1]; exact ⟨rfl, rfl⟩
  · rw [stabilize_skip s hg]; exact ⟨rfl, rfl⟩

theorem W.newViewAccepted (hok : Ok C σ) (hd : Distinct C σ) (hi : C.Honest i) {s : St} (h : W C σ i s) (hS : Sync0 C i s)
    (hc : s.vc.crashed = false) (h1 : s.tpc.waiting = true) (h2 : s.vc.waiting = false)
    (hg : ∀ x ∈ s.vc.accepted, x ∈ (node C σ i).vc.accepted) {nv : VC.NewView} (hn : nv ∈ s.vc.accepted)
    (hv : nv.viewNo = s.vc.viewNo) (env : Nat → TPC.PPEnv) : W C σ i (s.newViewAccepted C i nv env) := by
  unfold St.newViewAccepted
  have e : s.tpc.acceptNewView (tcfg C i s) = { s.tpc with waiting := false, prevCert := s.vc.prevViewPrepareCert } := by
    unfold TPC.Replica.acceptNewView; rw [if_pos h1]; rfl
  have h3 : Sync C i (s.order C i [.acceptNewView]) := by
    unfold St.order
    simp only [List.foldl_cons, List.foldl_nil, TPC.Replica.step]
    rw [e]
    exact { hS with wt := h2.symm, pc := rfl }
  have h4 : W C σ i (s.order C i [.acceptNewView]) := by
    have hN : NInv (tcfg C i s) (Got σ i) (Adm C σ i) (s.tpc.acceptNewView (tcfg C i s)) := (n_conv h.N).acceptNewView
    unfold St.order
    simp only [List.foldl_cons, List.foldl_nil, TPC.Replica.step]
    rw [e] at hN ⊢
    exact { h with N := n_conv hN }
  simp only
  split
  · exact h4
  · have h5 := h3.stabilize (C := C) hc nv.checkpoint.seqNoEnd
    have h6 := h4.stabilize hc nv.checkpoint.seqNoEnd
    have h7 := stabilize_acc (C := C) (i := i) (s.order C i [.acceptNewView]) nv.checkpoint.seqNoEnd hc
    generalize (s.order C i [.acceptNewView]).stabilize C i nv.checkpoint.seqNoEnd = t at *
    have key : ∀ (l : List BatchID) (t : St), (∀ b ∈ l, b ∈ nv.batches) → W C σ i t → Sync C i t →
        t.vc.accepted = s.vc.accepted ∧ t.vc.viewNo = s.vc.viewNo →
        W C σ i (l.foldl (fun s b => s.takeOver C i b env) t) := by
      intro l
      induction l with
      | nil => intro t _ h _ _; exact h
      | cons b l ih =>
        intro t hl ht hSt ha
        rw [List.foldl_cons]
        refine ih _ (fun b hb => hl b (List.mem_cons_of_mem _ hb)) ?_ (hSt.takeOver b env) ?_
        · exact ht.takeOver hok hd hi hSt (by rw [ha.1]; exact hg) (by rw [ha.1]; exact hn) (by rw [ha.2]; exact hv)
            (hl b List.mem_cons_self) env
        · rw [takeOver_vc]; exact ha
    exact key nv.batches t (fun _ h => h) h6 h5 h7

/-- A message of the view change. -/
theorem W.viewChange (hok : Ok C σ) (hd : Distinct C σ) (hi : C.Honest i) {s : St} (h : W C σ i s) (hS : Sync C i s)
    (hc : s.vc.crashed = false) (e : VC.Event) (h1 : ∀ v p pp, e ≠ .need v p pp) (h2 : ∀ a b c, e ≠ .shared a b c)
    (h3 : ∀ nv, e ≠ .newView nv i) (env : Nat → TPC.PPEnv)
    (hg : ∀ x ∈ (s.viewChange C i e env).vc.accepted, x ∈ (node C σ i).vc.accepted) : W C σ i (s.viewChange C i e env) := by
  have hself : ∀ nv, VC.Event.newView nv i ∉ s.vlog ++ [e] := by
    intro nv hn
    rcases List.mem_append.1 hn with hn | hn
    · exact hS.self nv hn
    · exact h3 nv (List.mem_singleton.1 hn).symm
  have heff := VC.effect (hS.sinv.mono (fun _ h => List.mem_append_left [e] h)) hself e (by simp) h1 h2
  have hstep : s.vc.step (vcfg C i) e = s.vc.handle (vcfg C i) e := by
    unfold VC.Service.step; rw [hc]; rfl
  have hsame : VC.Same s.vc (s.serve C i e).vc := by
    show VC.Same s.vc (s.vc.step (vcfg C i) e)
    rw [hstep]
    cases heff with
    | quiet same => exact same
    | finished _ same => exact same
    | stopped same => exact same
  have hW : W C σ i (s.serve C i e) := by
    unfold St.serve at hsame ⊢
    generalize s.vc.step (vcfg C i) e = v' at *
    have hsame : VC.Same s.vc v' := hsame
    exact {
      N := h.N
      kp := by simp only [hsame.oldP, hsame.viewNo]; exact h.kp
      kpp := by simp only [hsame.oldPP, hsame.viewNo]; exact h.kpp
      kc := by simp only [hsame.oldP, hsame.viewNo]; exact h.kc
      kv := by simp only [hsame.sentVC, hsame.viewNo]; exact h.kv
      oldk := h.oldk }
  unfold St.viewChange at hg ⊢
  simp only at hg ⊢
  rcases hS.serve hc e h1 h2 h3 with ⟨a, b⟩ | ⟨nv, a, b, c, d, f⟩
  · rw [if_neg (by rw [a]; exact Nat.lt_irrefl _)]; exact hW
  · have hl : (s.serve C i e).vc.accepted.getLast? = some nv := by rw [a]; simp
    have hlt : s.vc.accepted.length < (s.serve C i e).vc.accepted.length := by rw [a]; simp
    rw [if_pos hlt] at hg ⊢
    simp only [hl] at hg ⊢
    have hm : nv ∈ (s.serve C i e).vc.accepted := List.mem_of_getLast? hl
    have hnz : (s.serve C i e).vc.viewNo ≠ 0 := by
      have := f.accL nv hm
      omega
    have hv : nv.viewNo = (s.serve C i e).vc.viewNo := by
      obtain ⟨x, x1, x2, -⟩ := f.cur b hnz
      rw [hl] at x1; cases x1; exact x2
    refine hW.newViewAccepted hok hd hi f c d b ?_ hm hv env
    intro x hx
    exact hg x (((grow_closed (s.serve C i e)).newViewAccepted (.refl _) nv env).acc x hx)

theorem W.need {s : St} (h : W C σ i s) (hS : Sync C i s) (hc : s.vc.crashed = false) (v : Nat) : W C σ i (s.need C i v) := by
  unfold St.need
  split
  · exact h
  · next hv =>
    have hv' : ¬ v < s.vc.viewNo := by rw [← hS.view]; omega
    have hlt : s.vc.viewNo < v := by rw [← hS.view]; omega
    have e1 : s.vc.step (vcfg C i) (.need v s.tpc.prepared s.tpc.preprepared) =
        s.vc.needViewChange (vcfg C i) v s.tpc.prepared s.tpc.preprepared := by
      unfold VC.Service.step VC.Service.handle
      rw [hc]
      simp only [Bool.false_eq_true, if_false, if_neg hv']
    have hN := h.N.startViewChange v
    simp only [St.serve, St.order, List.foldl_cons, List.foldl_nil, TPC.Replica.step]
    rw [e1]
    unfold TPC.Replica.startViewChange at hN ⊢
    simp only [if_neg hv, TPC.Replica.revertUnordered] at hN ⊢
    unfold VC.Service.needViewChange VC.Service.buildViewChange
    simp only
    obtain ⟨P0, hP0⟩ : ∃ P0 : Dict Nat BatchID, P0 = s.vc.oldPrepared.filter (fun e => !(e.1 ≤ s.vc.stableCheckpoint)) := ⟨_, rfl⟩
    obtain ⟨Q0, hQ0⟩ : ∃ Q0 : Dict Nat (List BatchID), Q0 = s.vc.oldPreprepared.filter (fun e => !(e.1 ≤ s.vc.stableCheckpoint)) := ⟨_, rfl⟩
    obtain ⟨P, hP⟩ : ∃ P : Dict Nat BatchID, P = s.tpc.prepared.foldl (fun d b => d.set b.ppSeqNo b) P0 := ⟨_, rfl⟩
    obtain ⟨Q, hQ⟩ : ∃ Q : Dict Nat (List BatchID), Q = s.tpc.preprepared.foldl (fun d b => d.set b.ppSeqNo
        ((((d.get? b.ppSeqNo).getD []).filter (fun c => c.ppDigest ≠ b.ppDigest)) ++ [b])) Q0 := ⟨_, rfl⟩
    rw [← hP0, ← hQ0, ← hP, ← hQ]
    have hkp : ∀ e ∈ P, e.2.ppSeqNo = e.1 ∧ e.2.viewNo < v ∧
        CertD (tcfg C i {}) (Got σ i) (Adm C σ i) s.tpc.out (e.2.viewNo, e.2.ppSeqNo) e.2.ppDigest := by
      have key : ∀ (l : List BatchID) (d : Dict Nat BatchID),
          (∀ b ∈ l, b.viewNo < v ∧ CertD (tcfg C i {}) (Got σ i) (Adm C σ i) s.tpc.out (b.viewNo, b.ppSeqNo) b.ppDigest) →
          (∀ e ∈ d, e.2.ppSeqNo = e.1 ∧ e.2.viewNo < v ∧
            CertD (tcfg C i {}) (Got σ i) (Adm C σ i) s.tpc.out (e.2.viewNo, e.2.ppSeqNo) e.2.ppDigest) →
          ∀ e ∈ l.foldl (fun d b => d.set b.ppSeqNo b) d, e.2.ppSeqNo = e.1 ∧ e.2.viewNo < v ∧
            CertD (tcfg C i {}) (Got σ i) (Adm C σ i) s.tpc.out (e.2.viewNo, e.2.ppSeqNo) e.2.ppDigest := by
        intro l
        induction l with
        | nil => intro d _ h; exact h
        | cons b l ih =>
          intro d hl hd
          refine ih _ (fun b hb => hl b (List.mem_cons_of_mem _ hb)) (fun e he => ?_)
          rcases Dict.mem_set he with he | he
          · exact hd e he
          · subst he; exact ⟨rfl, hl b List.mem_cons_self⟩
      rw [hP]
      refine key _ _ (fun b hb => ?_) (fun e he => ?_)
      · obtain ⟨x1, x2⟩ := h.N.prp b hb
        rw [← x1] at x2
        exact ⟨by rw [x1, hS.view]; exact hlt, x2⟩
      · rw [hP0] at he
        obtain ⟨x1, x2, x3⟩ := h.kp e (List.mem_filter.1 he).1
        exact ⟨x1, by omega, x3⟩
    have hkpp : ∀ e ∈ Q, ∀ b ∈ e.2, b.viewNo < v ∧ Adm C σ i (b.viewNo, b.ppSeqNo) b.ppDigest := by
      have key : ∀ (l : List BatchID) (d : Dict Nat (List BatchID)),
          (∀ b ∈ l, b.viewNo < v ∧ Adm C σ i (b.viewNo, b.ppSeqNo) b.ppDigest) →
          (∀ e ∈ d, ∀ b ∈ e.2, b.viewNo < v ∧ Adm C σ i (b.viewNo, b.ppSeqNo) b.ppDigest) →
          ∀ e ∈ l.foldl (fun d b => d.set b.ppSeqNo
            ((((d.get? b.ppSeqNo).getD []).filter (fun c => c.ppDigest ≠ b.ppDigest)) ++ [b])) d,
            ∀ b ∈ e.2, b.viewNo < v ∧ Adm C σ i (b.viewNo, b.ppSeqNo) b.ppDigest := by
        intro l
        induction l with
        | nil => intro d _ h; exact h
        | cons b l ih =>
          intro d hl hd
          refine ih _ (fun b hb => hl b (List.mem_cons_of_mem _ hb)) (fun e he => ?_)
          rcases Dict.mem_set he with he | he
          · exact hd e he
          · subst he
            intro c hc
            rcases List.mem_append.1 hc with hc | hc
            · have hc := (List.mem_filter.1 hc).1
              cases hg : d.get? b.ppSeqNo with
              | none => rw [hg] at hc; cases hc
              | some x => rw [hg] at hc; exact hd _ (Dict.mem_of_get? hg) c hc
            · rw [List.mem_singleton.1 hc]; exact hl b List.mem_cons_self
      rw [hQ]
      refine key _ _ (fun b hb => ?_) (fun e he b hb => ?_)
      · obtain ⟨x1, x2⟩ := h.N.trk b hb
        rw [← x1] at x2
        exact ⟨by rw [x1, hS.view]; exact hlt, x2⟩
      · rw [hQ0] at he
        obtain ⟨x1, x2⟩ := h.kpp e (List.mem_filter.1 he).1 b hb
        exact ⟨by omega, x2⟩
    have hkc : ∀ c, .commit c ∈ s.tpc.out → c.seqNo ≤ s.vc.stableCheckpoint ∨
        ∃ b, P.get? c.seqNo = some b ∧ c.viewNo ≤ b.viewNo := by
      intro c hc
      have hcv := h.N.outv _ hc
      simp only [TPC.Msg.viewNo] at hcv
      have hst := hS.st
      by_cases hle : c.seqNo ≤ s.vc.stableCheckpoint
      · exact .inl hle
      · refine .inr ?_
        rcases VC.fold_set_get s.tpc.prepared P0 c.seqNo with ⟨b, b1, -, b3⟩ | ⟨b1, b2⟩
        · refine ⟨b, by rw [hP]; exact b3, ?_⟩
          rw [(h.N.prp b b1).1]; exact hcv
        · by_cases hcur : c.viewNo = s.tpc.view
          · rcases h.N.rep c hc hcur with x | ⟨b, x1, x2⟩
            · omega
            · exact (b1 b x1 x2).elim
          · have := hS.view
            rcases h.kc c hc (by omega) with x | ⟨b, x1, x2⟩
            · omega
            · refine ⟨b, ?_, x2⟩
              rw [hP, b2, hP0]
              rw [Dict.get?_filter s.vc.oldPrepared (fun k => !(k ≤ s.vc.stableCheckpoint))]
              simp [hle, x1]
    exact {
      N := hN
      kp := hkp
      kpp := hkpp
      kc := by
        intro c hc _
        have := hS.st
        rcases hkc c hc with x | x
        · exact .inl (by simp only; omega)
        · exact .inr x
      kv := by
        intro vc hvc
        simp only at hvc
        rcases List.mem_append.1 hvc with hvc | hvc
        · have := h.kv vc hvc
          exact ⟨by have := this.1; simp only; omega, this.2⟩
        · rw [List.mem_singleton.1 hvc]
          refine ⟨Nat.le_refl _, ?_, ?_, ?_⟩
          · intro b hb
            simp only [VC.mem_sortBids, List.mem_map] at hb
            obtain ⟨e, he, rfl⟩ := hb
            exact (hkp e he).2
          · intro b hb
            simp only [VC.mem_sortBids, List.mem_flatMap] at hb
            obtain ⟨e, he, hb⟩ := hb
            exact hkpp e he b hb
          · intro c hc _
            have h4 := (h.N.cmt c hc).1
            have := hS.st
            refine ⟨?_, by simp only; omega⟩
            rcases hkc c hc with x | ⟨b, x1, x2⟩
            · exact .inl x
            · have hm := Dict.mem_of_get? x1
              refine .inr ⟨b, VC.mem_sortBids.2 (List.mem_map.2 ⟨_, hm, rfl⟩), (hkp _ hm).1, x2⟩
      oldk := by
        have key : ∀ (l : List TPC.PrePrepare) (d : Dict OldKey TPC.PrePrepare), (∀ e ∈ d, e.1 = oldKey e.2) →
            ∀ e ∈ l.foldl (fun d pp => d.set (oldKey pp) pp) d, e.1 = oldKey e.2 := by
          intro l
          induction l with
          | nil => intro d h; exact h
          | cons b l ih =>
            intro d hd
            refine ih _ (fun e he => ?_)
            rcases Dict.mem_set he with he | he
            · exact hd e he
            · subst he; rfl
        exact key _ _ h.oldk }

theorem W.init : W C σ i {} where
  N := .init
  kp := by simp
  kpp := by simp
  kc := by simp
  kv := by simp
  oldk := by simp

/-- Every honest node is in a state allowed by the invariant. -/
theorem wnode (hok : Ok C σ) (hd : Distinct C σ) (hch : Checked C σ) (hi : C.Honest i) :
    ∀ pre post, σ = pre ++ post → W C σ i (node C pre i) := by
  refine prefix_induction (P := fun _ s => W C σ i s) .init ?_ (fun _ _ _ _ _ h => h)
  intro pre e post hs h
  have hS := sync hok hi pre _ hs
  have hgrow : Grow ((node C pre i).step C i e) (node C σ i) := by
    rw [← node_snoc, hs, show pre ++ (i, e) :: post = (pre ++ [(i, e)]) ++ post by simp]
    exact node_grow _ _ _
  have hgrow0 : Grow (node C pre i) (node C σ i) := by rw [hs]; exact node_grow _ _ _
  have hnet := hok.net pre i e post hs hi
  have hD : ∀ w m, Got σ i w m → w ≠ (tcfg C i (node C pre i)).name := got_ne hok hi
  have hgot : ∀ m w env, e = .msg m w env → Got σ i w m := by
    rintro m w env rfl
    exact ⟨env, by rw [hs]; simp⟩
  have hch1 := hch.pp pre i
  have hch2 := hch.own pre i
  unfold St.step at hgrow ⊢
  split
  · exact h
  · next hc =>
    rw [if_neg hc] at hgrow
    have hc : (node C pre i).vc.crashed = false := by simpa using hc
    generalize node C pre i = s at *
    -- what lies above the NEW_VIEW of the current view
    have htop : s.vc.waiting = false → ∀ k : TPC.Key, k.1 = s.vc.viewNo →
        max s.vc.prevViewPrepareCert (highest s.named) < k.2 →
        k.1 = 0 ∨ ∃ nv ∈ (node C σ i).vc.accepted, nv.viewNo = k.1 ∧ topOf nv < k.2 := by
      intro hw k hk ht
      by_cases h0 : s.vc.viewNo = 0
      · exact .inl (hk.trans h0)
      · obtain ⟨nv, n1, n2, n3⟩ := hS.cur hw h0
        refine .inr ⟨nv, hgrow0.acc nv (List.mem_of_getLast? n1), n2.trans hk.symm, ?_⟩
        unfold St.named at ht
        rw [hw, n1, n3] at ht
        exact ht
    cases e with
    | msg m w env =>
      refine h.quiet hS.toSync0 (quiet_msg s m w env) ?_
      have hgm := hgot m w env rfl
      cases m with
      | prePrepare pp =>
        refine NInv.processPrePrepare (n_conv h.N) hD pp w env (fun ha hcan => ?_)
        obtain ⟨a1, a2, -⟩ := TPC.admits_iff _ _ _ ha
        have hw : s.vc.waiting = false := by rw [← hS.wt]; exact a2
        have hv : pp.viewNo = s.vc.viewNo := by rw [← hS.view]; exact a1
        have ht := hch1 pp w env post hs hi hv hw
        obtain ⟨f1, f2⟩ := TPC.fresh_accepted (n_conv (t := s) h.N) ha hcan (hD _ _ hgm) (by rw [hS.pc]; omega)
        refine ⟨.inr ⟨htop hw pp.key hv ht, pp, rfl, rfl, .inr ⟨?_, ?_⟩⟩, fun old ho => ?_⟩
        · have : C.primary pp.viewNo = w := by rw [a1]; exact f1.symm
          show C.primary pp.viewNo ≠ i
          rw [this]; exact hD _ _ hgm
        · have : C.primary pp.viewNo = w := by rw [a1]; exact f1.symm
          show Got σ i (C.primary pp.viewNo) _
          rw [this]; exact hgm
        · rw [f2] at ho; cases ho
      | prepare p => exact NInv.processPrepare (n_conv h.N) hD p w hgm
      | commit c => exact NInv.processCommit (n_conv h.N) hD c w hgm
    | batch b =>
      refine h.quiet hS.toSync0 (TPC.quiet_createBatch s.tpc b) ?_
      have hout : ∀ m ∈ (s.tpc.createBatch (tcfg C i s) b).out, m ∈ (node C σ i).tpc.out := hgrow.out
      refine NInv.createBatch (n_conv h.N) b (fun hcan => ?_)
      obtain ⟨c1, c2, c3⟩ := TPC.canSend_prim hcan
      have hw : s.vc.waiting = false := by rw [← hS.wt]; exact c2
      have c1' : C.primary s.tpc.view = i := c1
      have hp : C.primary s.vc.viewNo = i := by rw [← hS.view]; exact c1'
      have ht := hch2 b post hs hi hp hw
      rw [hS.pc] at c3
      refine .inr ⟨htop hw (s.tpc.view, s.tpc.lastPP + 1) hS.view (by simp only; omega), ?_⟩
      refine ⟨{ viewNo := s.tpc.view, seqNo := s.tpc.lastPP + 1, origView := s.tpc.view, time := b.time, reqs := b.reqs
                ledger := b.ledger, poolRoot := b.poolRoot
                content := ⟨C.digest b.reqs s.tpc.view b.time, b.stateRoot, b.txnRoot, b.auditRoot⟩ }, rfl, rfl,
        .inl ⟨c1', hout _ ?_⟩⟩
      unfold TPC.Replica.createBatch
      rw [hcan]
      simp [TPC.Replica.addToSentPP, TPC.Replica.bumpLastPP, tcfg]
    | tick =>
      refine h.quiet hS.toSync0 (TPC.quiet_processOutOfOrder s.tpc) ?_
      cases hw : s.tpc.waiting with
      | true => exact TPC.waiting_outOfOrder (n_conv h.N) hw
      | false => exact NInv.processOutOfOrder (n_conv h.N) hw
    | stable till => exact h.stabilize hc till
    | checkpoints cps => exact h.shared hc cps
    | need v => exact h.need hS hc v
    | viewChange vc frm env => exact h.viewChange hok hd hi hS hc _ (by simp) (by simp) (by simp) env hgrow.acc
    | ack v name d frm env => exact h.viewChange hok hd hi hS hc _ (by simp) (by simp) (by simp) env hgrow.acc
    | newView nv frm env =>
      refine h.viewChange hok hd hi hS hc _ (by simp) (by simp) ?_ env hgrow.acc
      intro nv' hn
      simp only [VC.Event.newView.injEq] at hn
      exact hnet.2.1 hn.2
    | reply pps env =>
      have key : ∀ (l : List TPC.PrePrepare) (t : St), W C σ i t → Sync C i t →
          (∀ x ∈ t.vc.accepted, x ∈ (node C σ i).vc.accepted) →
          W C σ i (l.foldl (fun s pp => s.replied C i pp env) t) := by
        intro l
        induction l with
        | nil => intro t h _ _; exact h
        | cons pp l ih =>
          intro t ht hSt hg
          rw [List.foldl_cons]
          refine ih _ (ht.replied hok hd hi hSt hg pp env) (hSt.replied pp env) ?_
          unfold St.replied
          split <;> exact hg
      exact key pps s h hS hgrow0.acc
    | again b env =>
      show W C σ i (if b ∈ s.named then s.takeOver C i b env else s)
      split
      · next hb =>
        obtain ⟨-, nv, h1, h2, h3⟩ := named_mem hS hb
        exact h.takeOver hok hd hi hS hgrow0.acc h1 h2 h3 env
      · exact h

end Verif.Views
