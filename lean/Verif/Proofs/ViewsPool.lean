import Verif.Proofs.ViewsNode
import Verif.Props.ViewChange
/-! Agreement of the honest nodes of a pool across views. -/
namespace Verif.Views

open TPC (NInv CertD Committed Src)

variable {C : Cfg} {σ : Schedule}

theorem filter_one {l : List Node} {a : Node} (h : a ∈ l) : (l.filter (fun x => x != a)).length + 1 ≤ l.length := by
  have h2 : 0 < (l.filter (fun x => !(x != a))).length :=
    List.length_pos_of_mem (a := a) (List.mem_filter.2 ⟨h, by simp⟩)
  have h1 := length_filter_split l (fun x => x != a)
  omega

theorem filter_out {Q B : List Node} (hq : Q.Nodup) : Q.length ≤ (Q.filter (fun x => !B.contains x)).length + B.length := by
  have h2 : (Q.filter (fun x => B.contains x)).length ≤ B.length :=
    length_le_of_subset (List.Pairwise.filter _ hq) (fun x hx => by simpa using (List.mem_filter.1 hx).2)
  have h1 := length_filter_split Q (fun x => B.contains x)
  omega

/-- The condition on a schedule. -/
structure Fair (C : Cfg) (σ : Schedule) : Prop where
  ok : Ok C σ
  dis : Distinct C σ
  chk : Checked C σ

theorem Fair.w (h : Fair C σ) {i : Node} (hi : C.Honest i) : W C σ i (node C σ i) :=
  wnode h.ok h.dis h.chk hi σ [] (List.append_nil _).symm

/-- A message of an honest node that another has was sent. -/
theorem src_out (h : Ok C σ) {i q : Node} (hi : C.Honest i) (hq : C.Honest q) {m : TPC.Msg}
    (hs : Src (tcfg C i {}) (Got σ i) (node C σ i).tpc.out q m) : m ∈ (node C σ q).tpc.out := by
  rcases hs with ⟨e, hm⟩ | ⟨-, env, hm⟩
  · have e : q = i := e
    rw [e]; exact hm
  · obtain ⟨a, b, e⟩ := List.append_of_mem hm
    have := (h.net a i _ b e hi).2.2 hq.2
    rw [e]
    exact (node_grow a _ q).out m this

/-- A message a node has is of a node of the pool. -/
theorem src_lt (h : Ok C σ) {i q : Node} (hi : C.Honest i) {m : TPC.Msg}
    (hs : Src (tcfg C i {}) (Got σ i) (node C σ i).tpc.out q m) : q < C.n := by
  rcases hs with ⟨e, -⟩ | ⟨-, env, hm⟩
  · have e : q = i := e
    rw [e]; exact hi.1
  · obtain ⟨a, b, e⟩ := List.append_of_mem hm
    exact (h.net a i _ b e hi).1

/-- Under an honest primary honest nodes store the same. -/
theorem adm_same (h : Fair C σ) {i j : Node} (hi : C.Honest i) (hj : C.Honest j) {k : TPC.Key} {d d' : Nat}
    (hp : C.Honest (C.primary k.1)) (a : Adm C σ i k d) (b : Adm C σ j k d') : d = d' := by
  have cross : ∀ {i j : Node}, C.Honest i → C.Honest j → ∀ {d d' : Nat}, Stale C σ i k d → Fresh C σ j k d' → False := by
    rintro i j hi hj d d' ⟨nv, n1, n2, b, b1, b2, -⟩ ⟨hf, -⟩
    have h0 := ((sync h.ok hi σ [] (List.append_nil _).symm).accL nv n1).1
    rcases hf with hf | ⟨nv', m1, m2, m3⟩
    · omega
    · have hl := accepted_like h.ok hi hj n1 m1 (n2.trans m2.symm) (by rw [n2]; exact hp)
      have := le_highest b1
      unfold topOf at m3
      rw [← hl.2.2] at m3
      omega
  rcases a with a | a <;> rcases b with b | b
  · obtain ⟨nv, n1, n2, x, x1, x2, x3⟩ := a
    obtain ⟨nv', m1, m2, y, y1, y2, y3⟩ := b
    have hl := accepted_like h.ok hi hj n1 m1 (n2.trans m2.symm) (by rw [n2]; exact hp)
    rw [← hl.2.2] at y1
    have := (nvOk h.ok h.dis hi n1).places.2.1 x x1 y y1 (x2.trans y2.symm)
    rw [← x3, ← y3, this]
  · exact (cross hi hj a b).elim
  · exact (cross hj hi b a).elim
  · obtain ⟨-, x, x1, x2, x3⟩ := a
    obtain ⟨-, y, y1, y2, y3⟩ := b
    have := (h.w hp).N.ppu x y (src_out h.ok hi hp x3) (src_out h.ok hj hp y3) (x1.trans y1.symm)
    rw [← x2, ← y2, this]

/-- A certificate of node `i`. -/
abbrev Cert (C : Cfg) (σ : Schedule) (i : Node) (k : TPC.Key) (d : Nat) : Prop :=
  CertD (tcfg C i {}) (Got σ i) (Adm C σ i) (node C σ i).tpc.out k d

/-- Prepare certificates of honest nodes at one place of one view are of one
batch. -/
theorem cert_same (h : Fair C σ) {i j : Node} (hi : C.Honest i) (hj : C.Honest j) {k : TPC.Key} {d d' : Nat}
    (a : Cert C σ i k d) (b : Cert C σ j k d') : d = d' := by
  by_cases hp : C.Honest (C.primary k.1)
  · exact adm_same h hi hj hp a.1 b.1
  · have hpb : C.primary k.1 ∈ C.bad := Classical.byContradiction (fun x => hp ⟨h.ok.prim _, x⟩)
    obtain ⟨-, Q, q1, q2, q3⟩ := a
    obtain ⟨-, R, r1, r2, r3⟩ := b
    have q2 : C.n - getMaxFailures C.n - 1 ≤ Q.length := q2
    have r2 : C.n - getMaxFailures C.n - 1 ≤ R.length := r2
    have h3 := VC.three_f C.n h.ok.pos
    have hfew := h.ok.few
    have hU := filter_one (List.mem_range.2 (h.ok.prim k.1))
    rw [List.length_range] at hU
    have hF := filter_one hpb
    obtain ⟨x, x1, x2, x3⟩ := intersect_outside (U := (List.range C.n).filter (fun x => x != C.primary k.1))
      (F := C.bad.filter (fun x => x != C.primary k.1)) q1 r1
      (fun x hx => by
        obtain ⟨y1, p, -, -, y2⟩ := q3 x hx
        refine List.mem_filter.2 ⟨List.mem_range.2 (src_lt h.ok hi y2), ?_⟩
        have y1 : x ≠ C.primary k.1 := y1
        simp [y1])
      (fun x hx => by
        obtain ⟨y1, p, -, -, y2⟩ := r3 x hx
        refine List.mem_filter.2 ⟨List.mem_range.2 (src_lt h.ok hj y2), ?_⟩
        have y1 : x ≠ C.primary k.1 := y1
        simp [y1])
      (by omega)
    obtain ⟨y1, p, p1, p2, p3⟩ := q3 x x1
    obtain ⟨-, p', p1', p2', p3'⟩ := r3 x x2
    have y1 : x ≠ C.primary k.1 := y1
    have hx : C.Honest x := ⟨src_lt h.ok hi p3, fun hb => x3 (List.mem_filter.2 ⟨hb, by simp [y1]⟩)⟩
    have := (h.w hx).N.uniqP p p' (src_out h.ok hi hx p3) (src_out h.ok hj hx p3') (p1.trans p1'.symm)
    rw [← p2, ← p2', this]

/-- `n - 2f` honest nodes committed `d` at `k`. -/
def Locks (C : Cfg) (σ : Schedule) (k : TPC.Key) (d : Nat) : Prop :=
  ∃ Q : List Node, Q.Nodup ∧ C.n - 2 * getMaxFailures C.n ≤ Q.length ∧
    ∀ x ∈ Q, C.Honest x ∧ (∃ c : TPC.Commit, c.key = k ∧ .commit c ∈ (node C σ x).tpc.out) ∧ Cert C σ x k d

/-- A commit quorum locks one digest: that of every certificate. -/
theorem locks_of (h : Fair C σ) {i : Node} (hi : C.Honest i) {k : TPC.Key}
    (hc : Committed (tcfg C i {}) (Got σ i) (node C σ i).tpc.out k) : ∃ d, Locks C σ k d := by
  obtain ⟨Q, q1, q2, q3⟩ := hc
  have q2 : C.n - getMaxFailures C.n ≤ Q.length := q2
  have h3 := VC.three_f C.n h.ok.pos
  have hfew := h.ok.few
  have hlen : C.n - 2 * getMaxFailures C.n ≤ (Q.filter (fun x => !C.bad.contains x)).length := by
    have := filter_out q1 (B := C.bad)
    omega
  have hQ : ∀ x ∈ Q.filter (fun x => !C.bad.contains x), C.Honest x ∧
      ∃ c : TPC.Commit, c.key = k ∧ .commit c ∈ (node C σ x).tpc.out := by
    intro x hx
    obtain ⟨x1, x2⟩ := List.mem_filter.1 hx
    obtain ⟨c, c1, c2⟩ := q3 x x1
    have hx : C.Honest x := ⟨src_lt h.ok hi c2, by simpa using x2⟩
    exact ⟨hx, c, c1, src_out h.ok hi hx c2⟩
  have hcert : ∀ x ∈ Q.filter (fun x => !C.bad.contains x), ∃ d, Cert C σ x k d := by
    intro x hx
    obtain ⟨x1, c, c1, c2⟩ := hQ x hx
    rw [← c1]
    exact ((h.w x1).N.cmt c c2).2
  obtain ⟨x0, hx0⟩ : ∃ x0, x0 ∈ Q.filter (fun x => !C.bad.contains x) := by
    apply List.exists_mem_of_length_pos
    omega
  obtain ⟨d, hd⟩ := hcert x0 hx0
  refine ⟨d, _, List.Pairwise.filter _ q1, hlen, fun x hx => ⟨(hQ x hx).1, (hQ x hx).2, ?_⟩⟩
  obtain ⟨d', hd'⟩ := hcert x hx
  rw [cert_same h (hQ x0 hx0).1 (hQ x hx).1 hd hd']
  exact hd'

theorem Locks.some (h : Ok C σ) {k : TPC.Key} {d : Nat} (hl : Locks C σ k d) : ∃ x, C.Honest x ∧ Cert C σ x k d := by
  obtain ⟨Q, -, q2, q3⟩ := hl
  have h3 := VC.three_f C.n h.pos
  obtain ⟨x, hx⟩ : ∃ x, x ∈ Q := by
    apply List.exists_mem_of_length_pos
    omega
  exact ⟨x, (q3 x hx).1, (q3 x hx).2.2⟩

/-- The batches ordered in earlier views are kept by every NEW_VIEW for view
`v'`. -/
def Kept (C : Cfg) (σ : Schedule) (v' : Nat) : Prop :=
  ∀ i, C.Honest i → ∀ o ∈ (node C σ i).tpc.ordLog, ∀ d, o.viewNo < v' → Locks C σ o.key d →
    ∀ j, C.Honest j → ∀ nv ∈ (node C σ j).vc.accepted, nv.viewNo = v' → Keeps nv o.seqNo d

theorem Kept.adm (h : Fair C σ) {v' : Nat} (hk : Kept C σ v') {i : Node} (hi : C.Honest i) {o : TPC.PrePrepare}
    (ho : o ∈ (node C σ i).tpc.ordLog) {d : Nat} (hv : o.viewNo < v') (hl : Locks C σ o.key d) {j : Node}
    (hj : C.Honest j) {d' : Nat} (ha : Adm C σ j (v', o.seqNo) d') : d' = d := by
  have key : ∀ nv ∈ (node C σ j).vc.accepted, nv.viewNo = v' → o.seqNo ≤ nv.checkpoint.seqNoEnd ∨
      ∃ b ∈ nv.batches, b.ppSeqNo = o.seqNo ∧ b.ppDigest = d := hk i hi o ho d hv hl j hj
  rcases ha with ⟨nv, n1, n2, b, b1, b2, b3⟩ | ⟨hf, -⟩
  · have hp := (nvOk h.ok h.dis hj n1).places
    rcases key nv n1 n2 with x | ⟨c, c1, c2, c3⟩
    · have := hp.1 b b1
      simp only at b2
      omega
    · have := hp.2.1 b b1 c c1 (b2.trans c2.symm)
      rw [← b3, ← c3, this]
  · rcases hf with hf | ⟨nv, n1, n2, n3⟩
    · simp only at hf; omega
    · have hp := (nvOk h.ok h.dis hj n1).places
      rcases key nv n1 n2 with x | ⟨c, c1, c2, -⟩
      · have := hp.2.2
        simp only at n3; omega
      · have := le_highest c1
        unfold topOf at n3
        simp only at n3; omega

theorem kept (h : Fair C σ) : ∀ v', Kept C σ v' := by
  intro v'
  induction v' using Nat.strongRecOn with
  | ind v' ih =>
    intro i hi o ho d hv hl j hj nv hn hnv
    by_cases hcp : o.seqNo ≤ nv.checkpoint.seqNoEnd
    · exact .inl hcp
    refine .inr ?_
    obtain ⟨nvs, m1, m2, m3, m4⟩ := nvOk h.ok h.dis hj hn
    have h3 := VC.three_f C.n h.ok.pos
    -- the locks, one per place
    have hlock : ∀ q ∈ (node C σ i).tpc.ordLog, ∀ dt, q.viewNo < v' → Locks C σ q.key dt →
        VC.Locked C.n C.bad nvs q.viewNo q.seqNo dt := by
      intro q hq dt hvt hlt
      have later : ∀ x, C.Honest x → ∀ u d', q.viewNo < u → u < v' → Adm C σ x (u, q.seqNo) d' → d' = dt :=
        fun x hx u d' h1 h2 ha => (ih u h2).adm h hi hq h1 hlt hx ha
      obtain ⟨Q, q1, q2, q3⟩ := hlt
      refine ⟨⟨Q, q1, q2, fun x hx => ?_⟩, ?_⟩
      · obtain ⟨hx, ⟨c, c1, c2⟩, hc⟩ := q3 x hx
        refine ⟨hx.1, hx.2, fun vc hvc => ?_⟩
        obtain ⟨e1, -, e3⟩ := m2 _ hvc
        have hV := ((h.w hx).kv vc (e3 hx.2)).2
        have c3 : c.viewNo = q.viewNo := congrArg Prod.fst c1
        have c4 : c.seqNo = q.seqNo := congrArg Prod.snd c1
        have e1 : vc.viewNo = nv.viewNo := e1
        rcases (hV.com c c2 (by omega)).1 with z | ⟨b, b1, b2, b3⟩
        · exact .inl (by omega)
        · refine .inr ⟨b, b1, b2.trans c4, ?_, by omega⟩
          obtain ⟨p1, p2⟩ := hV.prp b b1
          have hbs : b.ppSeqNo = q.seqNo := b2.trans c4
          rw [hbs] at p2
          by_cases e : b.viewNo = q.viewNo
          · rw [e] at p2
            exact cert_same h hx hx p2 hc
          · exact later x hx b.viewNo b.ppDigest (by omega) (by omega) p2.1
      · intro x vc hvc hxb b hb1 hb2 hb3
        obtain ⟨e1, e2, e3⟩ := m2 _ hvc
        have hx : C.Honest x := ⟨e2, hxb⟩
        have hV := ((h.w hx).kv vc (e3 hxb)).2
        obtain ⟨p1, p2⟩ := hV.pre b hb1
        rw [hb2] at p2
        have e1 : vc.viewNo = nv.viewNo := e1
        exact later x hx b.viewNo b.ppDigest hb3 (by omega) p2
    -- the window reaches the place
    have hwin : o.seqNo ≤ nv.checkpoint.seqNoEnd + logSize := by
      obtain ⟨hcand, -⟩ := VC.calcCheckpoint_some m3
      unfold VC.cpCandidate at hcand
      simp only [Bool.and_eq_true] at hcand
      have hq := hcand.1
      obtain ⟨Q, q1, q2, q3⟩ := hl
      have : (nvs.map Prod.snd) = VC.msgs nvs := rfl
      rw [this, ← VC.passing_length] at hq
      have hq : C.n - getMaxFailures C.n ≤ (VC.passing nvs
          (fun vc => decide (nv.checkpoint.seqNoEnd ≥ vc.stableCheckpoint))).length := by
        simpa only [Quorum.isReached, Quorums.ofN, ge_iff_le, decide_eq_true_eq] using hq
      generalize hP : (fun vc : VC.ViewChange => decide (nv.checkpoint.seqNoEnd ≥ vc.stableCheckpoint)) = P at hq
      obtain ⟨x, hx, hQ, -⟩ := intersect_outside (U := List.range C.n) (F := ([] : List Node))
        (VC.passing_nodup m1 P) q1
        (fun x hx => by
          obtain ⟨vc, h1, -⟩ := VC.mem_passing.1 hx
          exact List.mem_range.2 (m2 _ h1).2.1)
        (fun x hx => List.mem_range.2 (q3 x hx).1.1)
        (by rw [List.length_range, List.length_nil]; omega)
      obtain ⟨vc, hvc, hst⟩ := VC.mem_passing.1 hx
      obtain ⟨hxh, ⟨c, c1, c2⟩, -⟩ := q3 x hQ
      obtain ⟨e1, -, e3⟩ := m2 _ hvc
      have hV := ((h.w hxh).kv vc (e3 hxh.2)).2
      have c3 : c.viewNo = o.viewNo := congrArg Prod.fst c1
      have c4 : c.seqNo = o.seqNo := congrArg Prod.snd c1
      have e1 : vc.viewNo = nv.viewNo := e1
      have := (hV.com c c2 (by omega)).2
      rw [← hP] at hst
      have hst : nv.checkpoint.seqNoEnd ≥ vc.stableCheckpoint := of_decide_eq_true hst
      unfold logSize
      omega
    have hbt : ∀ t, ∃ p : Nat × Nat, nv.checkpoint.seqNoEnd < t → t ≤ o.seqNo →
        VC.Locked C.n C.bad nvs p.1 t p.2 ∧ (t = o.seqNo → p.2 = d) := by
      intro t
      by_cases ht : nv.checkpoint.seqNoEnd < t ∧ t ≤ o.seqNo
      · by_cases e : t = o.seqNo
        · refine ⟨(o.viewNo, d), fun _ _ => ⟨?_, fun _ => rfl⟩⟩
          rw [e]; exact hlock o ho d hv hl
        · obtain ⟨q, q1, q2, q3⟩ := ordered_below (h.w hi).N.ordp ho (t := t) (by omega) ht.2
          obtain ⟨dt, hdt⟩ := locks_of h hi ((h.w hi).N.ord q q1).2
          refine ⟨(q.viewNo, dt), fun _ _ => ⟨?_, fun x => (e x).elim⟩⟩
          rw [← q2]; exact hlock q q1 dt (by omega) hdt
      · exact ⟨(0, 0), fun a b => (ht ⟨a, b⟩).elim⟩
    obtain ⟨b, b1, b2, b3, -⟩ := Props.C20_locked_batch_kept C.n h.ok.pos C.bad h.ok.few nvs m1 (fun e he => (m2 e he).2.1)
      logSize nv.checkpoint nv.batches m4 o.seqNo (by omega) hwin (fun t => (hbt t).choose.1) (fun t => (hbt t).choose.2)
      (fun t h1 h2 => ((hbt t).choose_spec h1 h2).1)
    exact ⟨b, b1, b2, b3.trans (((hbt o.seqNo).choose_spec (by omega) (Nat.le_refl _)).2 rfl)⟩

theorem settled_locks (h : Fair C σ) {i : Node} (hi : C.Honest i) {o : TPC.PrePrepare} (ho : o ∈ (node C σ i).tpc.ordLog)
    (hs : Settled C σ i o) : Locks C σ o.key o.content.digest := by
  obtain ⟨d, hd⟩ := locks_of h hi ((h.w hi).N.ord o ho).2
  have e : d = o.content.digest := by
    obtain ⟨x, x1, x2⟩ := hd.some h.ok
    rcases hs with ⟨c, c1, c2⟩ | hp
    · exact cert_same h x1 hi x2 ((h.w hi).N.ordC o ho c c2 c1)
    · exact adm_same h x1 hi hp x2.1 ((h.w hi).N.ord o ho).1
  rw [← e]; exact hd

theorem agree (h : Fair C σ) {i j : Node} (hi : C.Honest i) (hj : C.Honest j) {o q : TPC.PrePrepare}
    (ho : o ∈ (node C σ i).tpc.ordLog) (hq : q ∈ (node C σ j).tpc.ordLog) (e : o.seqNo = q.seqNo)
    (hs : Settled C σ i o) (hs' : Settled C σ j q) : o.content.digest = q.content.digest := by
  rcases Nat.lt_trichotomy o.viewNo q.viewNo with hv | hv | hv
  · have ha := ((h.w hj).N.ord q hq).1
    have hk : q.key = (q.viewNo, o.seqNo) := by rw [e]; rfl
    rw [hk] at ha
    exact ((kept h q.viewNo).adm h hi ho hv (settled_locks h hi ho hs) hj ha).symm
  · have hk : o.key = q.key := by show (_, _) = (_, _); rw [hv, e]
    obtain ⟨x, x1, x2⟩ := (settled_locks h hi ho hs).some h.ok
    obtain ⟨y, y1, y2⟩ := (settled_locks h hj hq hs').some h.ok
    rw [hk] at x2
    exact cert_same h x1 y1 x2 y2
  · have ha := ((h.w hi).N.ord o ho).1
    have hk : o.key = (o.viewNo, q.seqNo) := by rw [← e]; rfl
    rw [hk] at ha
    exact (kept h o.viewNo).adm h hj hq hv (settled_locks h hj hq hs') hi ha

end Verif.Views
