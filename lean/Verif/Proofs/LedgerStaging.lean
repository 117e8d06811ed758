import Verif.Proofs.Ledger
/-! The staging ledger refines the abstract ledger of `Spec/Ledger.lean`. -/
namespace Verif.Merkle
open Spec (mth LedgerState LedgerOp)
variable {τ : Type} (H : Bytes → Bytes) (ser : τ → Bytes)

/-- Representation invariant. -/
structure LedgerInv (l : Ledger τ) (s : LedgerState τ) : Prop where
  log : l.disk.log = s.committed
  store : StoreFull H ser l.disk.store s.committed
  mem : MemInv H ser l.mem s.committed
  staged : l.uTxns = s.staged
  none : s.staged = [] → l.uTree = none ∧ l.uRoot = none
  some : s.staged ≠ [] → ∃ t, l.uTree = some t ∧
    TreeInv (bh H) t (lf H ser (s.committed ++ s.staged)) ∧
    l.uRoot = some (t.rootHash (TreeHasher.ofHash H))

theorem applyTxns_spec {t : Tree Bytes} {us : List τ} (h : TreeInv (bh H) t (lf H ser us)) (ts : List τ) :
    ∃ t', applyTxns H ser t ts = .ok t' ∧ TreeInv (bh H) t' (lf H ser (us ++ ts)) := by
  induction ts generalizing t us with
  | nil => exact ⟨t, rfl, by simpa using h⟩
  | cons x ts ih =>
    obtain ⟨t1, v, q, _, hinv, heq⟩ := append_spec (bh H) h (ser x)
    have hlf : lf H ser us ++ [(bh H).hashLeaf (ser x)] = lf H ser (us ++ [x]) := by
      simp only [lf, List.map_append, List.map_cons, List.map_nil]; rfl
    rw [hlf] at hinv
    obtain ⟨t', e, i⟩ := ih hinv
    exact ⟨t', by rw [applyTxns, heq]; exact e, by simpa using i⟩

theorem tree_nonempty_root {t : Tree Bytes} {us : List τ} (h : TreeInv (bh H) t (lf H ser us)) :
    t.rootHash (TreeHasher.ofHash H) = mth H (us.map ser) := by
  rw [← mth_lf]; exact h.root

theorem orTree_spec {l : Ledger τ} {s : LedgerState τ} (h : LedgerInv H ser l s) :
    TreeInv (bh H) (orTree l.uTree l.mem.tree) (lf H ser (s.committed ++ s.staged)) := by
  by_cases hs : s.staged = []
  · rw [(h.none hs).1, hs]; simpa [orTree] using h.mem.tree
  · obtain ⟨t, ht, hi, _⟩ := h.some hs
    rw [ht]
    have : t.size ≠ 0 := by
      rw [hi.size]
      have := List.length_pos_iff.2 hs
      simp only [lf, List.length_map, List.length_append]; omega
    simp only [orTree, if_pos this]
    exact hi

theorem appendTxns_spec {l : Ledger τ} {s : LedgerState τ} (h : LedgerInv H ser l s) (ts : List τ)
    (hne : ts ≠ []) :
    ∃ l', l.appendTxns H ser ts = .ok (l', (s.committed.length + s.staged.length + 1,
        s.committed.length + s.staged.length + ts.length)) ∧
      LedgerInv H ser l' (s.step (.append ts)) := by
  obtain ⟨t', e, i⟩ := applyTxns_spec H ser (orTree_spec H ser h) ts
  have hsz := h.mem.size
  unfold Ledger.appendTxns
  rw [e]
  simp only
  rw [if_pos hne, hsz, h.staged]
  refine ⟨_, rfl, ?_⟩
  · exact ⟨h.log, h.store, h.mem, rfl, fun he => absurd he (by simp [LedgerState.step, hne]), fun _ =>
      ⟨t', rfl, by simpa [LedgerState.step] using i, rfl⟩⟩

/-- Direct additions keep everything but the staging area. -/
theorem Ledger.add_spec {l : Ledger τ} {C : List τ} (hlog : l.disk.log = C)
    (hst : StoreFull H ser l.disk.store C) (hm : MemInv H ser l.mem C) (t : τ) :
    ∃ l' info, l.add H ser t = .ok (l', info) ∧ l'.disk.log = C ++ [t] ∧
      StoreFull H ser l'.disk.store (C ++ [t]) ∧ MemInv H ser l'.mem (C ++ [t]) ∧
      l'.uTxns = l.uTxns ∧ l'.uTree = l.uTree ∧ l'.uRoot = l.uRoot ∧
      info.seqNo = C.length + 1 ∧ info.rootHash = mth H ((C ++ [t]).map ser) ∧
      info.auditPath = pathN (bh H) C.length (lf H ser (C ++ [t])) := by
  subst hlog
  obtain ⟨ops, m', info, e, i, s1, s2, s3, el, es, _⟩ := Merkle.add_spec H ser (d := l.disk) hm hst t
  unfold Ledger.add
  rw [e]
  refine ⟨_, info, rfl, ?_⟩
  · exact ⟨el, es, i, rfl, rfl, rfl, s1, s2, s3⟩

theorem addAll_spec {l : Ledger τ} {C : List τ} (hlog : l.disk.log = C)
    (hst : StoreFull H ser l.disk.store C) (hm : MemInv H ser l.mem C) (ts : List τ) :
    ∃ l', l.addAll H ser ts = .ok l' ∧ l'.disk.log = C ++ ts ∧
      StoreFull H ser l'.disk.store (C ++ ts) ∧ MemInv H ser l'.mem (C ++ ts) ∧
      l'.uTxns = l.uTxns ∧ l'.uTree = l.uTree ∧ l'.uRoot = l.uRoot := by
  induction ts generalizing l C with
  | nil => exact ⟨l, rfl, by simpa using hlog, by simpa using hst, by simpa using hm, rfl, rfl, rfl⟩
  | cons t ts ih =>
    obtain ⟨l1, info, e, h1, h2, h3, h4, h5, h6, _⟩ := Ledger.add_spec H ser hlog hst hm t
    obtain ⟨l2, e2, g1, g2, g3, g4, g5, g6⟩ := ih h1 h2 h3
    refine ⟨l2, by rw [Ledger.addAll, e]; exact e2, by simpa using g1, by simpa using g2, by simpa using g3,
      g4.trans h4, g5.trans h5, g6.trans h6⟩

theorem commitTxns_spec {l : Ledger τ} {s : LedgerState τ} (h : LedgerInv H ser l s) (n : Nat) :
    ∃ l', l.commitTxns H ser n = .ok (l', if s.staged.take n ≠ [] then
        (s.committed.length + 1, s.committed.length + n) else (s.committed.length, s.committed.length),
        s.staged.take n) ∧
      LedgerInv H ser l' (s.step (.commit n)) := by
  obtain ⟨l1, e, g1, g2, g3, g4, g5, g6⟩ := addAll_spec H ser h.log h.store h.mem (l.uTxns.take n)
  have hsz := h.mem.size
  unfold Ledger.commitTxns
  have hst := h.staged
  simp only [e]
  simp only [hsz, g4, hst]
  refine ⟨_, rfl, ?_⟩
  rw [hst] at g1 g2 g3
  by_cases hd : s.staged.drop n = []
  · rw [if_pos hd]
    exact ⟨g1, g2, g3, rfl, fun _ => ⟨rfl, rfl⟩, fun hne => absurd hd hne⟩
  · rw [if_neg hd]
    refine ⟨g1, g2, g3, rfl, fun he => absurd he hd, fun _ => ?_⟩
    have hne : s.staged ≠ [] := by intro h0; rw [h0] at hd; simp at hd
    obtain ⟨t, ht, hi, hr⟩ := h.some hne
    refine ⟨t, by simpa [g5] using ht, ?_, by simpa [g6] using hr⟩
    simpa [LedgerState.step, List.append_assoc] using hi

theorem discardTxns_spec {l : Ledger τ} {s : LedgerState τ} (h : LedgerInv H ser l s) (n : Nat) :
    (n > s.staged.length → l.discardTxns H ser n = .error .assertion) ∧
    (n ≤ s.staged.length → ∃ l', l.discardTxns H ser n = .ok l' ∧
      LedgerInv H ser l' (s.step (.discard n))) := by
  have hst := h.staged
  constructor
  · intro hn
    unfold Ledger.discardTxns
    rw [if_neg (by omega), hst, if_pos hn]
  · intro hn
    have hstep : s.step (.discard n) = ⟨s.committed, s.staged.take (s.staged.length - n)⟩ := by
      simp [LedgerState.step, hn]
    rw [hstep]
    unfold Ledger.discardTxns
    rw [hst]
    by_cases h0 : n = 0
    · rw [if_pos h0]
      subst h0
      refine ⟨l, rfl, ?_⟩
      simpa using h
    · rw [if_neg h0, if_neg (by omega)]
      simp only
      by_cases hd : s.staged.take (s.staged.length - n) = []
      · rw [if_pos hd]
        exact ⟨_, rfl, h.log, h.store, h.mem, rfl, fun _ => ⟨rfl, rfl⟩, fun hne => absurd hd hne⟩
      · rw [if_neg hd]
        obtain ⟨t', e, i⟩ := applyTxns_spec H ser (t := orTree none l.mem.tree) (us := s.committed)
          (by simpa [orTree] using h.mem.tree) (s.staged.take (s.staged.length - n))
        rw [e]
        exact ⟨_, rfl, h.log, h.store, h.mem, rfl, fun he => absurd he hd, fun _ => ⟨t', rfl, i, rfl⟩⟩

theorem open_spec {d : Disk τ} (hd : DiskInv H ser d) :
    ∃ l, Ledger.open H ser d = .ok l ∧ LedgerInv H ser l ⟨d.log, []⟩ := by
  obtain ⟨ops, m, e, i, hl, hs, _⟩ := recover_spec H ser hd
  refine ⟨_, by rw [Ledger.open, e], hl, hs, i, rfl, fun _ => ⟨rfl, rfl⟩, fun h => absurd rfl h⟩

theorem LedgerInv.disk {l : Ledger τ} {s : LedgerState τ} (h : LedgerInv H ser l s) : DiskInv H ser l.disk :=
  ⟨s.committed, _, h.log ▸ List.prefix_refl _, StoreFull.part H ser h.store⟩

theorem step_spec {l : Ledger τ} {s : LedgerState τ} (h : LedgerInv H ser l s) (o : LedgerOp τ)
    (ha : s.Allowed o) : LedgerInv H ser (l.step H ser o) (s.step o) := by
  cases o with
  | append ts =>
    obtain ⟨l', e, i⟩ := appendTxns_spec H ser h ts ha
    rw [Ledger.step, e]; exact i
  | commit n =>
    obtain ⟨l', e, i⟩ := commitTxns_spec H ser h n
    rw [Ledger.step, e]; exact i
  | discard n =>
    by_cases hn : n ≤ s.staged.length
    · obtain ⟨l', e, i⟩ := (discardTxns_spec H ser h n).2 hn
      rw [Ledger.step, e]; exact i
    · rw [Ledger.step, (discardTxns_spec H ser h n).1 (by omega)]
      simpa [LedgerState.step, hn] using h
  | reset => exact ⟨h.log, h.store, h.mem, rfl, fun _ => ⟨rfl, rfl⟩, fun hne => absurd rfl hne⟩
  | add t =>
    obtain ⟨l', info, e, h1, h2, h3, h4, h5, h6, _⟩ := Ledger.add_spec H ser h.log h.store h.mem t
    have hs : s.staged = [] := ha
    rw [Ledger.step, e]
    refine ⟨h1, h2, h3, h4.trans h.staged, fun _ => ?_, fun hne => absurd hs hne⟩
    rw [h5, h6]; exact h.none hs
  | restart =>
    obtain ⟨l', e, i⟩ := open_spec H ser (LedgerInv.disk H ser h)
    rw [Ledger.step, e]
    rw [h.log] at i
    exact i

theorem run_spec {l : Ledger τ} {s : LedgerState τ} (h : LedgerInv H ser l s) (os : List (LedgerOp τ))
    (ha : s.AllAllowed os) : LedgerInv H ser (l.run H ser os) (s.run os) := by
  induction os generalizing l s with
  | nil => exact h
  | cons o os ih => exact ih (step_spec H ser h o ha.1) ha.2

end Verif.Merkle
