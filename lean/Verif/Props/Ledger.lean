import Verif.Props.Merkle
/-!
# C07 (crash recovery) and C08 (staging) of the ledger
-/
namespace Verif.Props
open Verif.Merkle Spec

section
variable {τ : Type} (H : Bytes → Bytes) (ser : τ → Bytes)

/-- The transactions a user expects after an event: a transaction whose first
disk write (the log entry) happened is in the log. -/
def expectedLog (running : Bool) (log : List τ) : List (ProcEvent τ) → List τ
  | [] => log
  | .add t :: es => if running then expectedLog true (log ++ [t]) es else expectedLog running log es
  | .addCrash t k :: es =>
    if running then expectedLog false (if k = 0 then log else log ++ [t]) es else expectedLog running log es
  | .boot :: es => expectedLog true log es
  | .bootCrash _ :: es => expectedLog running log es

/-- Invariant of a process whose log should be `log`. -/
def ProcInv (running : Bool) (log : List τ) : Proc τ → Prop
  | .up d m => running = true ∧ d.log = log ∧ MemInv H ser m log ∧ StoreFull H ser d.store log
  | .down d => running = false ∧ d.log = log ∧ DiskInv H ser d
  | .failed _ _ => False

theorem procInv_run (es : List (ProcEvent τ)) (hk : ∀ k, .bootCrash k ∈ es → k ≠ 1) (running : Bool)
    (log : List τ) (p : Proc τ) (h : ProcInv H ser running log p) :
    ∃ r, ProcInv H ser r (expectedLog running log es) (es.foldl (Proc.step H ser) p) := by
  induction es generalizing running log p with
  | nil => exact ⟨running, h⟩
  | cons e es ih =>
    have ih := ih (fun k hk' => hk k (List.mem_cons_of_mem _ hk'))
    rw [List.foldl_cons]
    cases p with
    | failed d er => exact h.elim
    | up d m =>
      obtain ⟨hr, rfl, hm, hs⟩ := h
      subst hr
      cases e with
      | add t =>
        obtain ⟨ops, m', info, e, i, _, _, _, el, es', _⟩ := add_spec H ser hm hs t
        simp only [Proc.step, e, expectedLog, if_true]
        exact ih _ _ _ ⟨rfl, el, i, es'⟩
      | addCrash t k =>
        obtain ⟨ops, m', info, e, i, _, _, _, el, es', hp⟩ := add_spec H ser hm hs t
        simp only [Proc.step, e, expectedLog, if_true]
        by_cases h0 : k = 0
        · subst h0
          exact ih _ _ _ ⟨rfl, by simp, ⟨d.log, _, List.prefix_refl _, StoreFull.part H ser hs⟩⟩
        · rw [if_neg h0]
          have hne : ops.take k ≠ [] := by
            intro hnil
            rcases List.take_eq_nil_iff.1 hnil with h1 | h1
            · exact h0 h1
            · subst h1
              have := congrArg List.length el
              simp at this
          obtain ⟨a, b⟩ := hp _ (List.take_prefix k ops) hne
          exact ih _ _ _ ⟨rfl, a, b⟩
      | boot => exact ih _ _ _ ⟨rfl, rfl, hm, hs⟩
      | bootCrash k => exact ih _ _ _ ⟨rfl, rfl, hm, hs⟩
    | down d =>
      obtain ⟨hr, rfl, hd⟩ := h
      subst hr
      cases e with
      | add t => exact ih _ _ _ ⟨rfl, rfl, hd⟩
      | addCrash t k => exact ih _ _ _ ⟨rfl, rfl, hd⟩
      | boot =>
        obtain ⟨ops, m, e, i, el, es', _⟩ := recover_spec H ser hd
        simp only [Proc.step, e, expectedLog]
        exact ih _ _ _ ⟨rfl, el, i, es'⟩
      | bootCrash k =>
        obtain ⟨ops, m, e, i, el, es', hp⟩ := recover_spec H ser hd
        simp only [Proc.step, e, expectedLog]
        have hk1 : k ≠ 1 := hk k List.mem_cons_self
        have hne : ops.take k ≠ [.resetNodes] ∨ ops = [.resetNodes] := by
          by_cases hops : ops.take k = [.resetNodes]
          · right
            have := congrArg List.length hops
            simp only [List.length_take, List.length_singleton] at this
            rw [List.take_of_length_le (by omega)] at hops
            exact hops
          · exact .inl hops
        rcases hne with hne | hops
        · obtain ⟨a, b⟩ := hp _ (List.take_prefix k ops) hne
          exact ih _ _ _ ⟨rfl, a, b⟩
        · exfalso
          -- recovery never consists of the node reset alone
          unfold recover at e
          obtain ⟨ws, m2, e2, _⟩ := recoverFromLog_spec H ser d
          rw [e2] at e
          split at e
          · simp only [Except.ok.injEq, Prod.mk.injEq] at e
            rw [← e.1] at hops; simp at hops
          · split at e
            · simp only [Except.ok.injEq, Prod.mk.injEq] at e
              rw [← e.1] at hops; simp at hops
            · simp only [Except.ok.injEq, Prod.mk.injEq] at e
              rw [← e.1] at hops; simp at hops
            · cases e

/-- **C07.** Start a ledger process on empty storage and let anything happen:
complete adds, crashes after any number of the individual disk writes of an add,
restarts, and crashes during restarts (other than exactly between the two store
resets, see `C07_reset_crash_unrecoverable`). Then the process never stops with
an exception, the log holds exactly the transactions whose log entry was
written, and the next restart gives a ledger with exactly those transactions,
their RFC 6962 root, and a complete hash store. -/
theorem C07_crash_recovery (es : List (ProcEvent τ)) (hk : ∀ k, .bootCrash k ∈ es → k ≠ 1) :
    let p := es.foldl (Proc.step H ser) (.down Disk.empty)
    let log := expectedLog false [] es
    p.disk.log = log ∧ (∀ d e, p ≠ .failed d e) ∧
    ∃ ws m, recover H ser p.disk = .ok (ws, m) ∧
      (ws.foldl Disk.apply p.disk).log = log ∧
      m.tree.rootHash (TreeHasher.ofHash H) = mth H (log.map ser) ∧
      m.tree.size = log.length ∧ m.seqNo = log.length ∧
      ∀ n, 0 < n → n ≤ log.length →
        merkleTreeHash (TreeHasher.ofHash H) (ws.foldl Disk.apply p.disk).store 0 n =
          .ok (mth H ((log.take n).map ser)) := by
  intro p log
  obtain ⟨r, h⟩ := procInv_run H ser es hk false [] (.down Disk.empty)
    ⟨rfl, rfl, ⟨[], _, List.prefix_refl _, StoreFull.part H ser (StoreFull.empty H ser)⟩⟩
  have hd : p.disk.log = log ∧ DiskInv H ser p.disk ∧ (∀ d e, p ≠ .failed d e) := by
    show p.disk.log = expectedLog false [] es ∧ DiskInv H ser p.disk ∧ _
    change ProcInv H ser r (expectedLog false [] es) p at h
    generalize expectedLog false [] es = L at *
    cases hp : p with
    | failed d e => rw [hp] at h; exact h.elim
    | up d m =>
      rw [hp] at h
      obtain ⟨_, rfl, _, hs⟩ := h
      exact ⟨rfl, ⟨d.log, _, List.prefix_refl _, StoreFull.part H ser hs⟩, by simp⟩
    | down d =>
      rw [hp] at h
      obtain ⟨_, hl, hd⟩ := h
      exact ⟨hl, hd, by simp⟩
  obtain ⟨h1, h2, h3⟩ := hd
  obtain ⟨ops, m, e, i, el, es', _⟩ := recover_spec H ser h2
  rw [h1] at i es' el
  refine ⟨h1, h3, ops, m, e, el, i.root, i.size, i.seqNo, ?_⟩
  intro n hn0 hn
  obtain ⟨j, hj⟩ := exists_pow_ge n
  have := merkleTreeHash_eq (bh H) es' (a := 0) (b := n) (j := j) hn0 (by simpa using hn)
    (expectedNodeCount_mono (by omega)) (Nat.dvd_zero _) (by omega)
  rw [← mth_lf]
  simpa [lf, List.map_take] using this

end

/-- A history with two crashes inside adds and one inside a recovery. -/
example : expectedLog (τ := Bytes) false []
    [.boot, .add [1], .add [2], .addCrash [3] 1, .bootCrash 3, .boot, .add [4], .addCrash [5] 0, .boot] =
    [[1], [2], [3], [4]] := by simp [expectedLog]

theorem noNodes_inclusion (H : Bytes → Bytes) (s : HashStore Bytes) (hn : s.nodes = []) :
    inclusionProof (TreeHasher.ofHash H) s 4 5 = .error .typeError := by
  have s5 : splitWidth 5 = 4 := by rw [splitWidth_eq _ (by decide)]; decide
  have r : auditPathRanges 4 0 5 = [(0, 4)] := by
    rw [auditPathRanges]; simp only [s5]
    rw [dif_neg (by decide), if_neg (by decide), auditPathRanges, dif_pos (by decide)]; rfl
  have hb3 : highestBitSet 3 = 2 := by simp [highestBitSet]
  have hb1 : highestBitSet 1 = 1 := by simp [highestBitSet]
  have hp : getPath 4 0 = .ok ([3], [getNodePosition 2 1]) := by
    rw [getPath]
    simp only [hb3]
    rw [dif_neg (by decide), if_neg (by decide), getPath]
    simp [hb1]
  have hm : merkleTreeHash (TreeHasher.ofHash H) s 0 4 = .error .typeError := by
    unfold merkleTreeHash
    rw [if_neg (by decide), if_neg (by decide), hp]
    have : s.readNode (getNodePosition 2 1) = none := by simp [HashStore.readNode, hn, kvGet]
    simp only [List.map_cons, List.map_nil, this]
    cases s.readLeaf 4 <;> cases s.readLeaf 3 <;> rfl
  unfold inclusionProof
  rw [r]
  simp [hm]
  rfl

/-- Finding (outside C07's statement, which is about crashes in `add`): a crash
between the two resets of `DbHashStore.reset` during a recovery leaves leaf
hashes without node hashes. From then on, with at least four leaves, every start
of the ledger fails with `TypeError`, for every hash function. -/
theorem C07_reset_crash_unrecoverable (H : Bytes → Bytes) (a b c d e : Bytes) :
    ∃ dk err, [ProcEvent.boot, .add a, .add b, .add c, .add d, .addCrash e 1, .bootCrash 1, .boot].foldl
      (Proc.step H id) (.down Disk.empty) = .failed dk err ∧ dk.log = [a, b, c, d, e] := by
  have stepAdd : ∀ (dk : Disk Bytes) (m : Mem) (L : List Bytes) (t : Bytes), dk.log = L →
      MemInv H id m L → StoreFull H id dk.store L →
      ∃ dk' m', Proc.step H id (.up dk m) (.add t) = .up dk' m' ∧ dk'.log = L ++ [t] ∧
        MemInv H id m' (L ++ [t]) ∧ StoreFull H id dk'.store (L ++ [t]) := by
    intro dk m L t hl hm hs
    subst hl
    obtain ⟨ops, m', info, e, i, _, _, _, el, es', _⟩ := add_spec H id hm hs t
    exact ⟨_, m', by simp only [Proc.step, e], el, i, es'⟩
  obtain ⟨ops, m0, eb, i0, l0, s0, _⟩ := recover_spec H id (d := Disk.empty)
    ⟨[], _, List.prefix_refl _, StoreFull.part H id (StoreFull.empty H id)⟩
  obtain ⟨d1, m1, e1, l1, i1, s1⟩ := stepAdd _ _ _ a l0 i0 s0
  obtain ⟨d2, m2, e2, l2, i2, s2⟩ := stepAdd _ _ _ b l1 i1 s1
  obtain ⟨d3, m3, e3, l3, i3, s3⟩ := stepAdd _ _ _ c l2 i2 s2
  obtain ⟨d4, m4, e4, l4, i4, s4⟩ := stepAdd _ _ _ d l3 i3 s3
  simp only [Disk.empty, List.nil_append, List.cons_append] at l4 i4 s4
  -- the crash after the log write of `e`
  obtain ⟨ws, m5, info, ea, _⟩ := addToTree_spec H id i4 e
  have e5 : Proc.step H id (.up d4 m4) (.addCrash e 1) = .down ⟨[a, b, c, d, e], d4.store⟩ := by
    have h4 : m4.seqNo = 4 := i4.seqNo
    simp [Proc.step, add, ea, Disk.apply, l4, h4]
  -- the crash after the first write of the recovery
  have e6 : Proc.step H id (.down ⟨[a, b, c, d, e], d4.store⟩) (.bootCrash 1) =
      .down ⟨[a, b, c, d, e], ⟨d4.store.leaves, []⟩⟩ := by
    obtain ⟨ws, m6, er, _⟩ := recoverFromLog_spec H id (⟨[a, b, c, d, e], d4.store⟩ : Disk Bytes)
    have hrec : recover H id (⟨[a, b, c, d, e], d4.store⟩ : Disk Bytes) =
        .ok (.resetNodes :: .resetLeaves :: ws.map DiskOp.store, m6) := by
      unfold recover
      rw [if_neg (by simp [s4.leaves])]
      rcases recoverFromHashStore_spec H id (d := ⟨[a, b, c, d, e], d4.store⟩) (StoreFull.part H id s4) with h | ⟨_, _, _, h, _⟩
      · rw [h]; exact er
      · simp at h
    simp [Proc.step, hrec, Disk.apply]
  have e7 : Proc.step H id (.down ⟨[a, b, c, d, e], ⟨d4.store.leaves, []⟩⟩) .boot =
      .failed ⟨[a, b, c, d, e], ⟨d4.store.leaves, []⟩⟩ .typeError := by
    have hl : d4.store.leaves.length = 4 := by rw [s4.leaves]; rfl
    have hrec : recover H id (⟨[a, b, c, d, e], ⟨d4.store.leaves, []⟩⟩ : Disk Bytes) = .error .typeError := by
      unfold recover
      rw [if_neg (by simp only [hl]; decide)]
      simp only [recoverFromHashStore, hl]
      rw [noNodes_inclusion H ⟨d4.store.leaves, []⟩ rfl]
    simp [Proc.step, hrec]
  have e0 : Proc.step H id (.down Disk.empty) .boot = .up (ops.foldl Disk.apply Disk.empty) m0 := by
    simp only [Proc.step, eb]
  simp only [List.foldl_cons, List.foldl_nil]
  rw [e0, e1, e2, e3, e4, e5, e6, e7]
  exact ⟨_, _, rfl, rfl⟩

section
variable {τ : Type} (H : Bytes → Bytes) (ser : τ → Bytes)

/-- **C08.** For every history of staging, committing, discarding, resetting,
adding and restarting (as the interface is used, see `LedgerState.Allowed`), the
ledger agrees with the abstract ledger on every observable. -/
theorem C08_staging (hne : ∀ x, H x ≠ []) (ops : List (LedgerOp τ))
    (ha : LedgerState.AllAllowed ⟨[], []⟩ ops) :
    let l := Ledger.new.run H ser ops
    let s := LedgerState.run ⟨[], []⟩ ops
    l.uncommittedRootHash H = mth H ((s.committed ++ s.staged).map ser) ∧
    l.uncommittedSize = (s.committed ++ s.staged).length ∧
    l.uTxns = s.staged ∧
    l.mem.tree.rootHash (TreeHasher.ofHash H) = mth H (s.committed.map ser) ∧
    l.mem.tree.size = s.committed.length ∧
    (∀ seqNo, l.getBySeqNo seqNo = if seqNo = 0 then none else s.committed[seqNo - 1]?) ∧
    (∀ seqNo, l.getBySeqNoUncommitted seqNo =
      if seqNo = 0 then none else (s.committed ++ s.staged)[seqNo - 1]?) := by
  intro l s
  have h : LedgerInv H ser l s := run_spec H ser (new_inv H ser) ops ha
  clear_value l s
  have hmth : ∀ D : List Bytes, mth H D ≠ [] := by
    intro D
    match D with
    | [] => rw [mth]; exact hne _
    | [d] => rw [mth]; exact hne _
    | a :: b :: l => rw [mth]; exact hne _
  have hget : ∀ seqNo, l.getBySeqNo seqNo = if seqNo = 0 then none else s.committed[seqNo - 1]? := by
    intro q; rw [Ledger.getBySeqNo, h.log]
  refine ⟨?_, ?_, h.staged, h.mem.root, h.mem.size, hget, ?_⟩
  · unfold Ledger.uncommittedRootHash
    by_cases hs : s.staged = []
    · rw [(h.none hs).2]
      simp only
      rw [h.mem.root, hs]; simp
    · obtain ⟨t, ht, hi, hr⟩ := h.some hs
      rw [hr, tree_nonempty_root H ser hi]
      simp only
      rw [if_pos (hmth _)]
  · simp [Ledger.uncommittedSize, h.mem.size, h.staged]
  · intro q
    unfold Ledger.getBySeqNoUncommitted
    simp only [Ledger.uncommittedSize, h.mem.size, h.staged, hget]
    by_cases h0 : q = 0
    · subst h0; simp
    · simp only [if_neg h0]
      split
      · rw [List.getElem?_eq_none (by simp; omega)]
      · split
        · rw [List.getElem?_append_right (by omega)]
          congr 1; omega
        · rw [List.getElem?_append_left (by omega)]

/-- **C08**, answers of the operations: `appendTxns` and `commitTxns` return the
sequence numbers of the transactions, commit hands back exactly the first `n`
staged ones, and discarding more than is staged is refused. -/
theorem C08_answers (ops : List (LedgerOp τ)) (ha : LedgerState.AllAllowed ⟨[], []⟩ ops) :
    let l := Ledger.new.run H ser ops
    let s := LedgerState.run ⟨[], []⟩ ops
    (∀ ts, ts ≠ [] → ∃ l', l.appendTxns H ser ts = .ok (l', (s.committed ++ s.staged).length + 1,
      (s.committed ++ s.staged ++ ts).length)) ∧
    (∀ n, 0 < n → n ≤ s.staged.length → ∃ l', l.commitTxns H ser n =
      .ok (l', (s.committed.length + 1, s.committed.length + n), s.staged.take n)) ∧
    (∀ n, n > s.staged.length → l.discardTxns H ser n = .error .assertion) := by
  intro l s
  have h : LedgerInv H ser l s := run_spec H ser (new_inv H ser) ops ha
  clear_value l s
  refine ⟨?_, ?_, ?_⟩
  · intro ts hts
    obtain ⟨l', e, _⟩ := appendTxns_spec H ser h ts hts
    exact ⟨l', by rw [e]; simp [Nat.add_assoc]⟩
  · intro n h0 hn
    obtain ⟨l', e, _⟩ := commitTxns_spec H ser h n
    rw [if_pos] at e
    · exact ⟨l', e⟩
    · intro hnil
      rcases List.take_eq_nil_iff.1 hnil with h1 | h1
      · omega
      · rw [h1] at hn; simp at hn; omega
  · exact fun n => (discardTxns_spec H ser h n).1

end

/-- C08 on the example history. -/
example : (Ledger.new.run toyHash id exampleOps).uncommittedRootHash toyHash =
    mth toyHash [[1], [2], [3], [4], [6], [7], [8]] := by
  have := (C08_staging toyHash id (by simp [toyHash]) exampleOps exampleOps_allowed).1
  rw [exampleOps_result] at this
  simpa using this

/-- Why `append []` is excluded from C08: staging an empty batch leaves a stale
uncommitted root behind, which a later direct `add` does not refresh. -/
theorem C08_empty_append_stale (H : Bytes → Bytes) (t : Bytes) (hne : H [] ≠ []) :
    (Ledger.new.run H id [.append [], .add t]).uncommittedRootHash H = mth H [] ∧
    (Ledger.new.run H id [.append [], .add t]).mem.tree.rootHash (TreeHasher.ofHash H) = mth H [t] := by
  have e1 : (Ledger.new : Ledger Bytes).step H id (.append []) =
    { (Ledger.new : Ledger Bytes) with uTree := some Tree.empty, uRoot := some (Tree.empty.rootHash (TreeHasher.ofHash H)) } := rfl
  have hr : (Tree.empty (α := Bytes)).rootHash (TreeHasher.ofHash H) = H [] := rfl
  simp only [Ledger.run]
  rw [e1, hr]
  obtain ⟨l', info, e, h1, h2, h3, h4, h5, h6, _⟩ := Ledger.add_spec H id
    (l := { (Ledger.new : Ledger Bytes) with uTree := some Tree.empty, uRoot := some (H []) }) (C := [])
    rfl (StoreFull.empty H id) (MemInv.empty H id) t
  rw [Ledger.step, e]
  refine ⟨?_, ?_⟩
  · simp only [Ledger.uncommittedRootHash, h6, if_pos hne, mth]
  · simpa using h3.root

end Verif.Props
