import Verif.Model.Ledger
import Verif.Proofs.MerkleStore
/-! Lemmas about the ledger: add, recovery, staging. -/
namespace Verif.Merkle
open Spec (splitPoint splitPoint_pos splitPoint_lt le_two_splitPoint mth leafInput)

section blocks
variable {α : Type} (th : TreeHasher α)

theorem exists_blocks (L : List α) : ∃ bs : List (List α), Blocks bs ∧ bs.flatten = L := by
  let th0 : TreeHasher Unit := ⟨(), fun _ => (), fun _ _ => ()⟩
  induction hn : L.length generalizing L with
  | zero => exact ⟨[], Blocks.nil, by simp [List.length_eq_zero_iff.1 hn]⟩
  | succ n ih =>
    rcases List.eq_nil_or_concat L with rfl | ⟨L', x, rfl⟩
    · simp at hn
    · simp only [List.concat_eq_append] at *
      obtain ⟨bs, hb, hf⟩ := ih L' (by simpa using hn)
      obtain ⟨bs', v, q, hb', hfl, _⟩ := pushSubtreeHash_spec (⟨x, fun _ => x, fun _ _ => x⟩ : TreeHasher α) bs [x] 0 hb (by simp)
        (by
          intro A hA
          obtain ⟨e, he⟩ := hb.pow A hA
          rw [he]; exact Nat.one_le_two_pow)
      exact ⟨bs', hb', by rw [hfl, hf]⟩

/-- Reading the path of the leaf *after* the last one gives the full-subtree
hashes (`recoverTreeFromHashStore`). -/
theorem lastPath_read {s : HashStore α} {L : List α} {k : Nat} (hs : StoreInv th s L k)
    (hk : expectedNodeCount (L.length - 1) ≤ k) (bs : List (List α)) (hb : Blocks bs) (a j : Nat)
    (ha : a ≤ L.length) (hfl : bs.flatten = L.drop a) (hd : 2 ^ j ∣ a) (hlt : bs.flatten.length < 2 ^ j) :
    (auditPathRanges (L.length - a) a (L.length + 1)).mapM (fun r => merkleTreeHash th s r.1 r.2) =
      .ok (bs.map (mthN th)).reverse := by
  induction bs generalizing a j with
  | nil =>
    have : L.length - a = 0 := by
      have := congrArg List.length hfl
      simpa using this.symm
    rw [auditPathRanges, dif_pos (by omega)]
    rfl
  | cons A bs ih =>
    obtain ⟨⟨e, he⟩, h2, h3⟩ := Blocks.cons_iff.1 hb
    have hbl := blocks_lt hb
    have hlen := congrArg List.length hfl
    simp only [List.flatten_cons, List.length_append, List.length_drop] at hlen hlt
    have hp := Nat.two_pow_pos e
    have hs' : splitWidth (L.length + 1 - a) = A.length := by
      rw [splitWidth_eq _ (by omega), he]; apply splitPoint_unique <;> omega
    rw [auditPathRanges]
    simp only [hs']
    rw [dif_neg (by omega), if_neg (by omega)]
    have hda : 2 ^ e ∣ a := Nat.dvd_trans (Nat.pow_dvd_pow 2 (by
      have : 2 ^ e < 2 ^ j := by omega
      have := two_pow_lt_iff.1 this; omega)) hd
    have hslice : (L.take (a + A.length)).drop a = A := by
      have e1 : L.drop a = A ++ bs.flatten := by rw [← hfl]; simp
      have e2 : (L.drop a).take A.length = A := by rw [e1]; simp
      rw [List.drop_take, Nat.add_sub_cancel_left, e2]
    have r1 := ih h2 (a + A.length) e (by omega)
      (by rw [← List.drop_drop, ← hfl]; simp)
      (by rw [he]; exact Nat.dvd_add hda (Nat.dvd_refl _)) (by omega)
    have r2 := merkleTreeHash_eq th hs (a := a) (b := a + A.length) (j := e) (by omega) (by omega)
      (Nat.le_trans (expectedNodeCount_mono (by omega)) hk) hda (by omega)
    rw [hslice] at r2
    rw [show L.length - a - A.length = L.length - (a + A.length) by omega, List.mapM_append, r1]
    simp [r2]
    rfl

end blocks

variable {τ : Type} (H : Bytes → Bytes) (ser : τ → Bytes)

/-- Leaf hashes of transactions. -/
abbrev lf (ts : List τ) : List Bytes := ts.map (fun t => H (leafInput (ser t)))

theorem mth_lf (ts : List τ) : mthN (bh H) (lf H ser ts) = mth H (ts.map ser) := by
  rw [mth_eq_mthN]; simp [leafHashes, lf, Function.comp_def]

structure MemInv (m : Mem) (ts : List τ) : Prop where
  tree : TreeInv (bh H) m.tree (lf H ser ts)
  seqNo : m.seqNo = ts.length

theorem MemInv.size {m : Mem} {ts : List τ} (h : MemInv H ser m ts) : m.tree.size = ts.length := by
  rw [h.tree.size]; simp

theorem MemInv.root {m : Mem} {ts : List τ} (h : MemInv H ser m ts) :
    m.tree.rootHash (TreeHasher.ofHash H) = mth H (ts.map ser) := by
  rw [← mth_lf]; exact h.tree.root

/-- The hash store holds all leaves of `ts` and at least the nodes of all but
the last leaf. -/
structure StorePart (s : HashStore Bytes) (ts : List τ) (k : Nat) : Prop where
  inv : StoreInv (bh H) s (lf H ser ts) k
  lo : expectedNodeCount (ts.length - 1) ≤ k
  hi : k ≤ expectedNodeCount ts.length

/-- The hash store is complete for `ts`. -/
abbrev StoreFull (s : HashStore Bytes) (ts : List τ) : Prop :=
  StoreInv (bh H) s (lf H ser ts) (expectedNodeCount ts.length)

theorem StoreFull.part {s : HashStore Bytes} {ts : List τ} (h : StoreFull H ser s ts) :
    StorePart H ser s ts (expectedNodeCount ts.length) :=
  ⟨h, expectedNodeCount_mono (by omega), Nat.le_refl _⟩

theorem apply_stores (d : Disk τ) (ws : List (StoreWrite Bytes)) :
    (ws.map DiskOp.store).foldl Disk.apply d = { d with store := ws.foldl HashStore.write d.store } := by
  induction ws generalizing d with
  | nil => rfl
  | cons w ws ih => rw [List.map_cons, List.foldl_cons, ih]; rfl

/-- `_addToTreeSerialized`: result, and the state of the store after any prefix
of its writes. -/
theorem addToTree_spec {m : Mem} {ts : List τ} (hm : MemInv H ser m ts) (t : τ) :
    ∃ ws m' info, addToTree H ser m t = .ok (ws.map DiskOp.store, m', info) ∧
      MemInv H ser m' (ts ++ [t]) ∧
      info.seqNo = ts.length + 1 ∧ info.rootHash = mth H ((ts ++ [t]).map ser) ∧
      info.auditPath = pathN (bh H) ts.length (lf H ser (ts ++ [t])) ∧
      (∀ s, StoreFull H ser s ts → StoreFull H ser (ws.foldl HashStore.write s) (ts ++ [t])) ∧
      (∀ s p, StoreFull H ser s ts → p <+: ws → p ≠ [] →
        ∃ k, StorePart H ser (p.foldl HashStore.write s) (ts ++ [t]) k) := by
  obtain ⟨t', v, q, hlen, hinv, heq⟩ := append_spec (bh H) hm.tree (ser t)
  have hlf : lf H ser ts ++ [(bh H).hashLeaf (ser t)] = lf H ser (ts ++ [t]) := by
    simp only [lf, List.map_append, List.map_cons, List.map_nil]; rfl
  rw [hlf] at hinv heq
  simp only [lf, List.length_map] at hlen
  refine ⟨StoreWrite.leaf ((bh H).hashLeaf (ser t)) ::
        (newNodes (bh H) (lf H ser (ts ++ [t])) 0 v).map
          (fun p => StoreWrite.node ((lf H ser ts).length + 1) p.2 p.1), ⟨t', m.seqNo + 1⟩,
    ⟨m.seqNo + 1, t'.rootHash (TreeHasher.ofHash H), m.tree.hashes.reverse⟩, ?_, ⟨hinv, by simp [hm.seqNo]⟩, by simp [hm.seqNo], ?_, ?_, ?_, ?_⟩
  rotate_left
  · exact MemInv.root H ser (m := ⟨t', m.seqNo + 1⟩) (ts := ts ++ [t]) ⟨hinv, by simp [hm.seqNo]⟩
  · obtain ⟨bs, hb, hfl, hh⟩ := hm.tree.ex
    have := hashes_reverse_path (bh H) bs hb ((bh H).hashLeaf (ser t))
    rw [hfl, hlf, ← hh] at this
    simpa using this
  · intro s hs
    have := append_writes (bh H) (L := lf H ser ts) ((bh H).hashLeaf (ser t)) (v := v) (q := q)
      (by simpa using hlen) (s := s) (by simpa using hs)
    rw [hlf] at this
    simpa [StoreFull] using this
  · intro s p hs hp hne
    obtain ⟨j, hj⟩ : ∃ j, p = (StoreWrite.leaf ((bh H).hashLeaf (ser t)) ::
        (newNodes (bh H) (lf H ser (ts ++ [t])) 0 v).map
          (fun p => StoreWrite.node ((lf H ser ts).length + 1) p.2 p.1)).take j :=
      ⟨p.length, List.prefix_iff_eq_take.1 hp⟩
    rcases j with _ | j
    · simp at hj; exact absurd hj hne
    · rw [List.take_succ_cons] at hj
      have hcap : ∃ j', j' ≤ v ∧ ((newNodes (bh H) (lf H ser (ts ++ [t])) 0 v).map
          (fun p => StoreWrite.node ((lf H ser ts).length + 1) p.2 p.1)).take j =
          ((newNodes (bh H) (lf H ser (ts ++ [t])) 0 v).map
          (fun p => StoreWrite.node ((lf H ser ts).length + 1) p.2 p.1)).take j' := by
        by_cases h : j ≤ v
        · exact ⟨j, h, rfl⟩
        · refine ⟨v, Nat.le_refl _, ?_⟩
          rw [List.take_of_length_le (by simp [newNodes]; omega), List.take_of_length_le (by simp [newNodes])]
      obtain ⟨j', hj', he⟩ := hcap
      rw [he] at hj
      have := append_writes_prefix (bh H) (L := lf H ser ts) ((bh H).hashLeaf (ser t)) (v := v) (q := q)
        (by simpa using hlen) (s := s) (by simpa using hs) j' hj'
      rw [hlf, ← hj] at this
      refine ⟨expectedNodeCount (lf H ser ts).length + j', this, by simp, ?_⟩
      have h2 := expectedNodeCount_succ v q
      rw [← hlen] at h2
      simp at h2 ⊢
      omega
  · unfold addToTree
    rw [heq]

theorem addAllToTree_spec {m : Mem} {ts : List τ} (hm : MemInv H ser m ts) (us : List τ) :
    ∃ ws m', addAllToTree H ser m us = .ok (ws.map DiskOp.store, m') ∧
      MemInv H ser m' (ts ++ us) ∧
      (∀ s, StoreFull H ser s ts → StoreFull H ser (ws.foldl HashStore.write s) (ts ++ us)) ∧
      (∀ s p, StoreFull H ser s ts → p <+: ws →
        ∃ vs k, vs <+: us ∧ StorePart H ser (p.foldl HashStore.write s) (ts ++ vs) k) := by
  induction us generalizing m ts with
  | nil =>
    refine ⟨[], m, rfl, by simpa using hm, by simpa using fun s h => h, ?_⟩
    intro s p hs hp
    have : p = [] := by simpa using hp
    subst this
    exact ⟨[], _, List.prefix_refl _, by simpa using StoreFull.part H ser hs⟩
  | cons t us ih =>
    obtain ⟨ws, m1, info, e1, i1, _, _, _, f1, p1⟩ := addToTree_spec H ser hm t
    obtain ⟨ws', m2, e2, i2, f2, p2⟩ := ih i1
    refine ⟨ws ++ ws', m2, by simp [addAllToTree, e1, e2], by simpa using i2, ?_, ?_⟩
    · intro s hs
      rw [List.foldl_append]
      have := f2 _ (f1 s hs)
      simpa using this
    · intro s p hs hp
      rcases Nat.lt_or_ge ws.length p.length with hl | hl
      · obtain ⟨p', rfl⟩ : ws <+: p := List.prefix_of_prefix_length_le (List.prefix_append _ _) hp (by omega)
        have hp' : p' <+: ws' := by simpa [List.prefix_append_right_inj] using hp
        obtain ⟨vs, k, hv, hk⟩ := p2 _ p' (f1 s hs) hp'
        refine ⟨t :: vs, k, by simpa using hv, ?_⟩
        rw [List.foldl_append]
        simpa using hk
      · have hpw : p <+: ws := List.prefix_of_prefix_length_le hp (List.prefix_append _ _) hl
        by_cases hne : p = []
        · subst hne
          exact ⟨[], _, by simp, by simpa using StoreFull.part H ser hs⟩
        · obtain ⟨k, hk⟩ := p1 s p hs hpw hne
          exact ⟨[t], k, by simp, hk⟩

theorem MemInv.empty : MemInv H ser (⟨Tree.empty, 0⟩ : Mem) ([] : List τ) :=
  ⟨by simpa using TreeInv.empty (bh H), rfl⟩

theorem StoreFull.empty : StoreFull H ser HashStore.empty ([] : List τ) := by
  have := StoreInv.empty (bh H)
  have e : expectedNodeCount 0 = 0 := by rw [expectedNodeCount]; simp
  simpa [StoreFull, e] using this

/-- States of the disk in which a crash may leave it (except between the two
store resets). -/
structure DiskInv (d : Disk τ) : Prop where
  ex : ∃ ts k, ts <+: d.log ∧ StorePart H ser d.store ts k

theorem recoverFromLog_spec (d : Disk τ) :
    ∃ ws m, recoverFromLog H ser d = .ok (.resetNodes :: .resetLeaves :: ws.map DiskOp.store, m) ∧
      MemInv H ser m d.log ∧
      StoreFull H ser (ws.foldl HashStore.write HashStore.empty) d.log ∧
      (∀ p, p <+: ws → ∃ vs k, vs <+: d.log ∧
        StorePart H ser (p.foldl HashStore.write HashStore.empty) vs k) := by
  obtain ⟨ws, m, e, i, f, p⟩ := addAllToTree_spec H ser (MemInv.empty H ser) d.log
  refine ⟨ws, m, by simp [recoverFromLog, e], by simpa using i,
    by simpa using f _ (StoreFull.empty H ser), ?_⟩
  intro q hq
  simpa using p _ q (StoreFull.empty H ser) hq

theorem recoverFromHashStore_spec {d : Disk τ} {ts : List τ} {k : Nat}
    (hs : StorePart H ser d.store ts k) :
    (recoverFromHashStore H d = .error .consistencyVerificationFailed) ∨
    (∃ m, recoverFromHashStore H d = .ok m ∧ MemInv H ser m ts ∧ d.log.length = ts.length ∧
      k = expectedNodeCount ts.length) := by
  have hleaves := hs.inv.leaves
  have hlen : d.store.leaves.length = ts.length := by rw [hleaves]; simp
  obtain ⟨bs, hb, hfl⟩ := exists_blocks (lf H ser ts)
  obtain ⟨j, hj⟩ := exists_pow_ge ((lf H ser ts).length + 1)
  have hp := lastPath_read (bh H) hs.inv (by simpa using hs.lo) bs hb 0 j (by omega) (by simpa using hfl)
    (Nat.dvd_zero _) (by rw [hfl]; omega)
  have hip : inclusionProof (TreeHasher.ofHash H) d.store d.store.leaves.length (d.store.leaves.length + 1) =
      .ok (bs.map (mthN (bh H))).reverse := by
    unfold inclusionProof
    rw [hleaves]
    simpa using hp
  have hup : Tree.update d.store.leaves.length (bs.map (mthN (bh H))) =
      .ok ⟨d.store.leaves.length, bs.map (mthN (bh H))⟩ :=
    update_ok (bh H) hb (by rw [hfl, hleaves])
  unfold recoverFromHashStore
  simp only [hip, List.reverse_reverse, hup]
  by_cases h1 : d.log.length ≠ d.store.leaves.length
  · left; rw [if_pos h1]
  · rw [if_neg h1]
    by_cases h2 : expectedNodeCount d.store.leaves.length ≠ d.store.nodes.length
    · left; rw [if_pos h2]
    · right
      rw [if_neg h2]
      refine ⟨_, rfl, ⟨⟨⟨bs, hb, hfl, rfl⟩, by rw [hleaves]⟩, hlen⟩, by omega, ?_⟩
      have := hs.inv.count
      rw [← hlen]; omega

/-- Recovery from any crash state. -/
theorem recover_spec {d : Disk τ} (hd : DiskInv H ser d) :
    ∃ ops m, recover H ser d = .ok (ops, m) ∧ MemInv H ser m d.log ∧
      (ops.foldl Disk.apply d).log = d.log ∧
      StoreFull H ser (ops.foldl Disk.apply d).store d.log ∧
      (∀ p, p <+: ops → p ≠ [.resetNodes] →
        (p.foldl Disk.apply d).log = d.log ∧ DiskInv H ser (p.foldl Disk.apply d)) := by
  obtain ⟨ts, k, hpre, hs⟩ := hd.ex
  obtain ⟨ws, m, e, i, f, p⟩ := recoverFromLog_spec H ser d
  have hlog : ∃ ops m, recoverFromLog H ser d = .ok (ops, m) ∧ MemInv H ser m d.log ∧
      (ops.foldl Disk.apply d).log = d.log ∧
      StoreFull H ser (ops.foldl Disk.apply d).store d.log ∧
      (∀ p, p <+: ops → p ≠ [.resetNodes] →
        (p.foldl Disk.apply d).log = d.log ∧ DiskInv H ser (p.foldl Disk.apply d)) := by
    refine ⟨_, m, e, i, ?_, ?_, ?_⟩
    · simp only [List.foldl_cons]; rw [apply_stores]; rfl
    · simp only [List.foldl_cons]; rw [apply_stores]
      exact f
    · intro q hq hne
      match q, hq, hne with
      | [], _, _ => exact ⟨rfl, hd⟩
      | [a], hq, hne =>
        have : a = .resetNodes := by
          have := List.cons_prefix_cons.1 hq
          exact this.1
        subst this
        exact absurd rfl hne
      | a :: b :: q, hq, hne =>
        obtain ⟨ha, hq1⟩ := List.cons_prefix_cons.1 hq
        obtain ⟨hb, hq2⟩ := List.cons_prefix_cons.1 hq1
        subst ha hb
        have hex : ∃ p', q = p'.map DiskOp.store ∧ p' <+: ws := by
          refine ⟨ws.take q.length, ?_, List.take_prefix _ _⟩
          rw [List.map_take]
          exact List.prefix_iff_eq_take.1 hq2
        obtain ⟨p', rfl, hp'⟩ := hex
        simp only [List.foldl_cons]
        rw [apply_stores]
        obtain ⟨vs, k', hv, hk'⟩ := p p' hp'
        exact ⟨rfl, ⟨vs, k', hv, hk'⟩⟩
  unfold recover
  by_cases h0 : d.store.leaves.length = 0
  · rw [if_pos h0]; exact hlog
  · rw [if_neg h0]
    rcases recoverFromHashStore_spec H ser hs with h | ⟨m', h, hm', hl, hk⟩
    · rw [h]; exact hlog
    · rw [h]
      have hts : ts = d.log := by
        obtain ⟨r, hr⟩ := hpre
        have := congrArg List.length hr
        simp only [List.length_append] at this
        have : r = [] := List.length_eq_zero_iff.1 (by omega)
        subst this; simpa using hr
      subst hts
      refine ⟨[], m', rfl, hm', rfl, by simpa [hk] using hs.inv, ?_⟩
      intro p hp _
      have : p = [] := by simpa using hp
      subst this
      exact ⟨rfl, hd⟩

/-- `add`, with any prefix of its disk writes. -/
theorem add_spec {d : Disk τ} {m : Mem} (hm : MemInv H ser m d.log) (hs : StoreFull H ser d.store d.log) (t : τ) :
    ∃ ops m' info, add H ser m t = .ok (ops, m', info) ∧ MemInv H ser m' (d.log ++ [t]) ∧
      info.seqNo = d.log.length + 1 ∧ info.rootHash = mth H ((d.log ++ [t]).map ser) ∧
      info.auditPath = pathN (bh H) d.log.length (lf H ser (d.log ++ [t])) ∧
      (ops.foldl Disk.apply d).log = d.log ++ [t] ∧
      StoreFull H ser (ops.foldl Disk.apply d).store (d.log ++ [t]) ∧
      (∀ p, p <+: ops → p ≠ [] → (p.foldl Disk.apply d).log = d.log ++ [t] ∧ DiskInv H ser (p.foldl Disk.apply d)) := by
  obtain ⟨ws, m', info, e, i, s1, s2, s3, f, pf⟩ := addToTree_spec H ser hm t
  have happ : d.apply (.logPut (m.seqNo + 1) t) = ⟨d.log ++ [t], d.store⟩ := by
    simp only [Disk.apply]
    rw [if_neg (by rw [hm.seqNo]; omega)]
  refine ⟨.logPut (m.seqNo + 1) t :: ws.map DiskOp.store, m', info, by simp [add, e], i, s1, s2, s3, ?_, ?_, ?_⟩
  · rw [List.foldl_cons, happ, apply_stores]
  · rw [List.foldl_cons, happ, apply_stores]
    exact f _ hs
  · intro p hp hne
    match p, hp, hne with
    | [], _, h => exact absurd rfl h
    | a :: p, hp, _ =>
      obtain ⟨ha, hp1⟩ := List.cons_prefix_cons.1 hp
      subst ha
      have hex : ∃ p', p = p'.map DiskOp.store ∧ p' <+: ws := by
        refine ⟨ws.take p.length, ?_, List.take_prefix _ _⟩
        rw [List.map_take]
        exact List.prefix_iff_eq_take.1 hp1
      obtain ⟨p', rfl, hp'⟩ := hex
      rw [List.foldl_cons, happ, apply_stores]
      refine ⟨rfl, ?_⟩
      by_cases hne : p' = []
      · subst hne
        exact ⟨d.log, _, List.prefix_append _ _, StoreFull.part H ser hs⟩
      · obtain ⟨k, hk⟩ := pf d.store p' hs hp' hne
        exact ⟨d.log ++ [t], k, List.prefix_refl _, hk⟩

end Verif.Merkle
