import Verif.Proofs.LedgerStaging
import Verif.Proofs.MerkleSound
/-!
# C01–C06: the ledger's Merkle tree

`Spec.mth` is the RFC 6962 tree head. `H` is any hash function; where a theorem
needs it, that digests have a fixed length is a hypothesis.
-/
namespace Verif.Props
open Verif.Merkle Spec

/-- A toy hash with one-byte digests, for the examples. -/
def toyHash (b : Bytes) : Bytes := [b.foldl (fun a x => 3 * a + x + 1) 7]

theorem toyHash_length (x : Bytes) : (toyHash x).length = 1 := rfl

/-- **C01.** Whatever sequence of `append` and `extend` calls built the tree,
it does not fail and its root and size are those of the list of all leaves. -/
theorem C01_tree_root (H : Bytes → Bytes) (ops : List TreeOp) :
    ∃ t, Tree.run (TreeHasher.ofHash H) Tree.empty ops = .ok t ∧
      t.rootHash (TreeHasher.ofHash H) = mth H (ops.flatMap TreeOp.leaves) ∧
      t.size = (ops.flatMap TreeOp.leaves).length := by
  suffices h : ∀ (ops : List TreeOp) (t : Tree Bytes) (D : List Bytes),
      TreeInv (bh H) t (leafHashes H D) →
      ∃ t', Tree.run (TreeHasher.ofHash H) t ops = .ok t' ∧
        TreeInv (bh H) t' (leafHashes H (D ++ ops.flatMap TreeOp.leaves)) by
    obtain ⟨t, e, i⟩ := h ops Tree.empty [] (by simpa [leafHashes] using TreeInv.empty (bh H))
    refine ⟨t, e, ?_, ?_⟩
    · have := i.root
      rw [← mth_eq_mthN] at this
      simpa using this
    · rw [i.size]; simp [leafHashes]
  intro ops
  induction ops with
  | nil => exact fun t D h => ⟨t, rfl, by simpa using h⟩
  | cons o ops ih =>
    intro t D h
    cases o with
    | append d =>
      obtain ⟨t1, v, q, _, hinv, heq⟩ := append_spec (bh H) h d
      obtain ⟨t', e, i⟩ := ih t1 (D ++ [d]) (by simpa [leafHashes, bh, TreeHasher.ofHash, leafInput] using hinv)
      refine ⟨t', ?_, by simpa [TreeOp.leaves] using i⟩
      rw [Tree.run, heq]; exact e
    | extend ds =>
      obtain ⟨t1, heq, hinv⟩ := extend_spec (bh H) h ds
      obtain ⟨t', e, i⟩ := ih t1 (D ++ ds) (by simpa [leafHashes, bh, TreeHasher.ofHash, leafInput] using hinv)
      refine ⟨t', ?_, by simpa [TreeOp.leaves] using i⟩
      rw [Tree.run, heq]; exact e

/-- The statement says something about a non-trivial run: five leaves. -/
example : ∃ t, Tree.run (TreeHasher.ofHash toyHash) Tree.empty
      [.append [1], .extend [[2], [3], [4]], .append [5]] = .ok t ∧ t.size = 5 := by
  obtain ⟨t, e, _, h⟩ := C01_tree_root toyHash [.append [1], .extend [[2], [3], [4]], .append [5]]
  exact ⟨t, e, h⟩

section ledger
variable {τ : Type} (H : Bytes → Bytes) (ser : τ → Bytes)

theorem new_inv : LedgerInv H ser (Ledger.new : Ledger τ) ⟨[], []⟩ :=
  ⟨rfl, StoreFull.empty H ser, MemInv.empty H ser, rfl, fun _ => ⟨rfl, rfl⟩, fun h => absurd rfl h⟩

/-- **C01** for the ledger itself, over every history of its public operations:
root and size are those of the committed transactions. -/
theorem C01_ledger_root (ops : List (LedgerOp τ)) (ha : LedgerState.AllAllowed ⟨[], []⟩ ops) :
    let l := Ledger.new.run H ser ops
    let s := LedgerState.run ⟨[], []⟩ ops
    l.mem.tree.rootHash (TreeHasher.ofHash H) = mth H (s.committed.map ser) ∧
    l.mem.tree.size = s.committed.length := by
  have h := run_spec H ser (new_inv H ser) ops ha
  exact ⟨h.mem.root, h.mem.size⟩

/-- **C02.** For every ledger history, every prefix size `n` and every
transaction in that prefix, the produced audit path is accepted by the verifier
against the RFC 6962 root of the prefix. -/
theorem C02_inclusion_complete (ops : List (LedgerOp τ)) (ha : LedgerState.AllAllowed ⟨[], []⟩ ops)
    (n i : Nat) (t : τ)
    (hn : n ≤ (LedgerState.run ⟨[], []⟩ ops).committed.length) (hi : i < n)
    (ht : (LedgerState.run ⟨[], []⟩ ops).committed[i]? = some t) :
    ∃ path, inclusionProof (TreeHasher.ofHash H) (Ledger.new.run H ser ops).disk.store i n = .ok path ∧
      verifyLeafInclusion (TreeHasher.ofHash H) (ser t) i path n
        (mth H (((LedgerState.run ⟨[], []⟩ ops).committed.take n).map ser)) = .ok true := by
  have h := run_spec H ser (new_inv H ser) ops ha
  generalize LedgerState.run ⟨[], []⟩ ops = s at *
  have hst := h.store
  refine ⟨_, inclusionProof_eq (bh H) hst (m := i) (n := n) (by omega) (by simpa using hn)
    (expectedNodeCount_mono (by simp; omega)), ?_⟩
  unfold verifyLeafInclusion verifyLeafHashInclusion
  rw [if_neg (by omega)]
  have hlen : ((lf H ser s.committed).take n).length = n := by simp; omega
  have hc := calcRoot_complete (bh H) ((lf H ser s.committed).take n) i (H (leafInput (ser t)))
    (by rw [List.getElem?_take_of_lt hi]; simp [lf, ht])
  rw [hlen] at hc
  have e : (TreeHasher.ofHash H).hashLeaf (ser t) = H (leafInput (ser t)) := rfl
  rw [e, hc]
  simp only
  rw [if_pos]
  rw [← mth_lf]
  simp [lf, List.map_take]

/-- `add`'s own answer (sequence number, root, audit path) is a proof a client
can check: the Merkle info returned when a transaction is added verifies. -/
theorem C02_add_info (ops : List (LedgerOp τ)) (ha : LedgerState.AllAllowed ⟨[], []⟩ ops) (t : τ) :
    ∃ l' info, (Ledger.new.run H ser ops).add H ser t = .ok (l', info) ∧
      info.seqNo = (LedgerState.run ⟨[], []⟩ ops).committed.length + 1 ∧
      info.rootHash = mth H (((LedgerState.run ⟨[], []⟩ ops).committed ++ [t]).map ser) ∧
      verifyLeafInclusion (TreeHasher.ofHash H) (ser t) (info.seqNo - 1) info.auditPath info.seqNo
        info.rootHash = .ok true := by
  have h := run_spec H ser (new_inv H ser) ops ha
  generalize LedgerState.run ⟨[], []⟩ ops = s at *
  obtain ⟨l', info, e, _, _, _, _, _, _, s1, s2, s3⟩ := Ledger.add_spec H ser h.log h.store h.mem t
  refine ⟨l', info, e, s1, s2, ?_⟩
  unfold verifyLeafInclusion verifyLeafHashInclusion
  rw [s1, s2, s3, if_neg (by omega)]
  have hlen : (lf H ser (s.committed ++ [t])).length = s.committed.length + 1 := by simp
  have hc := calcRoot_complete (bh H) (lf H ser (s.committed ++ [t])) s.committed.length (H (leafInput (ser t)))
    (by simp [lf])
  rw [hlen] at hc
  have e : (TreeHasher.ofHash H).hashLeaf (ser t) = H (leafInput (ser t)) := rfl
  rw [Nat.add_sub_cancel] at *
  rw [e, hc]
  simp only
  rw [if_pos (mth_lf H ser _)]

/-- What `auditProof(seqNo)` and `merkleInfo(seqNo)` answer verifies, for every
sequence number of the ledger. -/
theorem C02_audit_proof (ops : List (LedgerOp τ)) (ha : LedgerState.AllAllowed ⟨[], []⟩ ops)
    (seqNo : Nat) (t : τ) (h0 : 0 < seqNo)
    (ht : (LedgerState.run ⟨[], []⟩ ops).committed[seqNo - 1]? = some t) :
    (∃ root path size,
      auditProof H (Ledger.new.run H ser ops).disk (Ledger.new.run H ser ops).mem seqNo = .ok (root, path, size) ∧
      size = (LedgerState.run ⟨[], []⟩ ops).committed.length ∧
      root = mth H ((LedgerState.run ⟨[], []⟩ ops).committed.map ser) ∧
      verifyLeafInclusion (TreeHasher.ofHash H) (ser t) (seqNo - 1) path size root = .ok true) ∧
    (∃ root path, merkleInfo H (Ledger.new.run H ser ops).disk seqNo = .ok (root, path) ∧
      root = mth H (((LedgerState.run ⟨[], []⟩ ops).committed.take seqNo).map ser) ∧
      verifyLeafInclusion (TreeHasher.ofHash H) (ser t) (seqNo - 1) path seqNo root = .ok true) := by
  have h := run_spec H ser (new_inv H ser) ops ha
  have hlt := (List.getElem?_eq_some_iff.1 ht).1
  have hroot : ∀ n, 0 < n → n ≤ (LedgerState.run ⟨[], []⟩ ops).committed.length →
      merkleTreeHash (TreeHasher.ofHash H) (Ledger.new.run H ser ops).disk.store 0 n =
        .ok (mth H (((LedgerState.run ⟨[], []⟩ ops).committed.take n).map ser)) := by
    intro n hn0 hn
    obtain ⟨j, hj⟩ := exists_pow_ge n
    have := merkleTreeHash_eq (bh H) h.store (a := 0) (b := n) (j := j) hn0 (by simpa using hn)
      (expectedNodeCount_mono (by omega)) (Nat.dvd_zero _) (by omega)
    rw [← mth_lf]
    simpa [lf, List.map_take] using this
  constructor
  · obtain ⟨path, e, v⟩ := C02_inclusion_complete H ser ops ha
      (LedgerState.run ⟨[], []⟩ ops).committed.length (seqNo - 1) t (Nat.le_refl _) hlt ht
    refine ⟨_, path, _, ?_, rfl, rfl, by simpa using v⟩
    unfold auditProof
    rw [if_neg (by omega), h.mem.size, hroot _ (by omega) (Nat.le_refl _), e]
    simp
  · obtain ⟨path, e, v⟩ := C02_inclusion_complete H ser ops ha seqNo (seqNo - 1) t (by omega) (by omega) ht
    refine ⟨_, path, ?_, rfl, v⟩
    unfold merkleInfo
    rw [if_neg (by omega), hroot _ (by omega) (by omega), e]

/-- **C04.** The consistency proof produced between any two sizes of any ledger
is accepted for the true roots. -/
theorem C04_consistency_complete (ops : List (LedgerOp τ)) (ha : LedgerState.AllAllowed ⟨[], []⟩ ops)
    (m n : Nat) (hm : 0 < m) (hmn : m ≤ n)
    (hn : n ≤ (LedgerState.run ⟨[], []⟩ ops).committed.length) :
    ∃ proof, consistencyProof (TreeHasher.ofHash H) (Ledger.new.run H ser ops).disk.store m n = .ok proof ∧
      verifyTreeConsistency (TreeHasher.ofHash H) m n
        (mth H (((LedgerState.run ⟨[], []⟩ ops).committed.take m).map ser))
        (mth H (((LedgerState.run ⟨[], []⟩ ops).committed.take n).map ser)) proof = .ok true := by
  have h := run_spec H ser (new_inv H ser) ops ha
  generalize LedgerState.run ⟨[], []⟩ ops = s at *
  refine ⟨_, consistencyProof_eq (bh H) h.store (m := m) (n := n) hm hmn (by simpa using hn)
    (expectedNodeCount_mono (by omega)), ?_⟩
  unfold verifyTreeConsistency
  rw [if_neg (by omega)]
  by_cases he : m = n
  · subst he; simp
  · rw [if_neg he, if_neg (by omega)]
    have hlen : ((lf H ser s.committed).take n).length = n := by simp; omega
    have hc := consHashes_complete (bh H) ((lf H ser s.committed).take n) m [] hm (by omega)
    rw [hlen, List.append_nil] at hc
    have e1 : mthN (bh H) (((lf H ser s.committed).take n).take m) = mth H ((s.committed.take m).map ser) := by
      rw [List.take_take, Nat.min_eq_left hmn, ← mth_lf]; simp [lf, List.map_take]
    have e2 : mthN (bh H) ((lf H ser s.committed).take n) = mth H ((s.committed.take n).map ser) := by
      rw [← mth_lf]; simp [lf, List.map_take]
    rw [e1, e2] at hc
    simp only [hc]
    simp

/-- **C06.** In every ledger history the hash store holds exactly one hash per
transaction and one per full interior subtree, and answers the tree head of
every prefix. -/
theorem C06_historic_heads (ops : List (LedgerOp τ)) (ha : LedgerState.AllAllowed ⟨[], []⟩ ops) :
    let store := (Ledger.new.run H ser ops).disk.store
    let log := (LedgerState.run ⟨[], []⟩ ops).committed
    store.leaves.length = log.length ∧
    store.nodes.length = expectedNodeCount log.length ∧
    ∀ n, 0 < n → n ≤ log.length →
      merkleTreeHash (TreeHasher.ofHash H) store 0 n = .ok (mth H ((log.take n).map ser)) := by
  have h := run_spec H ser (new_inv H ser) ops ha
  generalize LedgerState.run ⟨[], []⟩ ops = s at *
  refine ⟨by rw [h.store.leaves]; simp, h.store.count, ?_⟩
  intro n hn0 hn
  obtain ⟨j, hj⟩ := exists_pow_ge n
  have := merkleTreeHash_eq (bh H) h.store (a := 0) (b := n) (j := j) hn0 (by simpa using hn)
    (expectedNodeCount_mono (by omega)) (Nat.dvd_zero _) (by omega)
  rw [← mth_lf]
  simpa [lf, List.map_take] using this

end ledger

/-- **C06.** Full subtrees of a tree of any size are stored at distinct
positions, which are exactly `1 … expectedNodeCount n`: two (end, height) pairs
of full subtrees have the same position only if they are the same pair. -/
theorem C06_positions_distinct {n h n' h' : Nat} (hn : 0 < n) (hh : 0 < h) (hd : 2 ^ h ∣ n)
    (hn' : 0 < n') (hh' : 0 < h') (hd' : 2 ^ h' ∣ n')
    (he : getNodePosition n h = getNodePosition n' h') : n = n' ∧ h = h' := by
  have p1 := position_le hn hh hd
  have p2 := position_le hn' hh' hd'
  have e1 := getNodePosition_eq n h hn hh
  have e2 := getNodePosition_eq n' h' hn' hh'
  rcases Nat.lt_trichotomy n n' with hlt | heq | hgt
  · have := expectedNodeCount_mono (show n ≤ n' - 1 by omega); omega
  · subst heq; omega
  · have := expectedNodeCount_mono (show n' ≤ n - 1 by omega); omega

/-- Positions 1, 3, 2 of a tree of four leaves: hypotheses are met. -/
example : getNodePosition 4 1 ≠ getNodePosition 4 2 ∧ getNodePosition 2 1 ≠ getNodePosition 4 1 := by
  constructor <;> intro h
  · have := (C06_positions_distinct (n := 4) (h := 1) (n' := 4) (h' := 2) (by decide) (by decide) ⟨2, rfl⟩ (by decide) (by decide) ⟨1, rfl⟩ h).2
    omega
  · have := (C06_positions_distinct (n := 2) (h := 1) (n' := 4) (h' := 1) (by decide) (by decide) ⟨1, rfl⟩ (by decide) (by decide) ⟨2, rfl⟩ h).1
    omega

/-- A history used in the examples: five transactions, two of them staged. -/
def exampleOps : List (LedgerOp Bytes) :=
  [.add [1], .append [[2], [3], [4]], .commit 2, .append [[5]], .discard 1, .commit 1, .restart,
   .append [[6], [7], [8]], .commit 1]

theorem exampleOps_allowed : LedgerState.AllAllowed ⟨[], []⟩ exampleOps := by
  simp [exampleOps, LedgerState.AllAllowed, LedgerState.Allowed, LedgerState.step]

theorem exampleOps_result : LedgerState.run ⟨[], []⟩ exampleOps = ⟨[[1], [2], [3], [4], [6]], [[7], [8]]⟩ := by
  simp [exampleOps, LedgerState.run, LedgerState.step]

example : ∃ path, inclusionProof (TreeHasher.ofHash toyHash) (Ledger.new.run toyHash id exampleOps).disk.store 2 5
    = .ok path ∧ verifyLeafInclusion (TreeHasher.ofHash toyHash) [3] 2 path 5
        (mth toyHash [[1], [2], [3], [4], [6]]) = .ok true := by
  have := C02_inclusion_complete toyHash id exampleOps exampleOps_allowed 5 2 [3]
    (by rw [exampleOps_result]; simp) (by decide) (by rw [exampleOps_result]; rfl)
  rw [exampleOps_result] at this
  simpa using this

example : ∃ proof, consistencyProof (TreeHasher.ofHash toyHash) (Ledger.new.run toyHash id exampleOps).disk.store 3 5
    = .ok proof ∧ verifyTreeConsistency (TreeHasher.ofHash toyHash) 3 5 (mth toyHash [[1], [2], [3]])
        (mth toyHash [[1], [2], [3], [4], [6]]) proof = .ok true := by
  have := C04_consistency_complete toyHash id exampleOps exampleOps_allowed 3 5 (by decide) (by decide)
    (by rw [exampleOps_result]; simp)
  rw [exampleOps_result] at this
  simpa using this

theorem map_pair_nil (p : List Bytes) : (p.map (fun b => (b, ([] : List Bytes)))).map Prod.fst = p := by
  rw [List.map_map]; simp [Function.comp_def]

/-- **C03.** If the verifier accepts *any* audit path for `leaf` at `idx`
against the root and size of a log `D`, then `leaf` really is entry `idx` of
`D`, or a string hashed by this very run of the verifier collides with a
different string hashed in building the root of `D`. -/
theorem C03_inclusion_sound (H : Bytes → Bytes) (d : Nat) (hd : ∀ x, (H x).length = d)
    (D : List Bytes) (leaf : Bytes) (idx : Nat) (proof : List Bytes)
    (hv : verifyLeafInclusion (TreeHasher.ofHash H) leaf idx proof D.length (mth H D) = .ok true) :
    D[idx]? = some leaf ∨ Collision H (inclusionLog H leaf idx proof D.length) (mthInputs H D) := by
  unfold verifyLeafInclusion verifyLeafHashInclusion at hv
  split at hv
  · cases hv
  · rename_i hidx
    split at hv
    · cases hv
    · rename_i r hr
      split at hv
      · rename_i hroot
        have hmap := calcRoot_map (th := lh H) (th' := bh H) Prod.fst (fun _ _ => rfl)
          ((lh H).hashLeaf leaf) idx (D.length - 1) (proof.map (fun b => (b, [])))
        rw [map_pair_nil] at hmap
        have e0 : ((lh H).hashLeaf leaf).1 = (TreeHasher.ofHash H).hashLeaf leaf := rfl
        rw [e0, hr] at hmap
        obtain ⟨r', hr', hrr⟩ : ∃ r', calcRoot (lh H) ((lh H).hashLeaf leaf) idx (D.length - 1)
            (proof.map (fun b => (b, []))) = some r' ∧ r'.1 = r := by
          cases hcr : calcRoot (lh H) ((lh H).hashLeaf leaf) idx (D.length - 1)
            (proof.map (fun b => (b, []))) with
          | none => rw [hcr] at hmap; cases hmap
          | some r' => rw [hcr] at hmap; exact ⟨r', rfl, by simpa using hmap.symm⟩
        have hs := calcRoot_sound H hd (D.length - 1) idx _ r' _ (leafHashes H D)
          (by simp [leafHashes]; omega) (by omega)
          (by intro y hy; obtain ⟨x, _, rfl⟩ := List.mem_map.1 hy; exact hd _) (hd _) hr'
        have hlog : inclusionLog H leaf idx proof D.length = r'.2 := by
          unfold inclusionLog; rw [hr']
        rw [hlog]
        rcases hs.2 (by rw [hrr, hroot, mth_eq_mthN]) with e | e
        · -- the leaf hashes agree
          simp only [leafHashes, List.getElem?_map, Option.map_eq_some_iff] at e
          obtain ⟨y, hy, e⟩ := e
          by_cases hyl : y = leaf
          · left; rw [hy, hyl]
          · right
            refine ⟨leafInput leaf, hs.1 _ (by simp [TreeHasher.logged, leafInput]), leafInput y,
              leafInput_mem H D y (List.mem_of_getElem? hy), ?_, ?_⟩
            · intro h; simp only [leafInput, List.cons.injEq, true_and] at h; exact hyl h.symm
            · exact e.symm
        · exact .inr (collision_mono H e (fun _ h => h) (nodeInputs_subset H D))
      · cases hv

/-- The hypothesis of C03 is met by a genuine proof in a log of five entries. -/
example : ∃ proof, verifyLeafInclusion (TreeHasher.ofHash toyHash) [3] 2 proof 5
    (mth toyHash [[1], [2], [3], [4], [6]]) = .ok true := by
  have := C02_inclusion_complete toyHash id exampleOps exampleOps_allowed 5 2 [3]
    (by rw [exampleOps_result]; simp) (by decide) (by rw [exampleOps_result]; rfl)
  rw [exampleOps_result] at this
  obtain ⟨p, _, h⟩ := this
  exact ⟨p, by simpa using h⟩

/-- **C05.** If the verifier accepts *any* consistency proof between the roots
of two logs, the smaller is a prefix of the larger, or two of the strings
hashed (by this run, or in building the roots of the two logs and of the
first `D.length` entries of the larger) collide. -/
theorem C05_consistency_sound (H : Bytes → Bytes) (d : Nat) (hd : ∀ x, (H x).length = d)
    (D D' : List Bytes) (proof : List Bytes)
    (hv : verifyTreeConsistency (TreeHasher.ofHash H) D.length D'.length (mth H D) (mth H D') proof
      = .ok true) :
    D <+: D' ∨ Collision H (consistencyLog H D.length D'.length (mth H D) proof ++ mthInputs H D)
      (mthInputs H D ++ mthInputs H D' ++ mthInputs H (D'.take D.length)) := by
  have hfix : ∀ D : List Bytes, ∀ y ∈ leafHashes H D, y.length = d := by
    intro D y hy; obtain ⟨x, _, rfl⟩ := List.mem_map.1 hy; exact hd _
  unfold verifyTreeConsistency at hv
  split at hv
  · cases hv
  · split at hv
    · rename_i hlen
      split at hv
      · rename_i heq
        rcases mth_inj H hd D D' hlen heq with e | e
        · left; rw [e]; exact List.prefix_refl _
        · right; exact collision_mono H e (by simp; exact fun x h => .inr h)
            (by simp; exact fun x h => .inr (.inl h))
      · cases hv
    · split at hv
      · rename_i h0
        left; rw [List.length_eq_zero_iff.1 h0]; exact List.nil_prefix
      · split at hv
        · cases hv
        · rename_i hgt hne h0 _ oh nh hr
          split at hv
          · cases hv
          · split at hv
            · cases hv
            · rename_i hn ho
              have hn' : nh = mth H D' := Decidable.not_not.1 hn
              have ho' : oh = mth H D := Decidable.not_not.1 ho
              have hmap := consHashes_map (th := lh H) (th' := bh H) Prod.fst (fun _ _ => rfl)
                D.length D'.length (mth H D, []) (proof.map (fun b => (b, [])))
              rw [map_pair_nil] at hmap
              rw [show consHashes (bh H) D.length D'.length (mth H D, ([] : List Bytes)).1 proof = some (oh, nh) from hr] at hmap
              cases hcr : consHashes (lh H) D.length D'.length (mth H D, []) (proof.map (fun b => (b, []))) with
              | none => rw [hcr] at hmap; cases hmap
              | some r =>
                rw [hcr] at hmap
                simp only [Option.map_some, Option.some.injEq, Prod.mk.injEq] at hmap
                have hlog : consistencyLog H D.length D'.length (mth H D) proof = r.1.2 ++ r.2.2 := by
                  unfold consistencyLog; rw [hcr]
                rw [hlog]
                have l1 : (leafHashes H D).length = D.length := by simp [leafHashes]
                have l2 : (leafHashes H D').length = D'.length := by simp [leafHashes]
                have hs := consHashes_sound H hd (leafHashes H D) (leafHashes H D') r
                  (proof.map (fun b => (b, []))) []
                  (by omega) (by omega) (hfix D') (hfix D)
                  (by rw [l1, l2, ← mth_eq_mthN]; exact hcr)
                  (by rw [← mth_eq_mthN, ← hmap.1, ho']) (by rw [← mth_eq_mthN, ← hmap.2, hn'])
                rcases hs with e | e
                · rw [l1, show (leafHashes H D').take D.length = leafHashes H (D'.take D.length) by
                    simp [leafHashes, List.map_take]] at e
                  rw [← mth_eq_mthN, ← mth_eq_mthN] at e
                  rcases mth_inj H hd D (D'.take D.length) (by simp; omega) e with e | e
                  · left; rw [e]; exact List.take_prefix _ _
                  · right; exact collision_mono H e (by simp; exact fun x h => .inr (.inr h))
                      (by simp; exact fun x h => .inr (.inr h))
                · right
                  refine collision_mono H e ?_ ?_
                  · intro x hx; simp only [List.mem_append] at hx ⊢; exact .inl hx
                  · intro x hx
                    simp only [List.mem_append] at hx ⊢
                    exact .inl (hx.imp (nodeInputs_subset H D x) (nodeInputs_subset H D' x))

/-- The hypothesis of C05 is met by a genuine proof from three to five entries. -/
example : ∃ proof, verifyTreeConsistency (TreeHasher.ofHash toyHash) 3 5 (mth toyHash [[1], [2], [3]])
        (mth toyHash [[1], [2], [3], [4], [6]]) proof = .ok true := by
  have := C04_consistency_complete toyHash id exampleOps exampleOps_allowed 3 5 (by decide) (by decide)
    (by rw [exampleOps_result]; simp)
  rw [exampleOps_result] at this
  obtain ⟨p, _, h⟩ := this
  exact ⟨p, by simpa using h⟩

end Verif.Props
