import Verif.Proofs.ViewChangeService
import Verif.Proofs.Count
import Verif.Props.NewView
/-! What is computed from VIEW_CHANGEs that fit together. -/
namespace Verif.VC

/-- VIEW_CHANGEs among which those of `L` fit together. -/
structure FitIn (n : Nat) (nvs : List (Node × ViewChange)) (L : List Node) (vc : Node → ViewChange) (c : Checkpoint) : Prop where
  nodup : L.Nodup
  many : n - getMaxFailures n ≤ L.length
  mem : ∀ i ∈ L, (i, vc i) ∈ nvs
  listed : ∀ i ∈ L, c ∈ (vc i).checkpoints
  stable : ∀ i ∈ L, (vc i).stableCheckpoint ≤ c.seqNoEnd
  same : ∀ i ∈ L, ∀ j ∈ L, ∀ b ∈ (vc i).prepared, ∀ b' ∈ (vc j).prepared, c.seqNoEnd < b.ppSeqNo →
    b'.ppSeqNo = b.ppSeqNo → b'.viewNo = b.viewNo → b'.ppDigest = b.ppDigest ∧ b'.ppViewNo = b.ppViewNo
  backed : ∀ i ∈ L, ∀ b ∈ (vc i).prepared, c.seqNoEnd < b.ppSeqNo → ∃ Q : List Node, Q.Nodup ∧
    getMaxFailures n + 1 ≤ Q.length ∧ ∀ j ∈ Q, j ∈ L ∧ ∃ b' ∈ (vc j).preprepared,
      b'.ppSeqNo = b.ppSeqNo ∧ b'.ppViewNo = b.ppViewNo ∧ b'.ppDigest = b.ppDigest ∧ b.viewNo ≤ b'.viewNo

variable {n : Nat} {nvs : List (Node × ViewChange)} {L : List Node} {vc : Node → ViewChange} {c : Checkpoint}

theorem witnesses_ge {Q : List Node} (hQ : Q.Nodup) (hm : ∀ i ∈ Q, (i, vc i) ∈ nvs) {check : ViewChange → Bool}
    (h : ∀ i ∈ Q, check (vc i) = true) : Q.length ≤ witnesses (msgs nvs) check := by
  rw [← passing_length]
  exact length_le_of_subset hQ (fun i hi => mem_passing.2 ⟨_, hm i hi, h i hi⟩)

theorem FitIn.strong (h : FitIn n nvs L vc c) {check : ViewChange → Bool} (hc : ∀ i ∈ L, check (vc i) = true) :
    (Quorums.ofN n).strong.isReached (witnesses (msgs nvs) check) = true := by
  have := witnesses_ge h.nodup h.mem hc
  have := h.many
  simp only [Quorum.isReached, Quorums.ofN, ge_iff_le, decide_eq_true_eq]
  omega

/-- A checkpoint is found, not below the common one. -/
theorem FitIn.checkpoint (h : FitIn n nvs L vc c) (hn : 0 < n) :
    ∃ cp, calcCheckpoint (Quorums.ofN n) (msgs nvs) = some cp ∧ c.seqNoEnd ≤ cp.seqNoEnd := by
  have hs : Props.Startable n (msgs nvs) c := by
    rw [← Props.cpCandidate_iff]
    unfold cpCandidate
    rw [h.strong, h.strong]
    · rfl
    · intro i hi; simpa using h.listed i hi
    · intro i hi; simpa using h.stable i hi
  obtain ⟨h1, h2⟩ := Props.C63_checkpoint_chosen n hn (msgs nvs)
  obtain ⟨cp, hcp⟩ := h2 ⟨c, hs⟩
  exact ⟨cp, hcp, (h1 cp hcp).2 c hs⟩

theorem exists_max (l : List BatchID) (h : l ≠ []) : ∃ b ∈ l, ∀ b' ∈ l, b'.viewNo ≤ b.viewNo := by
  induction l with
  | nil => exact absurd rfl h
  | cons a l ih =>
    by_cases hl : l = []
    · subst hl; exact ⟨a, by simp, by simp⟩
    · obtain ⟨b, h1, h2⟩ := ih hl
      by_cases hab : a.viewNo ≤ b.viewNo
      · exact ⟨b, List.mem_cons_of_mem _ h1, fun x hx => by
          rcases List.mem_cons.1 hx with e | hx
          · rw [e]; exact hab
          · exact h2 x hx⟩
      · exact ⟨a, List.mem_cons_self, fun x hx => by
          rcases List.mem_cons.1 hx with e | hx
          · rw [e]; exact Nat.le_refl _
          · have := h2 x hx; omega⟩

/-- Each place above the checkpoint is settled: by a batch or as empty. -/
theorem FitIn.place (h : FitIn n nvs L vc c) {s : Nat} (hs : c.seqNoEnd < s) :
    (∃ b, tryFindBatch (Quorums.ofN n) (msgs nvs) s = some b) ∨ checkNullBatch (Quorums.ofN n) (msgs nvs) s = true := by
  by_cases hex : (L.flatMap (fun i => (vc i).prepared)).filter (fun b => b.ppSeqNo = s) = []
  · right
    unfold checkNullBatch
    apply h.strong
    intro i hi
    have := h.stable i hi
    simp only [Bool.and_eq_true, Bool.not_eq_true', decide_eq_false_iff_not, List.all_eq_true, decide_eq_true_eq]
    refine ⟨by omega, fun b hb e => ?_⟩
    have : b ∈ (L.flatMap (fun i => (vc i).prepared)).filter (fun b => b.ppSeqNo = s) :=
      List.mem_filter.2 ⟨List.mem_flatMap.2 ⟨i, hi, hb⟩, by simpa using e⟩
    rw [hex] at this
    cases this
  · left
    obtain ⟨b, b1, b2⟩ := exists_max _ hex
    obtain ⟨b3, b4⟩ := List.mem_filter.1 b1
    obtain ⟨i, hi, hb⟩ := List.mem_flatMap.1 b3
    have b4 : b.ppSeqNo = s := of_decide_eq_true b4
    suffices hf : (tryFindBatch (Quorums.ofN n) (msgs nvs) s).isSome from Option.isSome_iff_exists.1 hf
    unfold tryFindBatch
    rw [List.find?_isSome]
    refine ⟨b, List.mem_flatMap.2 ⟨vc i, List.mem_map.2 ⟨_, h.mem i hi, rfl⟩, hb⟩, ?_⟩
    rw [Bool.and_eq_true, Bool.and_eq_true]
    refine ⟨⟨by simpa using b4, ?_⟩, ?_⟩
    · unfold isBatchPrepared
      apply h.strong
      intro j hj
      have := h.stable j hj
      simp only [Bool.and_eq_true, Bool.not_eq_true', decide_eq_false_iff_not, List.all_eq_true]
      refine ⟨by omega, fun b' hb' => ?_⟩
      by_cases e : b'.ppSeqNo = b.ppSeqNo
      · have hle := b2 b' (List.mem_filter.2 ⟨List.mem_flatMap.2 ⟨j, hj, hb'⟩, by simp [e, b4]⟩)
        rw [if_neg (fun x => x e), if_neg (by omega)]
        by_cases ev : b'.viewNo = b.viewNo
        · obtain ⟨e1, e2⟩ := h.same i hi j hj b hb b' hb' (by omega) e ev
          simp [e1, e2]
        · have hlt : ¬ b'.viewNo ≥ b.viewNo := by omega
          simp [hlt]
      · simp [e]
    · obtain ⟨Q, q1, q2, q3⟩ := h.backed i hi b hb (by omega)
      unfold isBatchPreprepared
      have hw := witnesses_ge (nvs := nvs) (vc := vc) q1 (fun j hj => h.mem j (q3 j hj).1)
        (check := fun vc => vc.preprepared.any (fun some_bid =>
          some_bid.ppSeqNo = b.ppSeqNo && some_bid.ppViewNo = b.ppViewNo &&
          some_bid.ppDigest = b.ppDigest && some_bid.viewNo ≥ b.viewNo))
        (fun j hj => by
          obtain ⟨b', x1, x2, x3, x4, x5⟩ := (q3 j hj).2
          rw [List.any_eq_true]
          exact ⟨b', x1, by simp [x2, x3, x4, x5]⟩)
      exact decide_eq_true (Nat.le_trans q2 hw)

/-- So the batches are determined. -/
theorem FitIn.batches (h : FitIn n nvs L vc c) (logSize : Nat) {cp : Checkpoint} (hc : c.seqNoEnd ≤ cp.seqNoEnd) :
    ∃ bs, calcBatches (Quorums.ofN n) logSize cp (msgs nvs) = some bs := by
  have key : ∀ k s acc, c.seqNoEnd < s → ∃ bs, batchLoop (Quorums.ofN n) (msgs nvs) k s acc = some bs := by
    intro k
    induction k with
    | zero => intro s acc _; exact ⟨acc, rfl⟩
    | succ k ih =>
      intro s acc hs
      unfold batchLoop
      rcases h.place hs with ⟨b, hb⟩ | hb
      · rw [hb]; exact ih _ _ (by omega)
      · cases tryFindBatch (Quorums.ofN n) (msgs nvs) s with
        | some b => exact ih _ _ (by omega)
        | none => exact ⟨acc, by simp [hb]⟩
  obtain ⟨bs, hb⟩ := key logSize (cp.seqNoEnd + 1) [] (by omega)
  exact ⟨sortBids bs, by unfold calcBatches; rw [hb]; rfl⟩

/-- The checkpoint does not depend on the order, if no two that could be chosen
end at the same place. -/
theorem calcCheckpoint_perm (hn : 0 < n) {vcs vcs' : List ViewChange} (hp : vcs.Perm vcs') {cp : Checkpoint}
    (hu : ∀ a b, Props.Startable n vcs a → Props.Startable n vcs b → a.seqNoEnd = b.seqNoEnd → a = b)
    (h : calcCheckpoint (Quorums.ofN n) vcs = some cp) : calcCheckpoint (Quorums.ofN n) vcs' = some cp := by
  have hS : ∀ a, Props.Startable n vcs' a ↔ Props.Startable n vcs a := by
    intro a; unfold Props.Startable
    rw [hp.countP_eq, hp.countP_eq]
  obtain ⟨a1, -⟩ := Props.C63_checkpoint_chosen n hn vcs
  obtain ⟨b1, b2⟩ := Props.C63_checkpoint_chosen n hn vcs'
  obtain ⟨x1, x2⟩ := a1 cp h
  obtain ⟨cp', hcp'⟩ := b2 ⟨cp, (hS cp).2 x1⟩
  obtain ⟨y1, y2⟩ := b1 cp' hcp'
  have : cp' = cp := hu _ _ ((hS _).1 y1) x1
    (Nat.le_antisymm (x2 _ ((hS _).1 y1)) (y2 _ ((hS _).2 x1)))
  rw [hcp', this]

end Verif.VC
