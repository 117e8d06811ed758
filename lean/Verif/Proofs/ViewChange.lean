import Verif.Model.ViewChange
import Verif.Proofs.Count
/-! Facts about the view change model. -/
namespace Verif.VC

/-! ### Sorting keeps the members -/

theorem mem_insertBid {b x : BatchID} {l : List BatchID} : x ∈ insertBid b l ↔ x = b ∨ x ∈ l := by
  induction l with
  | nil => simp [insertBid]
  | cons c l ih =>
    unfold insertBid
    split
    · simp
    · simp only [List.mem_cons, ih]; grind

theorem mem_sortBids {x : BatchID} {l : List BatchID} : x ∈ sortBids l ↔ x ∈ l := by
  induction l with
  | nil => simp [sortBids]
  | cons c l ih => simp [sortBids, mem_insertBid, ih]

/-! ### Votes by name -/

/-- The messages of a list of (name, message) pairs. -/
abbrev msgs (nvs : List (Node × ViewChange)) : List ViewChange := nvs.map Prod.snd

/-- The names whose message satisfies a check. -/
def passing (nvs : List (Node × ViewChange)) (check : ViewChange → Bool) : List Node :=
  (nvs.filter (fun e => check e.2)).map Prod.fst

theorem passing_length (nvs : List (Node × ViewChange)) (check : ViewChange → Bool) :
    (passing nvs check).length = witnesses (msgs nvs) check := by
  unfold passing witnesses msgs
  induction nvs with
  | nil => rfl
  | cons e l ih =>
    simp only [List.map_cons, List.filter_cons]
    cases check e.2 <;> simp_all

theorem passing_nodup {nvs : List (Node × ViewChange)} (h : (nvs.map Prod.fst).Nodup) (check : ViewChange → Bool) :
    (passing nvs check).Nodup :=
  h.sublist (List.filter_sublist.map _)

theorem mem_passing {nvs : List (Node × ViewChange)} {check : ViewChange → Bool} {x : Node} :
    x ∈ passing nvs check ↔ ∃ vc, (x, vc) ∈ nvs ∧ check vc = true := by
  unfold passing
  simp only [List.mem_map, List.mem_filter]
  constructor
  · rintro ⟨⟨a, vc⟩, ⟨h1, h2⟩, rfl⟩; exact ⟨vc, h1, h2⟩
  · rintro ⟨vc, h1, h2⟩; exact ⟨(x, vc), ⟨h1, h2⟩, rfl⟩

/-- What the loop collects: the accumulator, then consecutive finds. -/
theorem batchLoop_spec (q : Quorums) (vcs : List ViewChange) :
    ∀ (k s : Nat) (acc out : List BatchID), batchLoop q vcs k s acc = some out →
      ∃ new : List BatchID, out = acc ++ new ∧ new.length ≤ k ∧
        (∀ i (h : i < new.length), tryFindBatch q vcs (s + i) = some new[i]) ∧
        (new.length < k → tryFindBatch q vcs (s + new.length) = none ∧
          checkNullBatch q vcs (s + new.length) = true) := by
  intro k
  induction k with
  | zero =>
    intro s acc out h
    simp only [batchLoop, Option.some.injEq] at h
    exact ⟨[], by simp [h], Nat.le_refl _, fun i h => by simp at h, fun h => by simp at h⟩
  | succ k ih =>
    intro s acc out h
    unfold batchLoop at h
    split at h
    · next bid hb =>
      obtain ⟨new, h1, h2, h3, h4⟩ := ih _ _ _ h
      refine ⟨bid :: new, by simp [h1], by simp; omega, ?_, ?_⟩
      · intro i hi
        cases i with
        | zero => simpa using hb
        | succ i =>
          have := h3 i (by simpa using hi)
          rw [show s + (i + 1) = s + 1 + i by omega]
          simpa using this
      · intro hl
        have := h4 (by simpa using hl)
        rw [show s + (bid :: new).length = s + 1 + new.length by simp; omega]
        exact this
    · next hb =>
      split at h
      · next hn =>
        simp only [Option.some.injEq] at h
        exact ⟨[], by simp [h], by simp, fun i h => by simp at h, fun _ => ⟨by simpa using hb, by simpa using hn⟩⟩
      · simp at h

/-- Membership in the result of `calc_batches`. -/
theorem calcBatches_spec {q : Quorums} {L : Nat} {cp : Checkpoint} {vcs : List ViewChange} {bs : List BatchID}
    (h : calcBatches q L cp vcs = some bs) :
    ∃ new : List BatchID, (∀ b, b ∈ bs ↔ b ∈ new) ∧ new.length ≤ L ∧
      (∀ i (h : i < new.length), tryFindBatch q vcs (cp.seqNoEnd + 1 + i) = some new[i]) ∧
      (new.length < L → tryFindBatch q vcs (cp.seqNoEnd + 1 + new.length) = none ∧
          checkNullBatch q vcs (cp.seqNoEnd + 1 + new.length) = true) := by
  unfold calcBatches at h
  simp only [Option.map_eq_some_iff] at h
  obtain ⟨out, h1, h2⟩ := h
  obtain ⟨new, e, a, b, c⟩ := batchLoop_spec q vcs _ _ _ _ h1
  refine ⟨new, fun x => ?_, a, b, c⟩
  rw [← h2, mem_sortBids, e]; simp

theorem tryFindBatch_some {q : Quorums} {vcs : List ViewChange} {s : Nat} {b : BatchID}
    (h : tryFindBatch q vcs s = some b) :
    (∃ vc ∈ vcs, b ∈ vc.prepared) ∧ b.ppSeqNo = s ∧ isBatchPrepared q vcs b = true ∧ isBatchPreprepared q vcs b = true := by
  unfold tryFindBatch at h
  have h1 := List.mem_of_find?_eq_some h
  have h2 := List.find?_some h
  simp only [Bool.and_eq_true, decide_eq_true_eq] at h2
  simp only [List.mem_flatMap] at h1
  exact ⟨h1, h2.1.1, h2.1.2, h2.2⟩

end Verif.VC

namespace Verif.VC

/-- In the VIEW_CHANGEs `nvs` (by sender) the batch with digest `d` at sequence
number `s` is locked since view `v`: at least `n - 2f` honest nodes (as many as
are honest in any commit quorum) report it prepared in view `v` or later, or
have a stable checkpoint at or above it; and no honest node pre-prepared
another batch at `s` in a later view. Nothing is asked of nodes in `bad`. -/
structure Locked (n : Nat) (bad : List Node) (nvs : List (Node × ViewChange)) (v s d : Nat) : Prop where
  committed : ∃ C : List Node, C.Nodup ∧ n - 2 * getMaxFailures n ≤ C.length ∧
    ∀ x ∈ C, x < n ∧ x ∉ bad ∧ ∀ vc, (x, vc) ∈ nvs →
      s ≤ vc.stableCheckpoint ∨ ∃ b ∈ vc.prepared, b.ppSeqNo = s ∧ b.ppDigest = d ∧ v ≤ b.viewNo
  noConflict : ∀ x vc, (x, vc) ∈ nvs → x ∉ bad →
    ∀ b ∈ vc.preprepared, b.ppSeqNo = s → v < b.viewNo → b.ppDigest = d

theorem three_f (n : Nat) (h : 0 < n) : 3 * getMaxFailures n < n := by
  unfold getMaxFailures; split <;> omega

variable {n : Nat} {bad : List Node} {nvs : List (Node × ViewChange)} {v s d : Nat}

/-- A strong quorum of VIEW_CHANGEs passing a check includes one of a locking
node. -/
theorem Locked.strong (h : Locked n bad nvs v s d) (hn : 0 < n) (hd : (nvs.map Prod.fst).Nodup)
    (hlt : ∀ e ∈ nvs, e.1 < n) {check : ViewChange → Bool}
    (hq : (Quorums.ofN n).strong.isReached (witnesses (msgs nvs) check) = true) :
    ∃ x vc, (x, vc) ∈ nvs ∧ check vc = true ∧
      (s ≤ vc.stableCheckpoint ∨ ∃ b ∈ vc.prepared, b.ppSeqNo = s ∧ b.ppDigest = d ∧ v ≤ b.viewNo) := by
  obtain ⟨C, c1, c2, c3⟩ := h.committed
  have h3 := three_f n hn
  rw [← passing_length] at hq
  simp only [Quorum.isReached, Quorums.ofN, ge_iff_le, decide_eq_true_eq] at hq
  obtain ⟨x, hx, hC, -⟩ := intersect_outside (U := List.range n) (F := ([] : List Node))
    (passing_nodup hd check) c1
    (fun x hx => by
      obtain ⟨vc, h1, -⟩ := mem_passing.1 hx
      exact List.mem_range.2 (hlt _ h1))
    (fun x hx => List.mem_range.2 (c3 x hx).1)
    (by rw [List.length_range]; simp; omega)
  obtain ⟨vc, h1, h2⟩ := mem_passing.1 hx
  exact ⟨x, vc, h1, h2, (c3 x hC).2.2 vc h1⟩

/-- A locked sequence number is not taken for empty. -/
theorem Locked.not_null (h : Locked n bad nvs v s d) (hn : 0 < n) (hd : (nvs.map Prod.fst).Nodup)
    (hlt : ∀ e ∈ nvs, e.1 < n) : checkNullBatch (Quorums.ofN n) (msgs nvs) s = false := by
  rw [Bool.eq_false_iff]
  intro hq
  obtain ⟨x, vc, -, h2, h3⟩ := h.strong hn hd hlt hq
  simp only [Bool.and_eq_true, Bool.not_eq_true', decide_eq_false_iff_not, List.all_eq_true, decide_eq_true_eq] at h2
  rcases h3 with h3 | ⟨b, b1, b2, -⟩
  · exact h2.1 h3
  · exact h2.2 b b1 b2

/-- Any batch the builder selects at a locked sequence number is the locked
one. -/
theorem Locked.found (h : Locked n bad nvs v s d) (hn : 0 < n) (hbad : bad.length ≤ getMaxFailures n)
    (hd : (nvs.map Prod.fst).Nodup) (hlt : ∀ e ∈ nvs, e.1 < n) {b : BatchID}
    (hb : tryFindBatch (Quorums.ofN n) (msgs nvs) s = some b) : b.ppDigest = d := by
  obtain ⟨-, e, h1, h2⟩ := tryFindBatch_some hb
  obtain ⟨x, vc, -, p, h3⟩ := h.strong hn hd hlt h1
  simp only [Bool.and_eq_true, Bool.not_eq_true', decide_eq_false_iff_not, List.all_eq_true] at p
  rcases h3 with h3 | ⟨b0, b1, b2, b3, b4⟩
  · exact (p.1 (by omega)).elim
  · have p := p.2 b0 b1
    rw [if_neg (by omega)] at p
    split at p
    · cases p
    · next hv =>
      split at p
      · cases p
      · next hv2 =>
        by_cases e2 : b0.viewNo = b.viewNo
        · simp only [Bool.and_eq_true, decide_eq_true_eq, not_and, Decidable.not_not] at hv2
          have := hv2 (by omega)
          omega
        · -- the certificate is of a later view than the lock: an honest node pre-prepared it
          unfold isBatchPreprepared at h2
          rw [← passing_length] at h2
          simp only [Quorum.isReached, Quorums.ofN, ge_iff_le, decide_eq_true_eq] at h2
          obtain ⟨y, hy, hyb⟩ := mem_of_length_lt (B := bad) (passing_nodup hd _) (Nat.lt_of_lt_of_le (Nat.lt_succ_of_le hbad) h2)
          obtain ⟨vc', y1, y2⟩ := mem_passing.1 hy
          simp only [List.any_eq_true, Bool.and_eq_true, decide_eq_true_eq] at y2
          obtain ⟨c, c1, ⟨⟨c2, c3⟩, c4⟩, c5⟩ := y2
          rw [← c4]
          exact h.noConflict y vc' y1 hyb c c1 (by omega) (by omega)

/-! ### The VIEW_CHANGE built -/

theorem fold_set_get (l : List BatchID) (d : Dict Nat BatchID) (s : Nat) :
    (∃ b ∈ l, b.ppSeqNo = s ∧ (l.foldl (fun d b => d.set b.ppSeqNo b) d).get? s = some b) ∨
    ((∀ b ∈ l, b.ppSeqNo ≠ s) ∧ (l.foldl (fun d b => d.set b.ppSeqNo b) d).get? s = d.get? s) := by
  induction l using snoc_induction with
  | nil => exact .inr ⟨by simp, rfl⟩
  | snoc l a ih =>
    simp only [List.foldl_append, List.foldl_cons, List.foldl_nil, Dict.get?_set]
    by_cases e : a.ppSeqNo = s
    · exact .inl ⟨a, by simp, e, by rw [if_pos e]⟩
    · simp only [if_neg e]
      rcases ih with ⟨b, h1, h2, h3⟩ | ⟨h1, h2⟩
      · exact .inl ⟨b, List.mem_append_left _ h1, h2, h3⟩
      · refine .inr ⟨fun b hb => ?_, h2⟩
        rcases List.mem_append.1 hb with hb | hb
        · exact h1 b hb
        · rw [List.mem_singleton.1 hb]; exact e

/-- A VIEW_CHANGE reports, at the sequence number of a prepared batch, one of
the batches prepared there. -/
theorem buildViewChange_prepared (s : Service) (p pp : List BatchID) {b : BatchID} (hb : b ∈ p) :
    ∃ c ∈ (s.buildViewChange p pp).2.prepared, c ∈ p ∧ c.ppSeqNo = b.ppSeqNo := by
  rcases fold_set_get p s.oldPrepared b.ppSeqNo with ⟨c, h1, h2, h3⟩ | ⟨h1, -⟩
  · exact ⟨c, mem_sortBids.2 (List.mem_map.2 ⟨_, Dict.mem_of_get? h3, rfl⟩), h1, h2⟩
  · exact (h1 b hb rfl).elim

theorem buildViewChange_preprepared (s : Service) (p pp : List BatchID) {b : BatchID}
    (hb : b ∈ (s.buildViewChange p pp).2.preprepared) : b ∈ pp ∨ ∃ e ∈ s.oldPreprepared, b ∈ e.2 := by
  have key : ∀ (l : List BatchID) (d : Dict Nat (List BatchID)) (e : Nat × List BatchID) (b : BatchID),
      e ∈ l.foldl (fun d b => d.set b.ppSeqNo ((((d.get? b.ppSeqNo).getD []).filter
        (fun c => c.ppDigest ≠ b.ppDigest)) ++ [b])) d → b ∈ e.2 → b ∈ l ∨ ∃ e ∈ d, b ∈ e.2 := by
    intro l
    induction l using snoc_induction with
    | nil => intro d e b he hb; exact .inr ⟨e, he, hb⟩
    | snoc l a ih =>
      intro d e b he hb
      simp only [List.foldl_append, List.foldl_cons, List.foldl_nil] at he
      rcases Dict.mem_set he with he | he
      · exact (ih d e b he hb).imp (List.mem_append_left _) id
      · subst he
        rcases List.mem_append.1 hb with hb | hb
        · have hb := (List.mem_filter.1 hb).1
          revert hb
          generalize hg : Dict.get? _ a.ppSeqNo = g
          intro hb
          cases g with
          | none => simp at hb
          | some x => exact (ih d (_, x) b (Dict.mem_of_get? hg) hb).imp (List.mem_append_left _) id
        · exact .inl (List.mem_append_right _ hb)
  have hb := mem_sortBids.1 hb
  obtain ⟨e, he, hb⟩ := List.mem_flatMap.1 hb
  exact key _ _ e b he hb

end Verif.VC
