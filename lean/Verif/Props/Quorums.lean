import Verif.Model.Quorums
import Verif.Proofs.Count
/-!
# C15, C16: quorum sizes and intersections

A pool is a duplicate-free list `nodes`; the faulty nodes are any list `bad` of
at most `f` names; a set of voters is a duplicate-free list of nodes.
-/
namespace Verif.Props

/-- **C15.** For every pool size: `3f < n` and `f` is the largest such number
for `n ≥ 4`; every quorum the code uses is reached by the `n - f` honest nodes
alone (those counted without the node itself by `n - f - 1` others). -/
theorem C15_quorum_sizes (n : Nat) (hn : 0 < n) :
    let q := Quorums.ofN n
    q.n = n ∧ 3 * q.f < n ∧ (∀ g, 4 ≤ n → 3 * g < n → g ≤ q.f) ∧
    (∀ k ∈ q.all, k.isReached (n - q.f) = true) ∧
    (∀ k ∈ [q.prepare, q.viewChangeAck, q.ledgerStatus, q.checkpoint],
      k.isReached (n - q.f - 1) = true) := by
  have hf : 3 * getMaxFailures n < n := by unfold getMaxFailures; split <;> omega
  refine ⟨rfl, hf, ?_, ?_, ?_⟩
  · intro g h4 h
    show g ≤ getMaxFailures n
    unfold getMaxFailures; rw [if_pos h4]; omega
  · intro k hk
    simp only [Quorums.all, Quorums.ofN, List.mem_cons, List.not_mem_nil, or_false] at hk
    rcases hk with h | h | h | h | h | h | h | h | h | h | h | h | h | h | h | h | h | h | h <;>
      subst h <;> simp only [Quorum.isReached, Quorums.ofN, ge_iff_le, decide_eq_true_eq] <;> omega
  · intro k hk
    simp only [Quorums.ofN, List.mem_cons, List.not_mem_nil, or_false] at hk
    rcases hk with h | h | h | h <;> subst h <;> simp [Quorum.isReached, Quorums.ofN]

/-- The boundary sizes. -/
example : [1, 3, 4, 6, 7, 9, 10, 25].map getMaxFailures = [0, 0, 1, 1, 2, 2, 3, 8] := by decide

variable {ν : Type} [DecidableEq ν]

/-- **C15.** `f + 1` distinct voters always include an honest one: any reached
weak-type quorum (weak, propagate, reply, consistency proof, timestamp,
observer data, backup faulty) has a voter outside the faulty set. -/
theorem C15_weak_quorum_honest (n : Nat) (bad voters : List ν)
    (hbad : bad.length ≤ (Quorums.ofN n).f) (hv : voters.Nodup) (k : Quorum)
    (hk : k ∈ (Quorums.ofN n).all)
    (hweak : k.isReached voters.length = true) (hn : 4 ≤ n) :
    ∃ v ∈ voters, v ∉ bad := by
  have hf : (Quorums.ofN n).f = (n - 1) / 3 := by simp [Quorums.ofN, getMaxFailures, hn]
  have : (Quorums.ofN n).f < voters.length := by
    simp only [Quorum.isReached, decide_eq_true_eq] at hweak
    rw [hf]
    simp only [Quorums.all, Quorums.ofN, getMaxFailures, hn, if_true, List.mem_cons, List.not_mem_nil, or_false] at hk
    rcases hk with h | h | h | h | h | h | h | h | h | h | h | h | h | h | h | h | h | h | h <;>
      subst h <;> simp only at hweak <;> omega
  exact mem_of_length_lt hv (by omega)

example : ∃ v ∈ ["Beta", "Gamma"], v ∉ ["Beta"] :=
  C15_weak_quorum_honest 4 ["Beta"] ["Beta", "Gamma"] (by decide) (by decide) (Quorums.ofN 4).propagate
    (by simp [Quorums.all]) (by decide) (by decide)

/-- **C16.** Two sets of `n - f` voters of a pool share an honest node. -/
theorem C16_strong_quorums_intersect (nodes bad A B : List ν) (hn : 0 < nodes.length)
    (hbad : bad.length ≤ (Quorums.ofN nodes.length).f)
    (hA : A.Nodup) (hB : B.Nodup) (hAn : ∀ x ∈ A, x ∈ nodes) (hBn : ∀ x ∈ B, x ∈ nodes)
    (qA : (Quorums.ofN nodes.length).strong.isReached A.length = true)
    (qB : (Quorums.ofN nodes.length).strong.isReached B.length = true) :
    ∃ v, v ∈ A ∧ v ∈ B ∧ v ∉ bad := by
  have h3 := (C15_quorum_sizes nodes.length hn).2.1
  simp only [Quorum.isReached, Quorums.ofN, ge_iff_le, decide_eq_true_eq] at *
  exact intersect_outside hA hB hAn hBn (by omega)

/-- **C16.** A prepare certificate (the primary together with a prepare quorum
of other nodes) meets every commit or view-change quorum, and every other
prepare certificate of the same primary's view, in an honest node. -/
theorem C16_prepare_cert_intersects (nodes bad P B : List ν) (primary : ν) (hn : 0 < nodes.length)
    (hbad : bad.length ≤ (Quorums.ofN nodes.length).f)
    (hP : P.Nodup) (hprim : primary ∉ P) (hpn : primary ∈ nodes)
    (hPn : ∀ x ∈ P, x ∈ nodes) (qP : (Quorums.ofN nodes.length).prepare.isReached P.length = true)
    (hB : B.Nodup) (hBn : ∀ x ∈ B, x ∈ nodes) :
    ((Quorums.ofN nodes.length).commit.isReached B.length = true →
      ∃ v, v ∈ primary :: P ∧ v ∈ B ∧ v ∉ bad) ∧
    ((Quorums.ofN nodes.length).viewChange.isReached B.length = true →
      ∃ v, v ∈ primary :: P ∧ v ∈ B ∧ v ∉ bad) ∧
    ((Quorums.ofN nodes.length).prepare.isReached B.length = true → primary ∉ B →
      ∃ v, v ∈ primary :: P ∧ v ∈ primary :: B ∧ v ∉ bad) := by
  have h3 := (C15_quorum_sizes nodes.length hn).2.1
  have hP' : (primary :: P).Nodup := List.nodup_cons.2 ⟨hprim, hP⟩
  have hPn' : ∀ x ∈ primary :: P, x ∈ nodes := by
    intro x hx; rcases List.mem_cons.1 hx with h | h
    · exact h ▸ hpn
    · exact hPn x h
  simp only [Quorum.isReached, Quorums.ofN, ge_iff_le, decide_eq_true_eq] at *
  refine ⟨fun q => ?_, fun q => ?_, fun q hb => ?_⟩
  · exact intersect_outside hP' hB hPn' hBn (by simp only [List.length_cons]; omega)
  · exact intersect_outside hP' hB hPn' hBn (by simp only [List.length_cons]; omega)
  · refine intersect_outside hP' (List.nodup_cons.2 ⟨hb, hB⟩) hPn' ?_ (by simp only [List.length_cons]; omega)
    intro x hx; rcases List.mem_cons.1 hx with h | h
    · exact h ▸ hpn
    · exact hBn x h

/-- The sizes are needed: with one vote fewer two sets of voters may share only
the faulty node (pool of four). -/
example : ¬ ∃ v, v ∈ [1, 2] ∧ v ∈ [2, 3] ∧ v ∉ [2] := by decide

example : ∃ v, v ∈ [1, 2, 3] ∧ v ∈ [2, 3, 4] ∧ v ∉ [2] :=
  C16_strong_quorums_intersect [1, 2, 3, 4] [2] [1, 2, 3] [2, 3, 4] (by decide) (by decide) (by decide)
    (by decide) (by decide) (by decide) (by decide) (by decide)

end Verif.Props
