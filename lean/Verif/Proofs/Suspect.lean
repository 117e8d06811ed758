import Verif.Spec.Suspect
import Verif.Proofs.InstanceChangeEnough
/-!
# Suspicions: proofs
-/
namespace Verif.Suspect

open Verif.TPC (Replica PrePrepare)
open Verif.Spec.Suspect

theorem su_ordered (r : Replica) (s : Nat) : r.alreadyOrdered s = decide (s ≤ r.lastOrdered.2) := rfl

theorem su_has (r : Replica) (k : TPC.Key) : r.recvPP.has k = true ↔ k ∈ r.recvPP.keys := by
  rw [Dict.has_iff, Dict.mem_keys]

/-- Being admitted and not ordered. -/
theorem su_current (r : Replica) (pp : PrePrepare) :
    (r.admits pp.viewNo pp.seqNo = true ∧ r.alreadyOrdered pp.seqNo = false) ↔ Current r pp := by
  rw [su_ordered]
  simp only [TPC.Replica.admits, TPC.SharedData.validate3pc, TPC.SharedData.validateBase, TPC.Replica.shared,
    TPC.SharedData.hasAlreadyOrdered, decide_eq_false_iff_not]
  constructor
  · rintro ⟨h, ho⟩
    by_cases h0 : pp.seqNo = 0
    · simp [h0] at h
    by_cases h1 : pp.seqNo ≤ r.lowWM
    · simp [h0, h1] at h
    by_cases h2 : pp.viewNo < r.view
    · simp [h0, h1, h2] at h
    by_cases h3 : pp.viewNo > r.view
    · simp [h0, h1, h2, h3] at h
    have hv : pp.viewNo = r.view := by omega
    cases h4 : r.participating
    · simp [h0, h1, h4, hv] at h
    cases h5 : r.waiting
    · by_cases h6 : pp.seqNo > r.highWM
      · simp [h0, h1, h4, h5, h6, hv] at h
      · by_cases h7 : r.view > 0 ∧ pp.seqNo > r.prevCert + 1 ∧ r.lastOrdered.2 < r.prevCert + 1
        · simp [h0, h1, h4, h5, h6, hv, ho, h7] at h
        · exact ⟨hv, ⟨h4, h5⟩, by omega, by omega, by omega, by omega⟩
    · simp [h0, h1, h4, h5, hv] at h
  · rintro ⟨hv, ⟨h4, h5⟩, hl, hh, hn, hf⟩
    refine ⟨?_, by omega⟩
    have h0 : pp.seqNo ≠ 0 := by omega
    have h1 : ¬ pp.seqNo ≤ r.lowWM := by omega
    have h6 : ¬ pp.seqNo > r.highWM := by omega
    have h8 : ¬ pp.seqNo ≤ r.lastOrdered.2 := by omega
    have h7 : ¬ (r.view > 0 ∧ pp.seqNo > r.prevCert + 1 ∧ r.lastOrdered.2 < r.prevCert + 1) := by omega
    simp only [ne_eq, h0, h1, h6, h8, hv, h4, h5, if_false, Bool.false_eq_true, not_true_eq_false, Nat.lt_irrefl, gt_iff_lt,
      decide_false, Bool.false_and, Bool.not_true]
    rw [if_neg]
    · rfl
    intro hc
    obtain ⟨hc, c⟩ := Bool.and_eq_true_iff.mp hc
    obtain ⟨a, b⟩ := Bool.and_eq_true_iff.mp hc
    exact h7 ⟨of_decide_eq_true a, of_decide_eq_true b, of_decide_eq_true c⟩

theorem su_orderedBefore (env : Env) (pp : PrePrepare) : orderedBefore env pp = true ↔ Repeats env pp := by
  unfold orderedBefore Repeats
  rw [List.any_eq_true]
  constructor
  · rintro ⟨k, hk, h⟩
    refine ⟨k, hk, ?_⟩
    cases hr : env.request k with
    | none => rw [hr] at h; exact .inl ⟨rfl, h⟩
    | some x =>
      obtain ⟨d, f⟩ := x
      rw [hr] at h
      cases f
      · exact .inr ⟨d, rfl, by simpa using h⟩
      · simp at h
  · rintro ⟨k, hk, h⟩
    refine ⟨k, hk, ?_⟩
    rcases h with ⟨h1, h2⟩ | ⟨d, h1, h2⟩
    · rw [h1]; exact h2
    · rw [h1]; simpa using h2

theorem su_unknown (env : Env) (pp : PrePrepare) : env.unknown pp = false ↔ Known env pp := by
  unfold Env.unknown Known
  rw [List.any_eq_false]
  simp only [Option.isNone_iff_eq_none, ne_eq]

theorem su_batch (env : Env) : (∃ c, report true (match whyNotApplied env with | some w => codeOfApplied w | none => none) = some c) ↔
    WrongBatch env := by
  unfold WrongBatch whyNotApplied validateApplied
  by_cases h1 : env.subSeqNo = 0
  · cases h2 : env.final
    · simp [h1, codeOfApplied, report]
    · cases h3 : env.suspicious
      · by_cases h4 : env.invalid = env.discarded
        · cases h5 : env.stateOk
          · simp [h1, h4, codeOfApplied, report, primarySuspicions]
          · cases h6 : env.txnOk
            · simp [h1, h4, codeOfApplied, report, primarySuspicions]
            · cases h7 : env.auditOk
              · simp [h1, h4, codeOfApplied, report, primarySuspicions]
              · simp [h1, h4, report]
        · simp [h1, h4, codeOfApplied, report, primarySuspicions]
      · simp [h1, codeOfApplied, report, primarySuspicions]
  · simp [h1, codeOfApplied, report, primarySuspicions]

/-- The votes of a message worked on now. -/
theorem su_why (p : Pool) (i : Node) (r : Replica) (pp : PrePrepare) (sender : Node) (env : Env)
    (ho : r.alreadyOrdered pp.seqNo = false) :
    (∃ c, report true (match whyNot (p.tpc i) r pp sender env with
      | some w => codeOf env pp w
      | none => match whyNotApplied env with | some w => codeOfApplied w | none => none) = some c) ↔
      (¬ DigestRight p pp ∨ PrimaryAtFault p r pp sender env) := by
  unfold whyNot PrimaryAtFault
  have e : (p.tpc i).digest pp.reqs pp.origView pp.time = p.digest pp.reqs pp.origView pp.time := rfl
  rw [ho, e]
  by_cases h1 : p.digest pp.reqs pp.origView pp.time = pp.content.digest
  · have h1' : DigestRight p pp := h1
    by_cases h2 : sender = p.primary r.view
    · have h2' : r.fromPrimary (p.tpc i) (p.primary r.view) = true := by simp [TPC.Replica.fromPrimary, Pool.tpc]
      subst h2
      by_cases h3 : r.recvPP.has pp.key = true
      · have h3' : pp.key ∈ r.recvPP.keys := (su_has _ _).1 h3
        simp [h1, h1', h2', h3, h3', codeOf, report, primarySuspicions]
      · have h3' : pp.key ∉ r.recvPP.keys := fun h => h3 ((su_has _ _).2 h)
        cases h4 : env.timeOk
        · simp [h1, h2', h3, h3', codeOf, report, primarySuspicions]
        · by_cases h5 : pp.seqNo < r.lastPP3pc.2
          · have h5' : ¬ r.lastPP3pc.2 ≤ pp.seqNo := by omega
            simp [h1, h1', h2', h3, h5, h5', codeOf, report]
          · have h5' : r.lastPP3pc.2 ≤ pp.seqNo := by omega
            cases h6 : env.unknown pp
            · have h6' := (su_unknown env pp).1 h6
              by_cases h7 : pp.seqNo = 1 ∨ pp.seqNo = r.lastPP3pc.2 + 1
              · have h7' : r.isNextPP pp.seqNo = true := by simp [TPC.Replica.isNextPP, h7]
                cases h8 : env.poolRootOk
                · simp [h1, h1', h2', h3, h5, h6', h7', codeOf, report, primarySuspicions]
                · cases h9 : env.multiSigOk
                  · simp [h1, h2', h3, h3', h5, h5', h6', h7, h7', codeOf, report, primarySuspicions]
                  · simp only [h1, h1', h2', h3, h3', h5, h5', h6', h7, h7', not_true_eq_false, Bool.false_eq_true,
                      if_false, Bool.not_true, false_or, true_and, false_and, not_false_eq_true, ne_eq]
                    simpa using su_batch env
              · have h7' : r.isNextPP pp.seqNo = false := by
                  rw [Bool.eq_false_iff]; intro hc
                  simp [TPC.Replica.isNextPP] at hc
                  exact h7 hc
                simp [h1, h1', h2', h3, h5, h6', h7, h7', codeOf, report]
            · have h6' : ¬ Known env pp := fun h => by rw [(su_unknown env pp).2 h] at h6; exact (nomatch h6)
              cases h7 : orderedBefore env pp
              · have h7' : ¬ Repeats env pp := fun h => by rw [(su_orderedBefore env pp).2 h] at h7; exact (nomatch h7)
                simp [h1, h1', h2', h3, h5, h6', h7, h7', codeOf, report]
              · have h7' := (su_orderedBefore env pp).1 h7
                simp [h1, h2', h3, h3', h5, h5', h6', h7, h7', codeOf, report, primarySuspicions]
    · have h2' : r.fromPrimary (p.tpc i) sender = false := by
        rw [Bool.eq_false_iff]; intro hc
        exact h2 (of_decide_eq_true hc).symm
      simp [h1, h1', h2, h2', codeOf, report, primarySuspicions]
  · have h1' : ¬ DigestRight p pp := h1
    simp [h1, h1', codeOf, report, primarySuspicions]

theorem su_ite {c : Prop} [Decidable c] {w : Why} {X : Option Why} {Y : Bool} (h : X = none ↔ Y = true) :
    (if c then some w else X) = none ↔ (if c then false else Y) = true := by
  by_cases hc : c
  · simp [hc]
  · simpa [hc] using h

/-- The checks are those of the model of the three phases. -/
theorem su_refines (cfg : TPC.Cfg) (r : Replica) (pp : PrePrepare) (sender : Node) (env : Env) (a : Bool) :
    whyNot cfg r pp sender env = none ↔
      r.canProcessPP cfg pp sender ⟨env.timeOk, !env.unknown pp, env.poolRootOk, env.multiSigOk, a⟩ = true := by
  unfold whyNot TPC.Replica.canProcessPP
  by_cases ho : r.alreadyOrdered pp.seqNo = true
  · rw [if_pos ho, if_pos ho]; simp
  · rw [if_neg ho, if_neg ho]
    refine su_ite (su_ite (su_ite (su_ite (su_ite ?_))))
    dsimp only
    rw [Bool.not_not]
    refine su_ite (su_ite (su_ite ?_))
    cases env.multiSigOk <;> simp

theorem su_exact (p : Pool) (i : Node) (d : Nd) (pp : PrePrepare) (sender : Node) (env : Env) :
    (∃ c, report true (suspicion (p.tpc i) d.replica pp sender env) = some c) ↔
      Current d.replica pp ∧ (¬ DigestRight p pp ∨ PrimaryAtFault p d.replica pp sender env) := by
  rw [← su_current]
  unfold suspicion
  cases ha : d.replica.admits pp.viewNo pp.seqNo
  · simp [report]
  · cases ho : d.replica.alreadyOrdered pp.seqNo
    · rw [← su_why p i d.replica pp sender env ho]
      simp only [Bool.not_true, Bool.false_eq_true, if_false, and_self, true_and]
      exact Iff.rfl
    · simp [report, whyNot, ho]

end Verif.Suspect
