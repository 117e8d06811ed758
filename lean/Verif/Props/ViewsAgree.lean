import Verif.Proofs.ViewsPool
import Verif.Proofs.ViewsDigest
import Verif.Props.Views
/-!
# C82: what the code does have

With at most `f` Byzantine nodes and any schedule with any number of view
changes: no fork, if the PRE-PREPAREs for places a NEW_VIEW has settled are kept
away.
-/
namespace Verif.Props

open Verif.Views

/-- **C82**, first sentence, partial: two honest nodes never order batches with
different digests at one sequence number, in whatever views. Missing: the
conditions `Distinct`, `Checked` and `Settled`, which the code does not
enforce. -/
theorem C82_agreement_partial {C : Cfg} {σ : Schedule} (ok : Ok C σ) (dis : Distinct C σ) (chk : Checked C σ) {i j : Node}
    (hi : C.Honest i) (hj : C.Honest j) {o q : TPC.PrePrepare} (ho : o ∈ (node C σ i).tpc.ordLog)
    (hq : q ∈ (node C σ j).tpc.ordLog) (same : o.seqNo = q.seqNo) (hs : Settled C σ i o) (hs' : Settled C σ j q) :
    o.content.digest = q.content.digest :=
  agree ⟨ok, dis, chk⟩ hi hj ho hq same hs hs'

/-- **C82**, first sentence, partial, for the requests: the two batches have the
same requests, from the same original view and with the same time, or the
digests of two batches collide. -/
theorem C82_requests_partial {C : Cfg} {σ : Schedule} (ok : Ok C σ) (dis : Distinct C σ) (chk : Checked C σ) {i j : Node}
    (hi : C.Honest i) (hj : C.Honest j) {o q : TPC.PrePrepare} (ho : o ∈ (node C σ i).tpc.ordLog)
    (hq : q ∈ (node C σ j).tpc.ordLog) (same : o.seqNo = q.seqNo) (hs : Settled C σ i o) (hs' : Settled C σ j q) :
    (o.reqs = q.reqs ∧ o.origView = q.origView ∧ o.time = q.time) ∨
    (¬ (o.reqs = q.reqs ∧ o.origView = q.origView ∧ o.time = q.time) ∧
      C.digest o.reqs o.origView o.time = C.digest q.reqs q.origView q.time) := by
  by_cases h : o.reqs = q.reqs ∧ o.origView = q.origView ∧ o.time = q.time
  · exact .inl h
  · refine .inr ⟨h, ?_⟩
    have h1 : C.digest o.reqs o.origView o.time = o.content.digest := ordered_right C σ i o ho
    have h2 : C.digest q.reqs q.origView q.time = q.content.digest := ordered_right C σ j q hq
    rw [h1, h2, C82_agreement_partial ok dis chk hi hj ho hq same hs hs']

/-- **C82**, second sentence, partial: every NEW_VIEW an honest node accepts for
a view after the one in which an honest node ordered a batch names that batch in
the same place, or has a checkpoint that covers it. -/
theorem C82_kept_partial {C : Cfg} {σ : Schedule} (ok : Ok C σ) (dis : Distinct C σ) (chk : Checked C σ) {i j : Node}
    (hi : C.Honest i) (hj : C.Honest j) {o : TPC.PrePrepare} (ho : o ∈ (node C σ i).tpc.ordLog) (hs : Settled C σ i o)
    {nv : VC.NewView} (hn : nv ∈ (node C σ j).vc.accepted) (later : o.viewNo < nv.viewNo) :
    Keeps nv o.seqNo o.content.digest :=
  kept ⟨ok, dis, chk⟩ nv.viewNo i hi o ho _ later (settled_locks ⟨ok, dis, chk⟩ hi ho hs) j hj nv hn rfl

/-- The order of a node has no gaps and nothing twice, over all its views. -/
theorem C82_contiguous {C : Cfg} {σ : Schedule} (i : Node) :
    (node C σ i).tpc.ordLog.map (·.seqNo) = List.range' 1 (node C σ i).tpc.ordLog.length :=
  (seq_node C σ i).log

theorem checked_of_checkedB {C : Cfg} {σ : Schedule} (h : checkedB C [] σ = true) : Checked C σ := by
  have key : ∀ (rest pre : Schedule), checkedB C pre rest = true → ∀ mid i e post, rest = mid ++ (i, e) :: post →
      C.Honest i → checkedB C (pre ++ mid) [(i, e)] = true := by
    intro rest
    induction rest with
    | nil => intro pre h mid i e post h; simp at h
    | cons x rest ih =>
      intro pre h mid i e post hs hi
      unfold checkedB at h
      rw [Bool.and_eq_true] at h
      cases mid with
      | nil =>
        simp only [List.nil_append, List.cons.injEq] at hs
        obtain ⟨rfl, -⟩ := hs
        rw [List.append_nil]
        unfold checkedB
        rw [Bool.and_eq_true]
        exact ⟨h.1, rfl⟩
      | cons y mid =>
        simp only [List.cons_append, List.cons.injEq] at hs
        obtain ⟨rfl, hs⟩ := hs
        have := ih _ h.2 mid i e post hs hi
        rwa [List.append_assoc] at this
  have nb : ∀ i, C.Honest i → C.bad.contains i = false := by
    intro i hi; rw [Bool.eq_false_iff]; intro x; exact hi.2 (List.contains_iff_mem.1 x)
  refine ⟨?_, ?_⟩
  · intro pre i pp w env post hs hi hv hw
    have := key σ [] h pre i _ post hs hi
    simp only [List.nil_append, checkedB, nb i hi, Bool.false_or, hw, hv, bne_self_eq_false, Bool.and_true,
      decide_eq_true_eq] at this
    exact this
  · intro pre i b post hs hi _ hw
    have := key σ [] h pre i _ post hs hi
    simp only [List.nil_append, checkedB, nb i hi, Bool.false_or, hw, Bool.and_true, decide_eq_true_eq] at this
    exact this

/-! ### A batch ordered by some nodes before a view change and by another after -/

namespace ViewKeep

open ViewFork

def prepN : TPC.Prepare := ⟨1, 1, 100, ⟨1, 7, 8, 9⟩⟩
def comN : TPC.Commit := ⟨1, 1, some ⟨1, 7, 3, 8, 100⟩⟩
def nextN : TPC.PrePrepare := ⟨1, 2, 1, 200, [6, 7], 1, 3, ⟨2, 17, 18, 19⟩⟩

/-- Nodes 0 and 1 order a batch in view 0. After the view change node 2, which
has not ordered it, gets it from the NEW_VIEW and orders it in view 1. The
Byzantine node 3 sends a PRE-PREPARE of its own for the next place. -/
def σ : Schedule := view0 ++
  [(0, .need 1), (1, .need 1), (2, .need 1),
   (0, .viewChange vc0 1 e), (0, .viewChange vc0 2 e), (2, .viewChange vc0 0 e), (2, .viewChange vc0 1 e),
   (1, .viewChange vc0 0 e), (1, .viewChange vc0 2 e), (1, .ack 1 0 111 2 e), (1, .ack 1 2 111 0 e),
   (1, .ack 1 1 111 0 e), (1, .ack 1 1 111 2 e), (0, .newView nv1 1 e), (2, .newView nv1 1 e),
   (2, m (.prepare prepN) 0), (0, m (.prepare prepN) 2), (1, m (.prepare prepN) 0),
   (1, m (.prepare prepN) 2), (2, m (.commit comN) 0), (2, m (.commit comN) 1),
   (2, m (.prePrepare nextN) 3), (1, .batch ⟨200, [6, 7], 1, 3, 17, 18, 19⟩), (2, m (.prePrepare nextN) 1)]

theorem ok : Ok C σ :=
  ok_of_netB (by decide) (by decide) (fun v => Nat.mod_lt _ (by decide : 0 < 4)) (by decide +kernel)

theorem checked : Checked C σ := checked_of_checkedB (by decide +kernel)

theorem distinct : Distinct C σ := by
  intro i hi nv hn
  match i with
  | 0 => rw [show (node C σ 0).vc.accepted = [nv1] by decide +kernel, List.mem_singleton] at hn; subst hn; decide
  | 1 => rw [show (node C σ 1).vc.accepted = [nv1] by decide +kernel, List.mem_singleton] at hn; subst hn; decide
  | 2 => rw [show (node C σ 2).vc.accepted = [nv1] by decide +kernel, List.mem_singleton] at hn; subst hn; decide
  | 3 => exact absurd (by decide : 3 ∈ C.bad) hi.2
  | k + 4 => exact absurd hi.1 (Nat.not_lt.2 (Nat.le_add_left 4 k))

theorem ordered0 : (node C σ 0).tpc.ordLog = [good] := by decide +kernel
theorem ordered2 : (node C σ 2).tpc.ordLog = [{ good with viewNo := 1 }] := by decide +kernel

end ViewKeep

/-- The hypotheses of `C82_agreement_partial` hold of a run in which two honest
nodes order a batch at the same place in different views, and those of
`C82_kept_partial` with a NEW_VIEW accepted after. -/
example : Ok ViewFork.C ViewKeep.σ ∧ Distinct ViewFork.C ViewKeep.σ ∧ Checked ViewFork.C ViewKeep.σ ∧
    ∃ o ∈ (node ViewFork.C ViewKeep.σ 0).tpc.ordLog, ∃ q ∈ (node ViewFork.C ViewKeep.σ 2).tpc.ordLog,
      o.seqNo = q.seqNo ∧ o.viewNo ≠ q.viewNo ∧ Settled ViewFork.C ViewKeep.σ 0 o ∧ Settled ViewFork.C ViewKeep.σ 2 q ∧
      ∃ nv ∈ (node ViewFork.C ViewKeep.σ 2).vc.accepted, o.viewNo < nv.viewNo := by
  refine ⟨ViewKeep.ok, ViewKeep.distinct, ViewKeep.checked, ViewFork.good,
    by rw [ViewKeep.ordered0]; exact List.mem_singleton.2 rfl, { ViewFork.good with viewNo := 1 },
    by rw [ViewKeep.ordered2]; exact List.mem_singleton.2 rfl, rfl, by decide, ?_, ?_, ViewFork.nv1, ?_, by decide⟩
  · exact .inr ⟨by decide, by decide⟩
  · exact .inr ⟨by decide, by decide⟩
  · rw [show (node ViewFork.C ViewKeep.σ 2).vc.accepted = [ViewFork.nv1] by decide +kernel]; exact List.mem_singleton.2 rfl

end Verif.Props
