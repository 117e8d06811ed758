import Verif.Model.Views
/-!
# C82: one batch per sequence number, over all views
-/
namespace Verif.Props

open Verif.Views

theorem net_of_netB {C : Cfg} {pre rest : Schedule} (h : netB C pre rest = true) :
    ∀ mid i e post, rest = mid ++ (i, e) :: post → C.Honest i → Allowed C (node C (pre ++ mid)) i e := by
  induction rest generalizing pre with
  | nil => intro mid i e post h; simp at h
  | cons x rest ih =>
    intro mid i e post hs hi
    unfold netB at h
    rw [Bool.and_eq_true] at h
    cases mid with
    | nil =>
      simp only [List.nil_append, List.cons.injEq] at hs
      obtain ⟨rfl, -⟩ := hs
      have h1 := h.1
      have hb : C.bad.contains i = false := by
        rw [Bool.eq_false_iff]; intro x; exact hi.2 (List.contains_iff_mem.1 x)
      simp only [hb, hi.1, decide_true, Bool.not_true, Bool.or_self, Bool.false_or] at h1
      rw [List.append_nil]
      cases e with
      | msg m frm env =>
        simp only [allowedB, Bool.and_eq_true, decide_eq_true_eq, bne_iff_ne, Bool.or_eq_true, List.contains_iff_mem] at h1
        exact ⟨h1.1.1, h1.1.2, fun hw => h1.2.resolve_left hw⟩
      | viewChange vc frm env =>
        simp only [allowedB, Bool.and_eq_true, decide_eq_true_eq, bne_iff_ne, Bool.or_eq_true, List.contains_iff_mem] at h1
        exact ⟨h1.1.1, h1.1.2, fun hw => h1.2.resolve_left hw⟩
      | newView nv frm env =>
        simp only [allowedB, Bool.and_eq_true, decide_eq_true_eq, bne_iff_ne, Bool.or_eq_true, List.contains_iff_mem,
          beq_iff_eq] at h1
        exact ⟨h1.1.1, h1.1.2, fun hw => h1.2.imp (fun h => h.resolve_left hw) id⟩
      | _ => exact trivial
    | cons y mid =>
      simp only [List.cons_append, List.cons.injEq] at hs
      obtain ⟨rfl, hs⟩ := hs
      have := ih h.2 mid i e post hs hi
      rwa [List.append_assoc] at this

theorem ok_of_netB {C : Cfg} {σ : Schedule} (h1 : 0 < C.n) (h2 : C.bad.length ≤ getMaxFailures C.n)
    (h3 : ∀ v, C.primary v < C.n) (h : netB C [] σ = true) : Ok C σ :=
  ⟨h1, h2, h3, fun pre i e post hs hi => by simpa using net_of_netB h pre i e post hs hi⟩

/-! ### One faulty node that is never the primary -/

namespace ViewFork

/-- Four nodes; nodes 0, 1 and 2 are the primaries of views 0, 1 and 2. Node 3
is Byzantine. -/
def C : Cfg where
  n := 4
  primary := fun v => v % 4
  digest := fun reqs _ _ => reqs.length
  bls := true
  maxInFlight := some 4
  vd := fun vc => 100 * vc.viewNo + 10 * (vc.prepared.map (·.ppDigest)).sum + (vc.preprepared.map (·.ppDigest)).sum
  bad := [3]

/-- The batch ordered in view 0. -/
def good : TPC.PrePrepare := ⟨0, 1, 0, 100, [5], 1, 3, ⟨1, 7, 8, 9⟩⟩
def prep : TPC.Prepare := ⟨0, 1, 100, ⟨1, 7, 8, 9⟩⟩
def com : TPC.Commit := ⟨0, 1, some ⟨1, 7, 3, 8, 100⟩⟩

/-- The batch node 3 makes up in view 1. -/
def forged : TPC.PrePrepare := ⟨1, 1, 1, 200, [6, 7], 1, 3, ⟨2, 17, 18, 19⟩⟩
def prep1 : TPC.Prepare := ⟨1, 1, 200, ⟨2, 17, 18, 19⟩⟩
def prep2 : TPC.Prepare := ⟨2, 1, 200, ⟨2, 17, 18, 19⟩⟩
def com2 : TPC.Commit := ⟨2, 1, some ⟨1, 17, 3, 18, 200⟩⟩

def e : Nat → TPC.PPEnv := fun _ => {}
def m (x : TPC.Msg) (frm : Node) : Event := .msg x frm {}

/-- The VIEW_CHANGE of each honest node for view 1, and the NEW_VIEW. -/
def vc0 : VC.ViewChange := ⟨1, 0, [⟨0, 0, 1, 1⟩], [⟨0, 0, 1, 1⟩], [⟨0, 0, none⟩]⟩
def nv1 : VC.NewView := ⟨1, [(0, 111), (1, 111), (2, 111)], ⟨0, 0, none⟩, [⟨0, 0, 1, 1⟩], none⟩
/-- The VIEW_CHANGEs of nodes 0, 2 and 3 for view 2, and the NEW_VIEW. -/
def vcA : VC.ViewChange := ⟨2, 0, [⟨1, 1, 1, 2⟩], [⟨1, 0, 1, 1⟩, ⟨1, 1, 1, 2⟩], [⟨0, 0, none⟩]⟩
def vcC : VC.ViewChange := ⟨2, 0, [⟨0, 0, 1, 1⟩], [⟨1, 0, 1, 1⟩], [⟨0, 0, none⟩]⟩
def vcX : VC.ViewChange := ⟨2, 0, [⟨1, 1, 1, 2⟩], [⟨1, 1, 1, 2⟩], [⟨0, 0, none⟩]⟩
def nv2 : VC.NewView := ⟨2, [(0, 223), (2, 211), (3, 222)], ⟨0, 0, none⟩, [⟨1, 1, 1, 2⟩], none⟩

/-- Nodes 0 and 1 order a batch; node 2 pre-prepares and prepares it. -/
def view0 : Schedule :=
  [(0, .batch ⟨100, [5], 1, 3, 7, 8, 9⟩), (1, m (.prePrepare good) 0), (2, m (.prePrepare good) 0),
   (0, m (.prepare prep) 1), (0, m (.prepare prep) 2), (1, m (.prepare prep) 2), (2, m (.prepare prep) 1),
   (0, m (.commit com) 1), (0, m (.commit com) 2), (1, m (.commit com) 0), (1, m (.commit com) 2)]

/-- A view change to view 1, whose NEW_VIEW names the batch. Node 3 then sends
node 0 another batch for its place, and a PREPARE. -/
def view1 : Schedule :=
  [(0, .need 1), (1, .need 1), (2, .need 1),
   (0, .viewChange vc0 1 e), (0, .viewChange vc0 2 e), (2, .viewChange vc0 0 e), (2, .viewChange vc0 1 e),
   (1, .viewChange vc0 0 e), (1, .viewChange vc0 2 e), (1, .ack 1 0 111 2 e), (1, .ack 1 2 111 0 e),
   (1, .ack 1 1 111 0 e), (1, .ack 1 1 111 2 e), (0, .newView nv1 1 e), (2, .newView nv1 1 e),
   (0, m (.prePrepare forged) 3), (0, m (.prepare prep1) 3)]

/-- A view change to view 2, whose NEW_VIEW names the made-up batch. -/
def view2 : Schedule :=
  [(0, .need 2), (1, .need 2), (2, .need 2),
   (2, .viewChange vcA 0 e), (2, .viewChange vcX 3 e), (2, .ack 2 0 223 3 e), (2, .ack 2 3 222 0 e),
   (2, .ack 2 2 211 0 e), (2, .ack 2 2 211 1 e),
   (0, .viewChange vcC 2 e), (0, .viewChange vcX 3 e), (0, .newView nv2 2 e),
   (1, .viewChange vcA 0 e), (1, .viewChange vcC 2 e), (1, .viewChange vcX 3 e), (1, .newView nv2 2 e),
   (1, .reply [forged] e), (2, .reply [forged] e),
   (2, m (.prepare prep2) 0), (2, m (.prepare prep2) 1), (0, m (.prepare prep2) 1), (1, m (.prepare prep2) 0),
   (2, m (.commit com2) 0), (2, m (.commit com2) 1)]

def σ : Schedule := view0 ++ view1 ++ view2

theorem ok : Ok C σ :=
  ok_of_netB (by decide) (by decide) (fun v => Nat.mod_lt _ (by decide : 0 < 4)) (by decide +kernel)

theorem ordered0 : (node C σ 0).tpc.ordLog = [good] := by decide +kernel
theorem ordered2 : (node C σ 2).tpc.ordLog = [{ forged with viewNo := 2 }] := by decide +kernel

end ViewFork

/-- **C82 does not hold of the code**, even if every primary is honest. One
Byzantine node of four, never the primary. A batch is ordered in view 0; in
view 1, whose NEW_VIEW names it, the Byzantine node sends a PRE-PREPARE of its
own for its place to a node that has ordered it. For a place at or below the last
ordered one the sender is not checked, so it replaces the stored one, and with
the node's own earlier PREPARE and a forged one it counts as prepared. The
NEW_VIEW of view 2 names it, and a node that had not ordered the batch orders
the forged one. -/
theorem C82_fork : ∃ (C : Cfg) (σ : Schedule), Ok C σ ∧ (∀ pp, (∃ w, pp ∈ (node C σ w).tpc.ordLog) →
      C.primary pp.viewNo ∉ C.bad) ∧
    ∃ i j, C.Honest i ∧ C.Honest j ∧ ∃ pp ∈ (node C σ i).tpc.ordLog, ∃ qq ∈ (node C σ j).tpc.ordLog,
      pp.seqNo = qq.seqNo ∧ pp.reqs ≠ qq.reqs ∧ pp.content.digest ≠ qq.content.digest := by
  refine ⟨ViewFork.C, ViewFork.σ, ViewFork.ok, ?_, 0, 2, ⟨by decide, by decide⟩, ⟨by decide, by decide⟩, ViewFork.good,
    by rw [ViewFork.ordered0]; simp, { ViewFork.forged with viewNo := 2 }, by rw [ViewFork.ordered2]; simp, rfl, by decide, by decide⟩
  rintro pp ⟨w, hw⟩
  match w with
  | 0 => rw [ViewFork.ordered0, List.mem_singleton] at hw; subst hw; decide
  | 1 =>
    rw [show (node ViewFork.C ViewFork.σ 1).tpc.ordLog = [ViewFork.good] by decide +kernel, List.mem_singleton] at hw
    subst hw; decide
  | 2 => rw [ViewFork.ordered2, List.mem_singleton] at hw; subst hw; decide
  | w + 3 =>
    have : mine ViewFork.σ (w + 3) = [] := by
      unfold mine
      rw [List.map_eq_nil_iff, List.filter_eq_nil_iff]
      intro x hx
      have : x.1 < 3 := by
        have h : ViewFork.σ.all (fun x => x.1 < 3) = true := by decide
        simpa using List.all_eq_true.1 h x hx
      intro hc
      have hc : x.1 = w + 3 := by simpa using hc
      rw [hc] at this
      exact absurd this (Nat.not_lt.2 (Nat.le_add_left 3 w))
    rw [node, this] at hw
    simp [run] at hw

/-! ### A faulty node stops the next primary -/

namespace CopyStops

open ViewFork

/-- The view change to view 1 again; node 3 sends node 1 the NEW_VIEW which node
1 is about to send. -/
def before : Schedule := view0 ++
  [(0, .need 1), (1, .need 1), (2, .need 1), (1, .viewChange vc0 0 e), (1, .viewChange vc0 2 e), (1, .ack 1 0 111 2 e),
   (1, .ack 1 2 111 0 e), (1, .ack 1 1 111 0 e)]
def last : Node × Event := (1, .ack 1 1 111 2 e)
def copy : Node × Event := (1, .newView nv1 3 e)

theorem ok : Ok C (before ++ [copy, last]) :=
  ok_of_netB (by decide) (by decide) (fun v => Nat.mod_lt _ (by decide : 0 < 4)) (by decide +kernel)

end CopyStops

/-- **C62**, at the primary: a copy of the NEW_VIEW, sent to the primary by one
Byzantine node before the primary itself has made it, stops the primary: having
sent the NEW_VIEW, it finds that it has none (`AttributeError` in
`_finish_view_change`). Without the copy it accepts it. -/
theorem C62_copy_stops_primary : ∃ (C : Cfg) (σ : Schedule) (copy last : Node × Event) (p : Node),
    Ok C (σ ++ [copy, last]) ∧ C.Honest p ∧ C.primary 1 = p ∧
    (∃ nv w env, copy = (p, .newView nv w env) ∧ w ∈ C.bad) ∧
    (node C (σ ++ [copy, last]) p).vc.crashed = true ∧
    (node C (σ ++ [copy, last]) p).vc.accepted = [] ∧ (node C (σ ++ [copy, last]) p).vc.sentNV ≠ [] ∧
    (node C (σ ++ [last]) p).vc.crashed = false ∧ (node C (σ ++ [last]) p).vc.accepted ≠ [] :=
  ⟨ViewFork.C, CopyStops.before, CopyStops.copy, CopyStops.last, 1, CopyStops.ok, ⟨by decide, by decide⟩, rfl,
    ⟨_, _, _, rfl, by decide⟩, by decide +kernel, by decide +kernel, by decide +kernel, by decide +kernel, by decide +kernel⟩

end Verif.Props
