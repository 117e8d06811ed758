import Verif.Model.Views
/-!
# What C82 asks of a schedule beyond the network
-/
namespace Verif.Views

/-- The NEW_VIEWs honest nodes accept name no node twice (the code does not
check it: C21). -/
def Distinct (C : Cfg) (σ : Schedule) : Prop :=
  ∀ i, C.Honest i → ∀ nv ∈ (node C σ i).vc.accepted, (nv.viewChanges.map Prod.fst).Nodup

/-- Honest nodes are given no PRE-PREPARE of the current view for a place of its
NEW_VIEW (the code handles such a one, of any sender: `C82_fork`), and honest
primaries make no batch for one (the code may: C60). -/
structure Checked (C : Cfg) (σ : Schedule) : Prop where
  pp : ∀ pre i pp w env post, σ = pre ++ (i, .msg (.prePrepare pp) w env) :: post → C.Honest i →
    pp.viewNo = (node C pre i).vc.viewNo → (node C pre i).vc.waiting = false →
    max (node C pre i).vc.prevViewPrepareCert (highest (node C pre i).named) < pp.seqNo
  own : ∀ pre i b post, σ = pre ++ (i, .batch b) :: post → C.Honest i → C.primary (node C pre i).vc.viewNo = i →
    (node C pre i).vc.waiting = false → highest (node C pre i).named ≤ (node C pre i).tpc.lastPP

/-- The batch ordered was committed to by the node itself, or its primary is
honest (otherwise see C17). -/
def Settled (C : Cfg) (σ : Schedule) (i : Node) (o : TPC.PrePrepare) : Prop :=
  (∃ c : TPC.Commit, c.key = o.key ∧ .commit c ∈ (node C σ i).tpc.out) ∨ C.Honest (C.primary o.viewNo)

/-- What a NEW_VIEW says of a place: its checkpoint covers it, or it names a
batch for it. -/
def Keeps (nv : VC.NewView) (s d : Nat) : Prop :=
  s ≤ nv.checkpoint.seqNoEnd ∨ ∃ b ∈ nv.batches, b.ppSeqNo = s ∧ b.ppDigest = d

/-! ### Deciding them of a concrete schedule -/

def checkedB (C : Cfg) (pre : Schedule) : Schedule → Bool
  | [] => true
  | e :: rest => (C.bad.contains e.1 ||
      match e.2 with
      | .msg (.prePrepare pp) _ _ => pp.viewNo != (node C pre e.1).vc.viewNo || (node C pre e.1).vc.waiting ||
          max (node C pre e.1).vc.prevViewPrepareCert (highest (node C pre e.1).named) < pp.seqNo
      | .batch _ => (node C pre e.1).vc.waiting || highest (node C pre e.1).named ≤ (node C pre e.1).tpc.lastPP
      | _ => true) && checkedB C (pre ++ [e]) rest

end Verif.Views
