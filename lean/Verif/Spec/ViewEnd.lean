import Verif.Model.ViewEnd
/-! What it means that a view change is carried out by a pool. -/
namespace Verif.VC

/-- A view change to `view` in a pool of `n` nodes: what happens to each node
before it starts the view change, its batches then, and what happens to it after. -/
structure Change where
  n : Nat
  primary : Nat → Node
  vd : ViewChange → Nat
  logSize : Nat
  view : Nat
  before : Node → List Event
  prepared : Node → List BatchID
  preprepared : Node → List BatchID
  after : Node → List Event

namespace Change

variable (C : Change)

def cfg (i : Node) : Cfg := ⟨i, C.n, C.primary, C.vd, C.logSize⟩

/-- The node when it leaves the old view. -/
def leaving (i : Node) : Service := run (C.cfg i) (C.before i)

/-- The node in the end. -/
def final (i : Node) : Service :=
  run (C.cfg i) (C.before i ++ .need C.view (C.prepared i) (C.preprepared i) :: C.after i)

/-- The VIEW_CHANGE the node sends when it starts. -/
def vc (i : Node) : ViewChange :=
  ((run (C.cfg i) (C.before i ++ [.need C.view (C.prepared i) (C.preprepared i)])).sentVC.getLast?).getD ⟨0, 0, [], [], []⟩

/-- The acknowledgements the node sends to the primary. -/
def acks (i : Node) : List (Nat × Node × Nat) :=
  acksFrom (C.cfg i) {} (C.before i ++ .need C.view (C.prepared i) (C.preprepared i) :: C.after i)

/-- The primary of the view changed to. -/
def prim : Node := C.primary C.view

/-- Enough honest nodes `L`, the primary of the new view among them, start the
view change, take part in no other one meanwhile, do not catch up and lose no
checkpoint; and their VIEW_CHANGEs and acknowledgements arrive. Who is outside
`L` may send anything, except in the name of a node of `L`. -/
structure Live (L : List Node) : Prop where
  nodup : L.Nodup
  two : 2 ≤ C.n
  members : ∀ i ∈ L, i < C.n
  many : C.n - getMaxFailures C.n ≤ L.length
  prim : C.prim ∈ L
  /-- the node runs, takes part and is in a view below -/
  runs : ∀ i ∈ L, (C.leaving i).crashed = false ∧ (C.leaving i).participating = true ∧ (C.leaving i).viewNo < C.view
  once : ∀ i ∈ L, ∀ v p pp, Event.need v p pp ∉ C.after i
  steady : ∀ i ∈ L, ∀ pt st cps, Event.shared pt st cps ∈ C.after i → pt = true ∧ ∀ c ∈ (C.vc i).checkpoints, c ∈ cps
  /-- VIEW_CHANGEs said to be of a node of `L` are its own -/
  realVC : ∀ i ∈ L, ∀ j ∈ L, ∀ x, Event.viewChange x j ∈ C.after i → x ∈ (C.final j).sentVC
  /-- and NEW_VIEWs said to be of the primary -/
  realNV : ∀ i ∈ L, ∀ nv, Event.newView nv C.prim ∈ C.after i → nv ∈ (C.final C.prim).sentNV
  /-- nobody sends the primary a NEW_VIEW for its view -/
  noNV : ∀ nv j, Event.newView nv j ∈ C.after C.prim → nv.viewNo ≠ C.view
  members' : ∀ x j, Event.viewChange x j ∈ C.after C.prim → j < C.n
  gotVC : ∀ i ∈ L, ∀ j ∈ L, j ≠ i → Event.viewChange (C.vc j) j ∈ C.after i
  gotAck : ∀ i ∈ L, i ≠ C.prim → ∀ k d, (C.view, k, d) ∈ C.acks i → Event.ack C.view k d i ∈ C.after C.prim

/-- The VIEW_CHANGEs of `L` all list the checkpoint `c`, none has a later stable
one; above it, batches prepared in the same view are the same, and what one has
prepared `f + 1` have pre-prepared. -/
structure Fits (L : List Node) (c : Checkpoint) : Prop where
  listed : ∀ i ∈ L, c ∈ (C.vc i).checkpoints
  stable : ∀ i ∈ L, (C.vc i).stableCheckpoint ≤ c.seqNoEnd
  same : ∀ i ∈ L, ∀ j ∈ L, ∀ b ∈ (C.vc i).prepared, ∀ b' ∈ (C.vc j).prepared, c.seqNoEnd < b.ppSeqNo →
    b'.ppSeqNo = b.ppSeqNo → b'.viewNo = b.viewNo → b'.ppDigest = b.ppDigest ∧ b'.ppViewNo = b.ppViewNo
  backed : ∀ i ∈ L, ∀ b ∈ (C.vc i).prepared, c.seqNoEnd < b.ppSeqNo → ∃ Q : List Node, Q.Nodup ∧
    getMaxFailures C.n + 1 ≤ Q.length ∧ ∀ j ∈ Q, j ∈ L ∧ ∃ b' ∈ (C.vc j).preprepared,
      b'.ppSeqNo = b.ppSeqNo ∧ b'.ppViewNo = b.ppViewNo ∧ b'.ppDigest = b.ppDigest ∧ b.viewNo ≤ b'.viewNo

/-- The node finished the view change, with the NEW_VIEW `nv`. -/
def Ended (i : Node) (nv : NewView) : Prop :=
  (C.final i).crashed = false ∧ (C.final i).waiting = false ∧ (C.final i).viewNo = C.view ∧
    (C.final i).accepted = (C.leaving i).accepted ++ [nv]

end Change
end Verif.VC
