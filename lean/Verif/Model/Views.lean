import Verif.Model.Network
import Verif.Model.ViewChange
/-!
# A node through its view changes, and a pool of such nodes

The ordering service of the master instance (`Verif.Model.ThreePC`), the view
change service (`Verif.Model.ViewChange`) and what lies between them: the
checkpoint service's part in accepting a NEW_VIEW, the PRE-PREPAREs kept from
earlier views, and the requests for those a node does not have
(`plenum/server/consensus/ordering_service.py:2320-2453`,
`plenum/server/consensus/checkpoint_service.py:292-318`).

A pool is a schedule: a list of (node, event), in the order of time. What an
honest node is given in the name of another honest node was sent by it before.

Left out: catchup and restarts (a node always participates), the backup
instances, changes of the pool's membership, and the requests for missing
VIEW_CHANGEs (one obtained so is an ordinary delivery: the code takes it from
its author, or if `f + 1` nodes sent one with the requested digest).
-/
namespace Verif.Views

abbrev Node := Nat

/-- config.py:276, `LOG_SIZE`. -/
def logSize : Nat := 300

/-- The pool. -/
structure Cfg where
  n : Nat
  /-- primary of each view -/
  primary : Nat → Node
  /-- `generate_pp_digest` -/
  digest : List Nat → Nat → Nat → Nat
  /-- has BLS keys -/
  bls : Bool
  /-- `Max3PCBatchesInFlight` -/
  maxInFlight : Option Nat
  /-- `view_change_digest` -/
  vd : VC.ViewChange → Nat
  /-- the Byzantine nodes -/
  bad : List Node

/-- Key of a kept PRE-PREPARE: original view, sequence number, digest. -/
abbrev OldKey := Nat × Nat × Nat

/-- One node. `old` is `old_view_preprepares`; `asked` records the batches it
requested from the others, `tlog` and `vlog` what the two services were given to
handle. -/
structure St where
  tpc : TPC.Replica := {}
  vc : VC.Service := {}
  old : Dict OldKey TPC.PrePrepare := []
  asked : List BatchID := []
  tlog : List TPC.Event := []
  vlog : List VC.Event := []

variable (C : Cfg) (w : Node)

def vcfg : VC.Cfg := { name := w, n := C.n, primary := C.primary, vd := C.vd, logSize := logSize }

/-- The batches of the NEW_VIEW accepted for the current view
(`_data.new_view.batches`). -/
def St.named (s : St) : List BatchID :=
  if s.vc.waiting then [] else ((s.vc.accepted.getLast?).map (·.batches)).getD []

/-- The highest sequence number among some batches. -/
def highest (l : List BatchID) : Nat := l.foldl (fun m b => max m b.ppSeqNo) 0

/-- The ordering service's constants, with the certificate of the current view
in place of a table of certificates. -/
def tcfg (s : St) : TPC.Cfg :=
  { name := w, n := C.n, primary := C.primary, digest := C.digest, bls := C.bls, maxInFlight := C.maxInFlight
    cert := fun _ => s.vc.prevViewPrepareCert
    above := fun _ => highest s.named - s.vc.prevViewPrepareCert }

/-- Let the ordering service handle some events. -/
def St.order (s : St) (evs : List TPC.Event) : St :=
  { s with tpc := evs.foldl (TPC.Replica.step (tcfg C w s)) s.tpc, tlog := s.tlog ++ evs }

/-- Let the view change service handle an event. -/
def St.serve (s : St) (e : VC.Event) : St := { s with vc := s.vc.step (vcfg C w) e, vlog := s.vlog ++ [e] }

/-- consensus/utils.py:14-20: the key of `pp` in `old_view_preprepares`
(ordering_service.py:2375-2378). -/
def oldKey (pp : TPC.PrePrepare) : OldKey := (pp.origView, pp.seqNo, pp.content.digest)

/-- The key under which a batch id is looked up (ordering_service.py:2392). -/
def bidKey (b : BatchID) : OldKey := (b.ppViewNo, b.ppSeqNo, b.ppDigest)

/-- ordering_service.py:2375-2378, `_update_old_view_preprepares`, with the
PRE-PREPAREs received and then those sent (line 2338). -/
def keepOld (old : Dict OldKey TPC.PrePrepare) (r : TPC.Replica) : Dict OldKey TPC.PrePrepare :=
  (r.recvPP.map Prod.snd ++ r.sentPP.map Prod.snd).foldl (fun d pp => d.set (oldKey pp) pp) old

/-- checkpoint_service.py:169-189, `_mark_checkpoint_stable`: the shared data,
the watermarks, and `gc` of the ordering service (ordering_service.py:733-792)
with the kept PRE-PREPAREs (lines 762-763). Never called with a checkpoint below
the stable one or above the last ordered batch (see `TPC.Replica.step`). -/
def St.stabilize (s : St) (till : Nat) : St :=
  if s.tpc.stable ≤ till ∧ till ≤ s.tpc.lastOrdered.2 then
    let s := s.order C w [.stabilize till, .watermarks till (till + logSize)]
    let s := s.serve C w (.shared true till s.vc.checkpoints)
    { s with old := s.old.filter (fun e => !(e.1.2.1 ≤ till)) }
  else s

/-- ordering_service.py:2390-2396, one batch of the NEW_VIEW: apply the kept
PRE-PREPARE, or request it. -/
def St.takeOver (s : St) (b : BatchID) (env : Nat → TPC.PPEnv) : St :=
  match s.old.get? (bidKey b) with
  | some pp => s.order C w [.oldViewPP pp (env b.ppSeqNo)]
  | none => { s with asked := s.asked ++ [b] }

/-- checkpoint_service.py:292-318, `process_new_view_accepted`, and
ordering_service.py:2380-2407, `process_new_view_checkpoints_applied`. A node
without the checkpoint of the NEW_VIEW takes nothing over. -/
def St.newViewAccepted (s : St) (nv : VC.NewView) (env : Nat → TPC.PPEnv) : St :=
  let s := s.order C w [.acceptNewView]
  if !s.vc.checkpoints.contains nv.checkpoint then s
  else nv.batches.foldl (fun s b => s.takeOver C w b env) (s.stabilize C w nv.checkpoint.seqNoEnd)

/-- An event of the view change service; if it finishes the view change, the
other services are told (view_change_service.py:314-336). -/
def St.viewChange (s : St) (e : VC.Event) (env : Nat → TPC.PPEnv) : St :=
  let t := s.serve C w e
  if s.vc.accepted.length < t.vc.accepted.length then
    match t.vc.accepted.getLast? with
    | some nv => t.newViewAccepted C w nv env
    | none => t
  else t

/-- view_change_service.py:71-128, `process_need_view_change`, and
ordering_service.py:2332-2350, `process_view_change_started`. Nobody asks for a
view that is not higher than the current one. -/
def St.need (s : St) (v : Nat) : St :=
  if v ≤ s.tpc.view then s
  else
    let t := { s.serve C w (.need v s.tpc.prepared s.tpc.preprepared) with old := keepOld s.old s.tpc }
    t.order C w [.startViewChange v]

/-- ordering_service.py:2423-2437, one PRE-PREPARE of an
OLD_VIEW_PREPREPARE_REPLY. -/
def St.replied (s : St) (pp : TPC.PrePrepare) (env : Nat → TPC.PPEnv) : St :=
  if pp.batchId ∈ s.named then s.order C w [.oldViewPP pp (env pp.seqNo)] else s

/-- What happens to a node. -/
inductive Event
  /-- a PRE-PREPARE, PREPARE or COMMIT -/
  | msg (m : TPC.Msg) (frm : Node) (env : TPC.PPEnv)
  /-- the primary makes a batch -/
  | batch (b : TPC.NewBatch)
  /-- the timer of `_out_of_order_repeater` -/
  | tick
  /-- an own checkpoint is agreed upon -/
  | stable (till : Nat)
  /-- own checkpoints were made -/
  | checkpoints (cps : List VC.Checkpoint)
  /-- a view change starts -/
  | need (v : Nat)
  | viewChange (vc : VC.ViewChange) (frm : Node) (env : Nat → TPC.PPEnv)
  | ack (viewNo : Nat) (name : Node) (digest : Nat) (frm : Node) (env : Nat → TPC.PPEnv)
  | newView (nv : VC.NewView) (frm : Node) (env : Nat → TPC.PPEnv)
  /-- OLD_VIEW_PREPREPARE_REPLY, of any node -/
  | reply (pps : List TPC.PrePrepare) (env : Nat → TPC.PPEnv)
  /-- a batch taken over waited for a request or for the batch before it, and is
  tried again (`prePreparesPendingFinReqs`, `prePreparesPendingPrevPP`) -/
  | again (b : BatchID) (env : Nat → TPC.PPEnv)

def St.handle (s : St) : Event → St
  | .msg m frm env => s.order C w [.deliver m frm env]
  | .batch b => s.order C w [.createBatch b]
  | .tick => s.order C w [.orderStashed]
  | .stable till => s.stabilize C w till
  | .checkpoints cps => s.serve C w (.shared true s.vc.stableCheckpoint cps)
  | .need v => s.need C w v
  | .viewChange vc frm env => s.viewChange C w (.viewChange vc frm) env
  | .ack v name d frm env => s.viewChange C w (.ack v name d frm) env
  | .newView nv frm env => s.viewChange C w (.newView nv frm) env
  | .reply pps env => pps.foldl (fun s pp => s.replied C w pp env) s
  | .again b env => if b ∈ s.named then s.takeOver C w b env else s

/-- A node whose view change service raised an exception has stopped. -/
def St.step (s : St) (e : Event) : St := if s.vc.crashed then s else s.handle C w e

/-- A node after its events. -/
def run (evs : List Event) : St := evs.foldl (St.step C w) {}

/-- ordering_service.py:2409-2421, `process_old_view_preprepare_request`: what a
node answers. -/
def St.answer (s : St) (bids : List BatchID) : List TPC.PrePrepare := bids.filterMap (fun b => s.old.get? (bidKey b))

/-! ## The pool -/

/-- What happened, oldest first. -/
abbrev Schedule := List (Node × Event)

/-- The events of one node. -/
def mine (σ : Schedule) (w : Node) : List Event := (σ.filter (fun e => e.1 == w)).map Prod.snd

/-- A node after a schedule. -/
def node (C : Cfg) (σ : Schedule) (w : Node) : St := run C w (mine σ w)

def Cfg.Honest (C : Cfg) (w : Node) : Prop := w < C.n ∧ w ∉ C.bad

/-- message_handlers.py:293-299, `NewViewHandler._get_reply`: the NEW_VIEW a node
has, marked with the primary's name. -/
def St.newViewReply (s : St) : Option VC.NewView :=
  (s.vc.newViews.get s.vc.primaryName).map (fun nv => { nv with primary := some s.vc.primaryName })

/-- May this event happen to honest node `i` when the nodes are as `st` says?
Only messages are restricted: they come from another node of the pool, and one
in the name of an honest node was sent by it. Acknowledgements and the replies
with old PRE-PREPAREs are not restricted at all. -/
def Allowed (C : Cfg) (st : Node → St) (i : Node) : Event → Prop
  | .msg m frm _ => frm < C.n ∧ frm ≠ i ∧ (frm ∉ C.bad → m ∈ (st frm).tpc.out)
  | .viewChange vc frm _ => frm < C.n ∧ frm ≠ i ∧ (frm ∉ C.bad → vc ∈ (st frm).vc.sentVC)
  | .newView nv frm _ => frm < C.n ∧ frm ≠ i ∧
      (frm ∉ C.bad → nv ∈ (st frm).vc.sentNV ∨ (st frm).newViewReply = some nv)
  | _ => True

/-- A pool of `n` nodes, at most `f` of them Byzantine, whose honest nodes get
only messages that were sent. -/
structure Ok (C : Cfg) (σ : Schedule) : Prop where
  pos : 0 < C.n
  few : C.bad.length ≤ getMaxFailures C.n
  prim : ∀ v, C.primary v < C.n
  net : ∀ pre i e post, σ = pre ++ (i, e) :: post → C.Honest i → Allowed C (node C pre) i e

/-! ### Deciding the network condition of a concrete schedule -/

def allowedB (C : Cfg) (st : Node → St) (i : Node) : Event → Bool
  | .msg m frm _ => frm < C.n && frm != i && (C.bad.contains frm || (st frm).tpc.out.contains m)
  | .viewChange vc frm _ => frm < C.n && frm != i && (C.bad.contains frm || (st frm).vc.sentVC.contains vc)
  | .newView nv frm _ => frm < C.n && frm != i &&
      (C.bad.contains frm || (st frm).vc.sentNV.contains nv || (st frm).newViewReply == some nv)
  | _ => true

/-- Every event of `rest` is allowed after `pre`. -/
def netB (C : Cfg) (pre : Schedule) : Schedule → Bool
  | [] => true
  | e :: rest => (C.bad.contains e.1 || !(e.1 < C.n) || allowedB C (node C pre) e.1 e.2) && netB C (pre ++ [e]) rest

end Verif.Views
