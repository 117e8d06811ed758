import Verif.Model.Quorums
import Verif.Model.Dict
import Verif.Model.BatchId
/-!
# Model of the view change

`plenum/server/consensus/view_change_service.py` and
`plenum/server/consensus/view_change_storages.py`.

Node names, digests and root hashes are naturals. `view_change_digest` is a
parameter `vd`; nothing is assumed of it.

Left out: the instance-change timer, logging, message requests (a requested
message arrives as an ordinary delivery), backup instances (line 85-87).
-/
namespace Verif.VC

abbrev Node := Nat

/-- node_messages.py:216-224, `Checkpoint` (of the master instance;
`seqNoStart` is always 0). -/
structure Checkpoint where
  viewNo : Nat
  seqNoEnd : Nat
  digest : Option Nat
  deriving DecidableEq, Repr

/-- node_messages.py:266-296, `ViewChange`. -/
structure ViewChange where
  viewNo : Nat
  stableCheckpoint : Nat
  prepared : List BatchID
  preprepared : List BatchID
  checkpoints : List Checkpoint
  deriving DecidableEq, Repr

/-- node_messages.py:329-363, `NewView`; `primary` is the optional field set on
requested messages. -/
structure NewView where
  viewNo : Nat
  viewChanges : List (Node × Nat)
  checkpoint : Checkpoint
  batches : List BatchID
  primary : Option Node := none
  deriving DecidableEq, Repr

/-! ## NewViewBuilder -/

/-- `sum(1 for vc in vcs if check(vc))`. -/
def witnesses (vcs : List ViewChange) (check : ViewChange → Bool) : Nat := (vcs.filter check).length

/-- Lines 372-393: whether a checkpoint is a candidate. -/
def cpCandidate (q : Quorums) (vcs : List ViewChange) (cp : Checkpoint) : Bool :=
  q.strong.isReached (witnesses vcs (fun vc => cp.seqNoEnd ≥ vc.stableCheckpoint)) &&
  q.strong.isReached (witnesses vcs (fun vc => vc.checkpoints.contains cp))

/-- Lines 395-399: the highest, the first among equals. -/
def highest : Option Checkpoint → List Checkpoint → Option Checkpoint
  | m, [] => m
  | none, cp :: cps => highest (some cp) cps
  | some m, cp :: cps => highest (if cp.seqNoEnd > m.seqNoEnd then some cp else some m) cps

/-- view_change_service.py:363-396, `calc_checkpoint`. A candidate seen twice is
kept twice, which does not change the highest one. -/
def calcCheckpoint (q : Quorums) (vcs : List ViewChange) : Option Checkpoint :=
  highest none ((vcs.flatMap (·.checkpoints)).filter (cpCandidate q vcs))

/-- view_change_service.py:434-455, `_is_batch_prepared`. -/
def isBatchPrepared (q : Quorums) (vcs : List ViewChange) (bid : BatchID) : Bool :=
  q.strong.isReached (witnesses vcs (fun vc =>
    !(bid.ppSeqNo ≤ vc.stableCheckpoint) &&
    vc.prepared.all (fun some_bid =>
      if some_bid.ppSeqNo ≠ bid.ppSeqNo then true
      else if some_bid.viewNo > bid.viewNo then false
      else if some_bid.viewNo ≥ bid.viewNo && some_bid.ppDigest ≠ bid.ppDigest then false
      else if some_bid.viewNo ≥ bid.viewNo && some_bid.ppViewNo ≠ bid.ppViewNo then false
      else true)))

/-- view_change_service.py:457-473, `_is_batch_preprepared`. -/
def isBatchPreprepared (q : Quorums) (vcs : List ViewChange) (bid : BatchID) : Bool :=
  q.weak.isReached (witnesses vcs (fun vc =>
    vc.preprepared.any (fun some_bid =>
      some_bid.ppSeqNo = bid.ppSeqNo && some_bid.ppViewNo = bid.ppViewNo &&
      some_bid.ppDigest = bid.ppDigest && some_bid.viewNo ≥ bid.viewNo)))

/-- view_change_service.py:475-487, `_check_null_batch`. -/
def checkNullBatch (q : Quorums) (vcs : List ViewChange) (ppSeqNo : Nat) : Bool :=
  q.strong.isReached (witnesses vcs (fun vc =>
    !(ppSeqNo ≤ vc.stableCheckpoint) && vc.prepared.all (fun b => b.ppSeqNo ≠ ppSeqNo)))

/-- view_change_service.py:420-432, `_try_find_batch_for_pp_seq_no`. -/
def tryFindBatch (q : Quorums) (vcs : List ViewChange) (ppSeqNo : Nat) : Option BatchID :=
  (vcs.flatMap (·.prepared)).find? (fun bid =>
    bid.ppSeqNo = ppSeqNo && isBatchPrepared q vcs bid && isBatchPreprepared q vcs bid)

/-- The loop of `calc_batches` (lines 402-416): `k` steps left. -/
def batchLoop (q : Quorums) (vcs : List ViewChange) : Nat → Nat → List BatchID → Option (List BatchID)
  | 0, _, acc => some acc
  | k + 1, s, acc =>
    match tryFindBatch q vcs s with
    | some bid => batchLoop q vcs k (s + 1) (acc ++ [bid])
    | none => if checkNullBatch q vcs s then some acc else none

/-- Python's order of `BatchID` tuples (digests are compared as numbers). -/
def bidLe (a b : BatchID) : Bool :=
  a.viewNo < b.viewNo || (a.viewNo == b.viewNo &&
    (a.ppViewNo < b.ppViewNo || (a.ppViewNo == b.ppViewNo &&
      (a.ppSeqNo < b.ppSeqNo || (a.ppSeqNo == b.ppSeqNo && a.ppDigest ≤ b.ppDigest)))))

def insertBid (b : BatchID) : List BatchID → List BatchID
  | [] => [b]
  | c :: l => if bidLe b c then b :: c :: l else c :: insertBid b l

/-- `sorted(batches)`. -/
def sortBids : List BatchID → List BatchID
  | [] => []
  | b :: l => insertBid b (sortBids l)

/-- view_change_service.py:398-418, `calc_batches`. The batches found are of
different sequence numbers, so the code's set is a list here. -/
def calcBatches (q : Quorums) (logSize : Nat) (cp : Checkpoint) (vcs : List ViewChange) : Option (List BatchID) :=
  (batchLoop q vcs logSize (cp.seqNoEnd + 1) []).map sortBids

/-! ## Votes -/

/-- Insertion by name. -/
def insertVote (v : Node × Nat) : List (Node × Nat) → List (Node × Nat)
  | [] => [v]
  | c :: l => if v.1 ≤ c.1 then v :: c :: l else c :: insertVote v l

/-- `sorted(confirmed_votes, key=itemgetter(0))`, line 264. -/
def sortVotes : List (Node × Nat) → List (Node × Nat)
  | [] => []
  | v :: l => insertVote v (sortVotes l)

/-- view_change_storages.py:20-83, `ViewChangeVotesForNode`: the first
VIEW_CHANGE and the senders of acknowledgements per digest. -/
structure NodeVotes where
  vc : Option ViewChange := none
  acks : Dict Nat (List Node) := []
  deriving Repr

def NodeVotes.acksFor (v : NodeVotes) (d : Nat) : List Node := (v.acks.get? d).getD []

/-- Lines 45-53, `is_confirmed`. -/
def NodeVotes.isConfirmed (q : Quorums) (vd : ViewChange → Nat) (v : NodeVotes) : Bool :=
  match v.vc with
  | none => false
  | some vc => q.viewChangeAck.isReached (v.acksFor (vd vc)).length

/-- Lines 55-64, `add_view_change`. -/
def NodeVotes.addViewChange (v : NodeVotes) (vc : ViewChange) : NodeVotes :=
  match v.vc with
  | none => { v with vc := some vc }
  | some _ => v

/-- Lines 66-71, `add_view_change_ack`. -/
def NodeVotes.addAck (v : NodeVotes) (digest : Nat) (frm : Node) : NodeVotes :=
  { v with acks := v.acks.set digest (if frm ∈ v.acksFor digest then v.acksFor digest else v.acksFor digest ++ [frm]) }

/-- view_change_storages.py:88-132, `ViewChangeVotesForView`: votes by node. -/
abbrev Votes := Dict Node NodeVotes

def Votes.of (v : Votes) (frm : Node) : NodeVotes := (Dict.get? v frm).getD {}

/-- Lines 96-98, `confirmed_votes`. -/
def Votes.confirmed (q : Quorums) (vd : ViewChange → Nat) (v : Votes) : List (Node × Nat) :=
  v.filterMap (fun e => if e.2.isConfirmed q vd then e.2.vc.map (fun vc => (e.1, vd vc)) else none)

/-- Lines 100-103, `get_view_change`. -/
def Votes.getViewChange (vd : ViewChange → Nat) (v : Votes) (frm : Node) (digest : Nat) : Option ViewChange :=
  match (v.of frm).vc with
  | some vc => if vd vc = digest then some vc else none
  | none => none

/-- Lines 105-110. -/
def Votes.addViewChange (v : Votes) (vc : ViewChange) (frm : Node) : Votes :=
  Dict.set v frm ((v.of frm).addViewChange vc)

/-- Lines 112-117. -/
def Votes.addAck (v : Votes) (name : Node) (digest : Nat) (frm : Node) : Votes :=
  Dict.set v name ((v.of name).addAck digest frm)

/-- view_change_storages.py:135-147, `NewViewVotes` and `NewViewVotesForView`.
The code keys the votes by a digest of the message, the model by the message. -/
structure NewViewVotes where
  votes : Dict NewView (List Node) := []
  newView : Option NewView := none
  deriving Repr

/-- Lines 161-176, `get_new_view`. -/
def NewViewVotes.get (v : NewViewVotes) (primary : Node) : Option NewView :=
  match v.newView with
  | some nv => some nv
  | none => (v.votes.find? (fun e => e.2 == [primary] && e.1.primary.isNone)).map Prod.fst

/-- Lines 191-196, `add_new_view`. -/
def NewViewVotes.add (q : Quorums) (v : NewViewVotes) (nv : NewView) (frm : Node) : NewViewVotes :=
  let old := (v.votes.get? nv).getD []
  let vs := if frm ∈ old then old else old ++ [frm]
  { votes := v.votes.set nv vs, newView := if q.strong.isReached vs.length then some nv else v.newView }

/-! ## The service of one master replica -/

structure Cfg where
  name : Node
  n : Nat
  /-- `select_master_primary` of each view -/
  primary : Nat → Node
  /-- `view_change_digest` -/
  vd : ViewChange → Nat
  /-- `LOG_SIZE` -/
  logSize : Nat

/-- Fields of `ViewChangeService` and of `ConsensusSharedData` it uses. `sent`
and `accepted` record the VIEW_CHANGE, NEW_VIEW messages sent and the NEW_VIEWs
view changes were finished with. -/
structure Service where
  viewNo : Nat := 0
  waiting : Bool := false
  participating : Bool := true
  primaryName : Node := 0
  stableCheckpoint : Nat := 0
  checkpoints : List Checkpoint := [⟨0, 0, none⟩]
  prevViewPrepareCert : Nat := 0
  votes : Votes := []
  newViews : NewViewVotes := {}
  oldPrepared : Dict Nat BatchID := []
  oldPreprepared : Dict Nat (List BatchID) := []
  sentVC : List ViewChange := []
  sentNV : List NewView := []
  accepted : List NewView := []
  /-- an exception stopped the node -/
  crashed : Bool := false

variable (cfg : Cfg)

/-- `_validate` (lines 220-238) on the master. -/
inductive VCode | process | discard | stash
  deriving DecidableEq, Repr

def Service.validate (s : Service) (viewNo : Nat) : VCode :=
  if viewNo < s.viewNo then .discard
  else if viewNo = s.viewNo && !s.waiting then .discard
  else if !s.participating then .stash
  else if viewNo > s.viewNo then .stash
  else .process

/-- view_change_service.py:141-160, `_build_view_change_msg`, with the lists
`prepared` and `preprepared` of the shared data. -/
def Service.buildViewChange (s : Service) (prepared preprepared : List BatchID) : Service × ViewChange :=
  let oldP := prepared.foldl (fun d b => d.set b.ppSeqNo b) s.oldPrepared
  let oldPP := preprepared.foldl (fun d b =>
    d.set b.ppSeqNo ((((d.get? b.ppSeqNo).getD []).filter (fun c => c.ppDigest ≠ b.ppDigest)) ++ [b])) s.oldPreprepared
  ({ s with oldPrepared := oldP, oldPreprepared := oldPP },
   { viewNo := s.viewNo, stableCheckpoint := s.stableCheckpoint
     prepared := sortBids (oldP.map Prod.snd)
     preprepared := sortBids (oldPP.flatMap Prod.snd)
     checkpoints := s.checkpoints })

/-- view_change_service.py:71-128, `process_need_view_change` and
`_clean_on_view_change_start`. -/
def Service.needViewChange (s : Service) (viewNo : Nat) (prepared preprepared : List BatchID) : Service :=
  let s := { s with
    oldPrepared := s.oldPrepared.filter (fun e => !(e.1 ≤ s.stableCheckpoint))
    oldPreprepared := s.oldPreprepared.filter (fun e => !(e.1 ≤ s.stableCheckpoint))
    votes := []
    newViews := {}
    viewNo := viewNo
    waiting := true
    primaryName := cfg.primary viewNo }
  let (s, vc) := s.buildViewChange prepared preprepared
  { s with sentVC := s.sentVC ++ [vc], votes := s.votes.addViewChange vc cfg.name }

/-- view_change_service.py:314-333, `_finish_view_change`, with the NEW_VIEW
`new_view` returns. Without one (a primary whose NEW_VIEW another node sent it
before) `self._data.new_view.batches` is an `AttributeError`, which nothing
catches. -/
def Service.finish (s : Service) : Service :=
  match s.newViews.get s.primaryName with
  | none => { s with crashed := true }
  | some nv =>
    { s with
      waiting := false
      prevViewPrepareCert := match nv.batches.getLast? with
        | some b => b.ppSeqNo
        | none => nv.checkpoint.seqNoEnd
      primaryName := nv.primary.getD s.primaryName
      accepted := s.accepted ++ [nv] }

/-- view_change_service.py:242-273, `_send_new_view_if_needed`. -/
def Service.sendNewViewIfNeeded (s : Service) : Service :=
  let q := Quorums.ofN cfg.n
  let confirmed := s.votes.confirmed q cfg.vd
  if !q.viewChange.isReached confirmed.length then s
  else
    let vcs := confirmed.filterMap (fun e => s.votes.getViewChange cfg.vd e.1 e.2)
    match calcCheckpoint q vcs with
    | none => s
    | some cp =>
      match calcBatches q cfg.logSize cp vcs with
      | none => s
      | some batches =>
        if !s.checkpoints.contains cp then s
        else
          let nv : NewView := ⟨s.viewNo, sortVotes confirmed, cp, batches, none⟩
          let s := { s with sentNV := s.sentNV ++ [nv], newViews := s.newViews.add q nv cfg.name }
          s.finish

/-- view_change_service.py:275-312, `_finish_view_change_if_needed`. The
requests for missing messages and the votes for another view change are left
out. -/
def Service.finishIfNeeded (s : Service) : Service :=
  match s.newViews.get s.primaryName with
  | none => s
  | some nv =>
    match nv.viewChanges.mapM (fun e => s.votes.getViewChange cfg.vd e.1 e.2) with
    | none => s
    | some vcs =>
      let q := Quorums.ofN cfg.n
      match calcCheckpoint q vcs with
      | none => s
      | some cp =>
        if cp ≠ nv.checkpoint then s
        else if calcBatches q cfg.logSize cp vcs ≠ some nv.batches then s
        else s.finish

/-- view_change_service.py:162-193, `process_view_change_message`. -/
def Service.processViewChange (s : Service) (vc : ViewChange) (frm : Node) : Service :=
  if s.validate vc.viewNo ≠ .process then s
  else
    let s := { s with votes := (s.votes.addViewChange vc frm).addAck frm (cfg.vd vc) cfg.name }
    if s.primaryName = cfg.name then s.sendNewViewIfNeeded cfg else s.finishIfNeeded cfg

/-- view_change_service.py:195-207, `process_view_change_ack_message`. -/
def Service.processAck (s : Service) (viewNo : Nat) (name : Node) (digest : Nat) (frm : Node) : Service :=
  if s.validate viewNo ≠ .process then s
  else if s.primaryName ≠ cfg.name then s
  else { s with votes := s.votes.addAck name digest frm }.sendNewViewIfNeeded cfg

/-- view_change_service.py:209-221, `process_new_view_message`. -/
def Service.processNewView (s : Service) (nv : NewView) (frm : Node) : Service :=
  if s.validate nv.viewNo ≠ .process then s
  else { s with newViews := s.newViews.add (Quorums.ofN cfg.n) nv frm }.finishIfNeeded cfg

/-- Everything that can happen to the service. `shared` is a change made by the
other services to the shared data. -/
inductive Event
  | need (viewNo : Nat) (prepared preprepared : List BatchID)
  | viewChange (vc : ViewChange) (frm : Node)
  | ack (viewNo : Nat) (name : Node) (digest : Nat) (frm : Node)
  | newView (nv : NewView) (frm : Node)
  | shared (participating : Bool) (stable : Nat) (checkpoints : List Checkpoint)
  deriving Repr

/-- A view change is asked for a view that is not lower than the current one:
`view_change_trigger_service.py:44-48` and node.py, which pass a greater
number. -/
def Service.handle (s : Service) : Event → Service
  | .need v p pp => if v < s.viewNo then s else s.needViewChange cfg v p pp
  | .viewChange vc frm => s.processViewChange cfg vc frm
  | .ack v name d frm => s.processAck cfg v name d frm
  | .newView nv frm => s.processNewView cfg nv frm
  | .shared p st cps => { s with participating := p, stableCheckpoint := st, checkpoints := cps }

/-- A node that has stopped does nothing. -/
def Service.step (s : Service) (e : Event) : Service := if s.crashed then s else s.handle cfg e

def run (evs : List Event) : Service := evs.foldl (Service.step cfg) {}

end Verif.VC
