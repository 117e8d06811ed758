import Verif.Model.ViewChange
/-!
# Model of how a node joins a view change of others

The messages of a view change that a node cannot use yet, and the count of the
VIEW_CHANGEs for later views, which makes a node start a view change:
`plenum/server/consensus/view_change_service.py`, with the queues of
`plenum/common/stashing_router.py` and the inbox of `plenum/server/replica.py`.

Left out: the limit of the queues (100000 messages), messages of other types.
-/
namespace Verif.VC

/-- node_messages.py:266-363, `ViewChange`, `ViewChangeAck` and `NewView`. -/
inductive VMsg
  | viewChange (vc : ViewChange)
  | ack (viewNo : Nat) (name : Node) (digest : Nat)
  | newView (nv : NewView)
  deriving DecidableEq, Repr

def VMsg.viewNo : VMsg → Nat
  | .viewChange vc => vc.viewNo
  | .ack v _ _ => v
  | .newView nv => nv.viewNo

/-- The message, looked at by the service. -/
def VMsg.event (m : VMsg) (frm : Node) : Event :=
  match m with
  | .viewChange vc => .viewChange vc frm
  | .ack v name d => .ack v name d frm
  | .newView nv => .newView nv frm

/-- The service with its queues: `later` are the messages stashed as
STASH_WAITING_VIEW_CHANGE, `catching` those stashed as STASH_CATCH_UP, `inbox`
those unstashed and not yet looked at again (replica.py:758-759,
`_add_to_inbox`), `counts` is `_stashed_vc_msgs`. `joined` records the views of
the NodeNeedViewChange messages sent. -/
structure Joiner where
  svc : Service := {}
  later : List (VMsg × Node) := []
  catching : List (VMsg × Node) := []
  inbox : List (VMsg × Node) := []
  counts : Dict Nat Nat := []
  joined : List Nat := []

def Joiner.count (j : Joiner) (v : Nat) : Nat := (j.counts.get? v).getD 0

variable (cfg : Cfg)

/-- view_change_service.py:71-128, `process_need_view_change`, with step 7: the
messages kept for later go to the inbox, then the counts are cleared. -/
def Joiner.need (j : Joiner) (v : Nat) (prepared preprepared : List BatchID) : Joiner :=
  { j with svc := j.svc.needViewChange cfg v prepared preprepared, inbox := j.inbox ++ j.later, later := [], counts := [] }

/-- view_change_service.py:162-170, the first lines of
`process_view_change_message`, for a message of a later view. NodeNeedViewChange
is handled at once (node.py:3189-3191, `_process_node_need_view_change`). -/
def Joiner.countLater (j : Joiner) (v : Nat) (prepared preprepared : List BatchID) : Joiner :=
  let j := { j with counts := j.counts.set v (j.count v + 1) }
  if (Quorums.ofN cfg.n).viewChange.isReached (j.count v) && !j.svc.waiting then
    { j.need cfg v prepared preprepared with joined := j.joined ++ [v] }
  else j

/-- stashing_router.py:163-183, `_process`: a message is looked at; what the
handler found of it, before it did anything, decides whether it is stashed.
`prepared` and `preprepared` are the lists of the shared data. -/
def Joiner.process (j : Joiner) (m : VMsg) (frm : Node) (prepared preprepared : List BatchID) : Joiner :=
  match j.svc.validate m.viewNo with
  | .discard => j
  | .process => { j with svc := j.svc.handle cfg (m.event frm) }
  | .stash =>
    if !j.svc.participating then { j with catching := j.catching ++ [(m, frm)] }
    else
      let j := match m with
        | .viewChange vc => j.countLater cfg vc.viewNo prepared preprepared
        | _ => j
      { j with later := j.later ++ [(m, frm)] }

/-- What can happen: a message arrives; the first message of the inbox is looked
at (replica.py:534-550, `_handle_external_messages`); the votes of others start a
view change; the shared data changes; a catchup is over
(ordering_service.py:2371, which unstashes STASH_CATCH_UP). -/
inductive JEvent
  | deliver (m : VMsg) (frm : Node) (prepared preprepared : List BatchID)
  | next (prepared preprepared : List BatchID)
  | need (viewNo : Nat) (prepared preprepared : List BatchID)
  | shared (participating : Bool) (stable : Nat) (checkpoints : List Checkpoint)
  | caughtUp
  deriving Repr

def Joiner.handle (j : Joiner) : JEvent → Joiner
  | .deliver m w p pp => j.process cfg m w p pp
  | .next p pp =>
    match j.inbox with
    | [] => j
    | (m, w) :: rest => { j with inbox := rest }.process cfg m w p pp
  | .need v p pp => if v < j.svc.viewNo then j else j.need cfg v p pp
  | .shared b st cps => { j with svc := j.svc.handle cfg (.shared b st cps) }
  | .caughtUp => { j with inbox := j.inbox ++ j.catching, catching := [] }

/-- A node that has stopped does nothing. -/
def Joiner.step (j : Joiner) (e : JEvent) : Joiner := if j.svc.crashed then j else j.handle cfg e

def runJ (evs : List JEvent) : Joiner := evs.foldl (Joiner.step cfg) {}

end Verif.VC
