import Verif.Model.Quorums
import Verif.Model.Dict
/-!
# Model of the votes for a view change

`plenum/server/view_change/instance_change_provider.py` and
`plenum/server/consensus/view_change_trigger_service.py`.

Node names, timestamps and suspicion codes are naturals. A database value is the
dictionary that was serialized (the JSON round trip is not modelled), a key is
the view number after the prefix.

Simplified: the clock does not move while one message is handled (`_update_votes`
reads it for each vote).
-/
namespace Verif.IC

abbrev Node := Nat

/-- instance_change_provider.py:11-13, `Vote`. -/
structure Vote where
  ts : Nat
  reason : Nat
  deriving DecidableEq, Repr

abbrev Votes := Dict Node Vote

/-! ## InstanceChangeProvider -/

/-- instance_change_provider.py:18-20, `InstanceChangeCache.add`. -/
def cacheAdd (c : Dict Nat Votes) (viewNo : Nat) (voter : Node) (v : Vote) : Dict Nat Votes :=
  c.set viewNo (((c.get? viewNo).getD []).set voter v)

/-- A write to the database: `put`, or `remove` when there is no value. -/
abbrev Write := Nat × Option Votes

/-- kv_store.py: `put` and `remove`. -/
def applyWrite (db : Dict Nat Votes) : Write → Dict Nat Votes
  | (v, some votes) => db.set v votes
  | (v, none) => db.erase v

/-- instance_change_provider.py:93-101, `_update_db_from_cache`. -/
def dbFromCache (c : Dict Nat Votes) (viewNo : Nat) : Write :=
  match c.get? viewNo with
  | none => (viewNo, none)
  | some [] => (viewNo, none)
  | some votes => (viewNo, some votes)

/-- What an operation on the votes does: the new cache, and what it writes to the
database, in order, each after the change of the cache it is for. -/
structure Effect where
  cache : Dict Nat Votes
  writes : List Write

/-- instance_change_provider.py:42-49, `add_vote`. -/
def addVote (c : Dict Nat Votes) (now viewNo reason : Nat) (voter : Node) : Effect :=
  let c := cacheAdd c viewNo voter ⟨now, reason⟩
  ⟨c, [dbFromCache c viewNo]⟩

/-- Line 83: `vote.timestamp < now - self._outdated_ic_interval`. -/
def outdated (interval now : Nat) (v : Vote) : Bool := v.ts < now - interval

/-- instance_change_provider.py:78-91, `_update_votes`, and lines 22-27,
`remove_vote`: an entry left without votes is deleted. -/
def updateVotes (c : Dict Nat Votes) (interval now viewNo : Nat) : Effect :=
  match c.get? viewNo with
  | none => ⟨c, []⟩
  | some votes =>
    if interval = 0 then ⟨c, []⟩
    else if votes.any (fun e => outdated interval now e.2) then
      let kept := votes.filter (fun e => !outdated interval now e.2)
      let c := if kept.isEmpty then c.erase viewNo else c.set viewNo kept
      ⟨c, [dbFromCache c viewNo]⟩
    else ⟨c, []⟩

/-- instance_change_provider.py:64-69, `remove_view`. The Python goes through the
views in ascending order. -/
def removeView (c : Dict Nat Votes) (upTo : Nat) : Effect :=
  ⟨c.filter (fun e => !(e.1 ≤ upTo)), (c.keys.filter (fun v => v ≤ upTo)).map (fun v => (v, none))⟩

/-- instance_change_provider.py:103-128, `_fill_cache_by_db`. -/
def fillCache (db : Dict Nat Votes) : Dict Nat Votes :=
  db.foldl (fun c e => e.2.foldl (fun c w => cacheAdd c e.1 w.1 w.2) c) []

/-! ## ViewChangeTriggerService -/

structure Cfg where
  name : Node
  n : Nat
  interval : Nat

/-- The service, its votes and the shared data it reads. `started` are the views
of the NodeNeedViewChange messages sent, `sent` those of the InstanceChange
messages sent. -/
structure State where
  cache : Dict Nat Votes := []
  db : Dict Nat Votes := []
  clock : Nat := 0
  view : Nat := 0
  waiting : Bool := false
  participating : Bool := true
  connected : List Node := []
  degraded : Bool := false
  started : List Nat := []
  sent : List Nat := []

def State.effect (s : State) (e : Effect) : State :=
  { s with cache := e.cache, db := e.writes.foldl applyWrite s.db }

/-- instance_change_provider.py:55-57, `has_inst_chng_from`: the state after
`_update_votes`, and the answer. -/
def State.hasFrom (cfg : Cfg) (s : State) (viewNo : Nat) (voter : Node) : State × Bool :=
  let s := s.effect (updateVotes s.cache cfg.interval s.clock viewNo)
  (s, match s.cache.get? viewNo with
    | none => false
    | some votes => votes.has voter)

/-- instance_change_provider.py:59-61, `has_quorum`. -/
def State.hasQuorum (cfg : Cfg) (s : State) (viewNo quorum : Nat) : State × Bool :=
  let s := s.effect (updateVotes s.cache cfg.interval s.clock viewNo)
  (s, match s.cache.get? viewNo with
    | none => false
    | some votes => votes.length ≥ quorum)

/-- view_change_trigger_service.py:128-138, `_try_start_view_change_by_instance_change`
and `_can_view_change`. NodeNeedViewChange is handled at once
(view_change_service.py:83-84 sets `view_no` and `waiting_for_new_view`). -/
def State.tryStart (cfg : Cfg) (s : State) (viewNo : Nat) : State :=
  let (s, q) := s.hasQuorum cfg viewNo (Quorums.ofN cfg.n).viewChange.value
  if q && viewNo > s.view then { s with started := s.started ++ [viewNo], view := viewNo, waiting := true } else s

/-- view_change_trigger_service.py:120-126, `_on_verified_instance_change_msg`. -/
def State.onVerified (cfg : Cfg) (s : State) (viewNo reason : Nat) (frm : Node) : State :=
  let (s, has) := s.hasFrom cfg viewNo frm
  if has then s
  else
    let s := s.effect (addVote s.cache s.clock viewNo reason frm)
    if viewNo > s.view then s.tryStart cfg viewNo else s

/-- view_change_trigger_service.py:112-118, `_send_instance_change`. -/
def State.sendIC (cfg : Cfg) (s : State) (viewNo reason : Nat) : State :=
  { s with sent := s.sent ++ [viewNo] }.onVerified cfg viewNo reason cfg.name

/-- view_change_trigger_service.py:76-107, `process_instance_change`; a stashed
message is ignored, and its replay is one more delivery. 25 is the code of
PRIMARY_DEGRADED. -/
def State.processIC (cfg : Cfg) (s : State) (viewNo reason : Nat) (frm : Node) : State :=
  if frm ∉ s.connected then s
  else if !s.participating then s
  else if viewNo ≤ s.view then s
  else
    let s := s.onVerified cfg viewNo reason frm
    let (s, has) := s.hasFrom cfg viewNo cfg.name
    if has then s
    else if !s.degraded then s
    else s.sendIC cfg viewNo 25

/-- view_change_trigger_service.py:63-74, `process_vote_for_view_change`; `stale`
says that the suspicion is STATE_SIGS_ARE_NOT_UPDATED. -/
def State.processVote (cfg : Cfg) (s : State) (stale : Bool) (reason : Nat) (viewNo : Option Nat) : State :=
  let proposed := if !stale || !s.waiting then s.view + 1 else s.view
  s.sendIC cfg (viewNo.getD proposed) reason

/-- What the service sees. `restart c`: the node is restarted, with its clock at
`c`; the view is restored by other parts, and may be any (`setView`). -/
inductive Event
  | ic (viewNo reason : Nat) (frm : Node)
  | vote (stale : Bool) (reason : Nat) (viewNo : Option Nat)
  | newViewAccepted
  | tick (d : Nat)
  | restart (clock : Nat)
  | setView (v : Nat) (waiting : Bool)
  | setMode (participating : Bool)
  | setConnected (l : List Node)
  | setDegraded (b : Bool)

def State.step (cfg : Cfg) (s : State) : Event → State
  | .ic v r w => s.processIC cfg v r w
  | .vote st r v => s.processVote cfg st r v
  | .newViewAccepted => { s.effect (removeView s.cache s.view) with waiting := false }
  | .tick d => { s with clock := s.clock + d }
  | .restart c => { s with clock := c, cache := fillCache s.db }
  | .setView v w => { s with view := v, waiting := w }
  | .setMode p => { s with participating := p }
  | .setConnected l => { s with connected := l }
  | .setDegraded b => { s with degraded := b }

def run (cfg : Cfg) (evs : List Event) : State := evs.foldl (State.step cfg) {}

/-- The time that passed. -/
def elapsed : List Event → Nat
  | [] => 0
  | .tick d :: evs => d + elapsed evs
  | _ :: evs => elapsed evs

end Verif.IC
