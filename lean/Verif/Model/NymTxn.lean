import Verif.Model.PyVal
import Verif.Model.Dict
/-!
# NYM transactions and the limit of stewards

`NymHandler` (plenum/server/request_handlers/nym_handler.py). The domain state maps the
hash of a nym to its record; `H` is SHA-256. The handler also counts stewards in memory.
-/
namespace Verif.NymTxn
open Verif

/-- plenum/common/constants.py:145, the value of the role of stewards. -/
def steward : Bytes := ascii "2"

/-- What is stored for a nym: the fields set in
plenum/server/request_handlers/nym_handler.py:59-86, `update_state`. -/
structure Nym where
  identifier : Bytes
  role : Option Bytes
  verkey : Option Bytes
  seqNo : Nat
  txnTime : Int
deriving Repr, DecidableEq

/-- The domain state. -/
abbrev Domain := Dict Bytes Nym

/-- A NYM request with the sequence number and time its transaction gets. A field may
be absent, or present and null. -/
structure Req where
  sender : Bytes
  dest : Bytes
  role : Option (Option Bytes) := none
  verkey : Option (Option Bytes) := none
  seqNo : Nat := 0
  txnTime : Int := 0
deriving Repr, DecidableEq

/-- Reasons of refusal. -/
inductive Err where
  | notSteward
  | limit
deriving Repr, DecidableEq

/-- plenum/server/request_handlers/utils.py:30-35, `get_nym_details`, with
plenum/server/request_handlers/utils.py:38-39, `nym_to_state_key`. -/
def details (H : Bytes → Bytes) (d : Domain) (nym : Bytes) : Option Nym := d.get? (H nym)

/-- plenum/server/request_handlers/utils.py:12-14, `is_steward`, with
plenum/server/request_handlers/utils.py:22-27, `get_role`. -/
def isSteward (H : Bytes → Bytes) (d : Domain) (nym : Bytes) : Bool :=
  match details H d nym with
  | none => false
  | some r => r.role = some steward

/-- plenum/server/request_handlers/nym_handler.py:88-91, `_steward_threshold_exceeded`. -/
def exceeded (limit count : Int) : Bool := limit ≤ count

/-- plenum/server/request_handlers/nym_handler.py:33-47, `additional_dynamic_validation`.
The second error replaces the first. -/
def validate (H : Bytes → Bytes) (limit count : Int) (d : Domain) (r : Req) : Option Err :=
  if r.role.join = some steward ∧ exceeded limit count = true then some .limit
  else if !isSteward H d r.sender then some .notSteward
  else none

/-- plenum/server/request_handlers/nym_handler.py:64-82, the part of `update_state` that
makes the new record. -/
def newNym (old : Option Nym) (r : Req) : Nym :=
  match old with
  | none => ⟨r.sender, r.role.join, r.verkey.join, r.seqNo, r.txnTime⟩
  | some o => ⟨o.identifier, r.role.join, r.verkey.getD o.verkey, r.seqNo, r.txnTime⟩

/-- Whether the role in a record is steward. -/
def roleOf (old : Option Nym) : Bool :=
  match old with
  | none => false
  | some o => o.role = some steward

/-- plenum/server/request_handlers/nym_handler.py:101-108, `__update_steward_count`.
Every stored record has a role, possibly null. -/
def countStep (count : Int) (old : Option Nym) (new : Nym) : Int :=
  if roleOf old = true ∧ roleOf (some new) = false then count - 1
  else if roleOf old = false ∧ roleOf (some new) = true then count + 1
  else count

/-- plenum/server/request_handlers/nym_handler.py:59-86, `update_state`: the state and the
count. -/
def update (H : Bytes → Bytes) (s : Domain × Int) (r : Req) : Domain × Int :=
  let old := details H s.1 r.dest
  (s.1.set (H r.dest) (newNym old r), countStep s.2 old (newNym old r))

/-- A request is applied to a batch if it is valid. -/
def applyReq (H : Bytes → Bytes) (limit : Int) (s : Domain × Int) (r : Req) : Domain × Int :=
  if validate H limit s.2 s.1 r = none then update H s r else s

/-- The committed state, the states after each uncommitted batch, the last one first,
and the count: plenum/server/request_handlers/nym_handler.py:25-28, `__init__`. -/
structure Node where
  committed : Domain := []
  heads : List Domain := []
  count : Int := 0
deriving Repr

/-- The uncommitted state. -/
def Node.head (n : Node) : Domain := n.heads.headD n.committed

/-- What happens to the state: a batch of requests is applied; the last batch is
reverted; the first one is committed; a transaction of the genesis or from catch-up is
applied, which happens when there are no uncommitted batches; the node restarts, with
the state in its database. -/
inductive Ev where
  | batch (rs : List Req)
  | reject
  | commit
  | restore (r : Req)
  | restart
deriving Repr

/-- The effects. For `restore` see plenum/server/request_managers/write_request_manager.py:136-146, `restore_state`;
for `restart` see plenum/server/ledgers_bootstrap.py:255-273, `_init_state_from_ledger`, which
leaves a state that is there as it is. -/
def step (H : Bytes → Bytes) (limit : Int) (n : Node) : Ev → Node
  | .batch rs =>
    let s := rs.foldl (applyReq H limit) (n.head, n.count)
    { n with heads := s.1 :: n.heads, count := s.2 }
  | .reject => { n with heads := n.heads.tail }
  | .commit => { n with committed := n.heads.getLastD n.committed, heads := n.heads.dropLast }
  | .restore r =>
    if n.heads = [] then
      let s := update H (n.committed, n.count) r
      { n with committed := s.1, count := s.2 }
    else n
  | .restart => { n with heads := [], count := 0 }

/-- A history of a new node. -/
def run (H : Bytes → Bytes) (limit : Int) (evs : List Ev) : Node := evs.foldl (step H limit) {}

end Verif.NymTxn
