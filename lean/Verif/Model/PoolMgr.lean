import Verif.Model.NodeTxn
/-!
# The pool manager

What a node knows of the other nodes: `TxnPoolManager` (plenum/server/pool_manager.py)
and `TxnStackManager` (plenum/common/stack_manager.py). It is read from the pool ledger
when a node starts and kept up to date with each NODE transaction after that. Connecting
and disconnecting, votes for view changes and the BLS keys are left out. The pool ledger
is the list of its NODE requests.
-/
namespace Verif.PoolMgr
open Verif Verif.NodeTxn

/-- Exceptions raised while transactions are taken over. -/
inductive Fail where
  | keyError
  | aliasChanged
deriving Repr, DecidableEq

/-- plenum/server/pool_manager.py:100-119, the fields of `TxnPoolManager`. `ids` is
`_ordered_node_ids` and `services` is `_ordered_node_services`. `reg` and `cli` are
`nodeReg` and `cliNodeReg`; the suffix of the names of client stacks is left out. `keys`
are the stored keys of remotes, by name. -/
structure Mgr where
  ids : Dict Bytes Fv := []
  services : Dict Bytes (List Bytes) := []
  reg : Dict Fv (Fv × Fv) := []
  cli : Dict Fv (Fv × Fv) := []
  keys : Dict Fv Bytes := []
deriving Repr, DecidableEq

/-- The service of nodes that take part in the consensus. -/
def validator : Bytes := ascii "VALIDATOR"

/-- `data.get(SERVICES)`. What is not a list does not pass the schema; it is taken as
absent. -/
def svcOf (data : Rec) : Option (List Bytes) :=
  match data.get? .services with
  | some (.list l) => some l
  | _ => none

/-- Indexing of a dictionary. -/
def index {α β : Type} [DecidableEq α] (d : Dict α β) (k : α) : Except Fail β :=
  match d.get? k with
  | some v => .ok v
  | none => .error .keyError

/-- Two fields of the data of a transaction, both of which are needed. -/
def addr (data : Rec) (ip port : Field) : Except Fail (Fv × Fv) := do
  return (← index data ip, ← index data port)

/-- plenum/server/pool_manager.py:385-396, `_set_node_ids_in_cache`. -/
def setId (ids : Dict Bytes Fv) (nym : Bytes) (alias : Fv) : Except Fail (Dict Bytes Fv) :=
  match ids.get? nym with
  | none => .ok (ids.set nym alias)
  | some a => if a = alias then .ok ids else .error .aliasChanged

/-- plenum/server/pool_manager.py:398-400, `_set_node_services_in_cache`. -/
def setServices (svc : Dict Bytes (List Bytes)) (nym : Bytes) : Option (List Bytes) → Dict Bytes (List Bytes)
  | none => svc
  | some l => svc.set nym l

/-- plenum/server/pool_manager.py:377-383, the body of the loop in `_load_nodes_order_from_ledger`. -/
def loadOne (c : Dict Bytes Fv × Dict Bytes (List Bytes)) (r : Req) :
    Except Fail (Dict Bytes Fv × Dict Bytes (List Bytes)) := do
  let ids ← setId c.1 r.dest (← index r.data .alias)
  return (ids, setServices c.2 r.dest (svcOf r.data))

/-- plenum/server/pool_manager.py:374-383, `_load_nodes_order_from_ledger`. -/
def loadOrder (ledger : List Req) : Except Fail (Dict Bytes Fv × Dict Bytes (List Bytes)) :=
  ledger.foldlM loadOne ([], [])

/-- What is gathered from the ledger. -/
structure Parsed where
  reg : Dict Fv (Fv × Fv) := []
  cli : Dict Fv (Fv × Fv) := []
  keys : Dict Fv Bytes := []
  active : List Fv := []
deriving Repr, DecidableEq

/-- An address is taken if both of its fields are there. -/
def setHa (d : Dict Fv (Fv × Fv)) (alias : Fv) (ip port : Option Fv) : Dict Fv (Fv × Fv) :=
  match ip, port with
  | some i, some p => d.set alias (i, p)
  | _, _ => d

/-- plenum/common/stack_manager.py:93-98, the part of `_parse_pool_transaction_file` on the services. -/
def setActive (active : List Fv) (alias : Fv) : Option (List Bytes) → List Fv
  | none => active
  | some l => if validator ∈ l then alias :: active else active.filter (· ≠ alias)

/-- plenum/common/stack_manager.py:64-98, the body of the loop in `_parse_pool_transaction_file`.
The keys are taken from the nym, whatever the transaction says of the key. The nym and the
sender are correct keys. -/
def parseOne (s : Parsed) (r : Req) : Except Fail Parsed := do
  let alias ← index r.data .alias
  return { reg := setHa s.reg alias (r.data.get? .nodeIp) (r.data.get? .nodePort)
           cli := setHa s.cli alias (r.data.get? .clientIp) (r.data.get? .clientPort)
           keys := s.keys.set alias r.dest
           active := setActive s.active alias (svcOf r.data) }

/-- plenum/common/stack_manager.py:24-55, `parseLedgerForHaAndKeys` with `returnActive`. -/
def parse (ledger : List Req) : Except Fail Parsed := do
  let s ← ledger.foldlM parseOne {}
  return { s with reg := s.reg.filter (fun e => decide (e.1 ∈ s.active))
                  cli := s.cli.filter (fun e => !(s.reg.has e.1 && decide (e.1 ∉ s.active)))
                  keys := s.keys.filter (fun e => !(s.reg.has e.1 && decide (e.1 ∉ s.active))) }

/-- plenum/server/pool_manager.py:100-119, `__init__`, with plenum/server/pool_manager.py:128-158,
`getStackParamsAndNodeReg`, and plenum/common/stack_manager.py:208-224, `addRemoteKeysFromLedger`:
the start of a node. Its own addresses are given on the command line. Keys stored
earlier for nodes that are not in the registry are left out. -/
def load (ledger : List Req) : Except Fail Mgr := do
  let c ← loadOrder ledger
  let s ← parse ledger
  return { ids := c.1, services := c.2, reg := s.reg, cli := s.cli, keys := s.keys }

/-- plenum/common/stack_manager.py:100-126, `connectNewRemote`, for a node. -/
def connectNewRemote (m : Mgr) (alias : Fv) (nym : Bytes) (data : Rec) : Except Fail Mgr := do
  let nHa ← addr data .nodeIp .nodePort
  let cHa ← addr data .clientIp .clientPort
  return { m with reg := m.reg.set alias nHa, cli := m.cli.set alias cHa, keys := m.keys.set alias nym }

/-- plenum/server/pool_manager.py:204-215, `addNewNodeAndConnect`. -/
def addNew (self : Fv) (m : Mgr) (alias : Fv) (r : Req) : Except Fail Mgr :=
  if alias = self then do
    let nHa ← addr r.data .nodeIp .nodePort
    let cHa ← addr r.data .clientIp .clientPort
    return { m with reg := m.reg.set alias nHa, cli := m.cli.set alias cHa }
  else connectNewRemote m alias r.dest r.data

/-- plenum/server/pool_manager.py:294-310, the part of `nodeServicesChanged` on a node that
gets the service. `pool` is the committed pool state; the record is joined with the data
of the transaction, in plenum/common/stack_manager.py:256-258, `updateNodeTxns`, after
the registries are set. -/
def promote (self : Fv) (m : Mgr) (pool : Pool) (r : Req) : Except Fail Mgr := do
  let name ← index m.ids r.dest
  let info := getRec pool r.dest
  let nHa ← addr info .nodeIp .nodePort
  let cHa ← addr info .clientIp .clientPort
  let m1 := { m with reg := m.reg.set name nHa, cli := m.cli.set name cHa }
  if self ≠ name then connectNewRemote m1 name r.dest (merge info r.data) else return m1

/-- plenum/server/pool_manager.py:312-316, the part of `nodeServicesChanged` on a node that
loses the service. -/
def demote (m : Mgr) (r : Req) : Except Fail Mgr := do
  let name ← index m.ids r.dest
  let _ ← index m.reg name
  let _ ← index m.cli name
  return { m with reg := m.reg.erase name, cli := m.cli.erase name }

/-- plenum/server/pool_manager.py:284-328, `nodeServicesChanged`. Nothing is done for equal
sets of services, nor for sets that agree on the one service that matters. -/
def servicesChanged (self : Fv) (m : Mgr) (pool : Pool) (r : Req) (new : List Bytes) : Except Fail Mgr :=
  let old := (m.services.get? r.dest).getD []
  if validator ∈ new ∧ validator ∉ old then promote self m pool r
  else if validator ∈ old ∧ validator ∉ new then demote m r
  else .ok m

/-- One address, the given fields of which replace what was there. -/
def changeHa (old : Fv × Fv) (ip port : Option Fv) : Fv × Fv := (ip.getD old.1, port.getD old.2)

/-- plenum/server/pool_manager.py:222-261, `nodeHaChanged`, and plenum/common/stack_manager.py:128-174,
`stackHaChanged`, which agree on the registries. -/
def haChanged (m : Mgr) (r : Req) : Except Fail Mgr := do
  let name ← index m.ids r.dest
  let n ← index m.reg name
  let c ← index m.cli name
  return { m with reg := m.reg.set name (changeHa n (r.data.get? .nodeIp) (r.data.get? .nodePort))
                  cli := m.cli.set name (changeHa c (r.data.get? .clientIp) (r.data.get? .clientPort)) }

/-- plenum/server/pool_manager.py:263-282, `nodeKeysChanged`, with plenum/common/stack_manager.py:176-194,
`stackKeysChanged`. Keys in the abbreviated form are not correct keys and are refused
before. -/
def keysChanged (self : Fv) (m : Mgr) (r : Req) (key : Bytes) : Except Fail Mgr := do
  let name ← index m.ids r.dest
  if name = self then return m else return { m with keys := m.keys.set name key }

/-- plenum/server/pool_manager.py:177-178, the part of `_updateNode` on the services. -/
def updateServices (self : Fv) (m : Mgr) (pool : Pool) (r : Req) : Except Fail Mgr :=
  match svcOf r.data with
  | none => .ok m
  | some new => servicesChanged self m pool r new

/-- plenum/server/pool_manager.py:180-182, the part of `_updateNode` on the addresses. -/
def updateHa (m : Mgr) (r : Req) : Except Fail Mgr :=
  if haFields.any (fun f => r.data.has f) then haChanged m r else .ok m

/-- plenum/server/pool_manager.py:183-184, the part of `_updateNode` on the key. -/
def updateKey (self : Fv) (m : Mgr) (r : Req) : Except Fail Mgr :=
  match r.verkey with
  | none => .ok m
  | some key => keysChanged self m r key

/-- plenum/server/pool_manager.py:179-186, the part of `_updateNode` on nodes in the registry. -/
def updateListed (self : Fv) (m : Mgr) (alias : Fv) (r : Req) : Except Fail Mgr :=
  if m.reg.has alias then updateHa m r >>= fun m2 => updateKey self m2 r else .ok m

/-- plenum/server/pool_manager.py:175-187, `_updateNode` in `onPoolMembershipChange`. -/
def updateNode (self : Fv) (m : Mgr) (pool : Pool) (alias : Fv) (r : Req) : Except Fail Mgr :=
  updateServices self m pool r >>= fun m1 => updateListed self m1 alias r

/-- plenum/server/pool_manager.py:194-196, the part of `onPoolMembershipChange` on a node not
seen before. -/
def addNode (self : Fv) (m : Mgr) (alias : Fv) (r : Req) : Except Fail Mgr :=
  if validator ∈ (svcOf r.data).getD [] then addNew self m alias r else .ok m

/-- plenum/server/pool_manager.py:192-200, the end of `onPoolMembershipChange`. -/
def addOrUpdate (self : Fv) (pool : Pool) (m : Mgr) (alias : Fv) (r : Req) : Except Fail Mgr :=
  if !m.services.has r.dest then
    addNode self m alias r >>= fun m1 => .ok { m1 with services := m1.services.set r.dest ((svcOf r.data).getD []) }
  else
    updateNode self m pool alias r >>= fun m1 =>
      .ok { m1 with services := setServices m1.services r.dest (svcOf r.data) }

/-- plenum/server/pool_manager.py:160-202, `onPoolMembershipChange`. -/
def onChange (self : Fv) (pool : Pool) (m : Mgr) (r : Req) : Except Fail Mgr := do
  let alias ← index r.data .alias
  let ids ← setId m.ids r.dest alias
  addOrUpdate self pool { m with ids := ids } alias r

/-- plenum/server/pool_manager.py:402-404, `node_ids_ordered_by_rank`, and
plenum/server/pool_manager.py:410-412, `calc_node_names_ordered_by_rank`: the validators in the order of their ranks. -/
def ranked (m : Mgr) : List (Bytes × Fv) := m.ids.filter (fun e => m.reg.has e.2)

/-- What happens at a node: a batch of the pool ledger is executed, a transaction arrives
by catch-up, the node starts again. -/
inductive Ev where
  | batch (rs : List Req)
  | catchup (r : Req)
  | restart
deriving Repr

/-- The pool ledger of a node, the committed pool state, and what the node knows. -/
structure Node where
  ledger : List Req := []
  pool : Pool := []
  mgr : Mgr := {}
deriving Repr, DecidableEq

/-- The state after transactions. -/
def applyAll (p : Pool) (rs : List Req) : Pool := rs.foldl updateState p

/-- plenum/server/node.py:519-530, `execute_pool_txns`: the pool manager is told of each
transaction after the whole batch is committed. plenum/server/node.py:1748-1765,
`postTxnFromCatchupAddedToLedger`: the pool manager is told of a transaction that came
by catch-up before the state is updated. -/
def step (self : Fv) (s : Node) : Ev → Except Fail Node
  | .batch rs => do
    let pool := applyAll s.pool rs
    return { ledger := s.ledger ++ rs, pool := pool, mgr := ← rs.foldlM (onChange self pool) s.mgr }
  | .catchup r => do
    return { ledger := s.ledger ++ [r], pool := updateState s.pool r, mgr := ← onChange self s.pool s.mgr r }
  | .restart => do return { s with mgr := ← load s.ledger }

/-- A history. -/
def run (self : Fv) (s : Node) (evs : List Ev) : Except Fail Node := evs.foldlM (step self) s

/-- The transactions of a history. -/
def txnsOf (evs : List Ev) : List Req :=
  evs.flatMap fun
    | .batch rs => rs
    | .catchup r => [r]
    | .restart => []

end Verif.PoolMgr
