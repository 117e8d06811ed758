import Verif.Model.PyVal
/-!
# From the bytes a peer or a client sends to the inboxes of the node

`ZStack` decodes what arrives, the node validates it, unpacks batches, and appends
messages to `nodeInBox` and `clientInBox`; the routers take them from there. An
exception that no `try` on this path catches leaves `Node.prod`; `Looper.prodAllOnce`
(stp_core/loop/looper.py:142-153) catches nothing either, so the process ends. Such
an exception is the flag `stopped`.

Not modelled: encryption and the identity of remotes; the texts of log messages;
`z85_to_friendly`, which is only used in log messages and for counters; the answers to
pings; the schemas of messages other than the parts written out here (`Cfg.fits`); static
validation of requests and the verification of signatures (`Cfg.request`,
`Cfg.verify`), which here may pass or raise anything.
-/
namespace Verif.Entry

open Verif (Val ascii)

abbrev Bytes := List UInt8
abbrev Items := List (Bytes × Val)

/-- `d.get(k)` where a missing key is told from `None`. -/
def lookup (d : Items) (k : Bytes) : Option Val := (d.find? (fun e => e.1 == k)).map Prod.snd

/-- `d.get(k)`: `None` for a missing key. -/
def get (d : Items) (k : Bytes) : Val := (lookup d k).getD .none

/-- Python's `bool(v)`. -/
def truthy : Val → Bool
  | .none => false
  | .bool b => b
  | .int n => n != 0
  | .float b => b != 0 && b != 0x8000000000000000
  | .str s => !s.isEmpty
  | .bin s => !s.isEmpty
  | .list l => !l.isEmpty
  | .dict d => !d.isEmpty

/-- plenum/common/constants.py:245, `OP_FIELD_NAME`. -/
def OP : Bytes := ascii "op"
/-- plenum/common/constants.py:14, `BATCH`. -/
def BATCH : Bytes := ascii "BATCH"
/-- plenum/common/constants.py:48, `LEDGER_STATUS`. -/
def LEDGER_STATUS : Bytes := ascii "LEDGER_STATUS"
/-- plenum/common/constants.py:50, `CATCHUP_REQ`. -/
def CATCHUP_REQ : Bytes := ascii "CATCHUP_REQ"
/-- plenum/common/constants.py:22, `PROPAGATE`. -/
def PROPAGATE : Bytes := ascii "PROPAGATE"
/-- plenum/common/constants.py:52, `MESSAGE_REQUEST`. -/
def MESSAGE_REQUEST : Bytes := ascii "MESSAGE_REQUEST"
/-- plenum/common/types.py:49, `MSGS`. -/
def MSGS : Bytes := ascii "messages"
/-- plenum/common/types.py:27, `IDENTIFIER`. -/
def IDENTIFIER : Bytes := ascii "identifier"
/-- plenum/common/types.py:43, `REQ_ID`. -/
def REQ_ID : Bytes := ascii "reqId"
/-- plenum/common/types.py:114, `OPERATION`. -/
def OPERATION : Bytes := ascii "operation"
/-- plenum/common/types.py:50, `SIG`. -/
def SIG : Bytes := ascii "signature"
/-- plenum/common/types.py:86, `SIGS`. -/
def SIGS : Bytes := ascii "signatures"
/-- stp_zmq/zstack.py:61-62, `pingMessage` and `pongMessage`. -/
def PINGS : List Bytes := [ascii "pi", ascii "po"]

/-- The names under which `NodeMessageFactory` finds a class:
plenum/common/messages/node_messages.py: every class of the module with a schema
and a typename. -/
def CLASSES : List Bytes := [BATCH, ascii "BLACKLIST", ascii "REQACK", ascii "REQNACK", ascii "REJECT",
  ascii "POOL_LEDGER_TXNS", ascii "ORDERED", PROPAGATE, ascii "PREPREPARE",
  ascii "OLD_VIEW_PREPREPARE_REQ", ascii "OLD_VIEW_PREPREPARE_REP", ascii "PREPARE", ascii "COMMIT",
  ascii "CHECKPOINT", ascii "REPLY", ascii "INSTANCE_CHANGE", ascii "BACKUP_INSTANCE_FAULTY",
  ascii "VIEW_CHANGE", ascii "VIEW_CHANGE_ACK", ascii "NEW_VIEW", LEDGER_STATUS,
  ascii "CONSISTENCY_PROOF", CATCHUP_REQ, ascii "CATCHUP_REP", ascii "VIEW_CHANGE_DONE",
  ascii "CURRENT_STATE", MESSAGE_REQUEST, ascii "MESSAGE_RESPONSE", ascii "BATCH_COMMITTED",
  ascii "OBSERVED_DATA", ascii "ViewChangeStart", ascii "ViewChangeContinue"]

/-- plenum/server/node.py:405-431, `white_list_init`: the types whose signature is not
verified. -/
def WHITELIST : List Bytes := [BATCH, ascii "PREPREPARE", ascii "PREPARE", ascii "CHECKPOINT",
  ascii "COMMIT", ascii "INSTANCE_CHANGE", LEDGER_STATUS, ascii "CONSISTENCY_PROOF", CATCHUP_REQ,
  ascii "CATCHUP_REP", MESSAGE_REQUEST, ascii "MESSAGE_RESPONSE", ascii "OBSERVED_DATA",
  ascii "BACKUP_INSTANCE_FAULTY", ascii "VIEW_CHANGE", ascii "VIEW_CHANGE_ACK", ascii "NEW_VIEW",
  ascii "OLD_VIEW_PREPREPARE_REQ", ascii "OLD_VIEW_PREPREPARE_REP"]

/-- plenum/server/node.py:433-455, `routers_init`: the types `nodeMsgRouter` knows. -/
def ROUTES : List Bytes := [PROPAGATE, ascii "INSTANCE_CHANGE", MESSAGE_REQUEST, ascii "MESSAGE_RESPONSE",
  ascii "PREPREPARE", ascii "PREPARE", ascii "COMMIT", ascii "CHECKPOINT", ascii "VIEW_CHANGE",
  ascii "VIEW_CHANGE_ACK", ascii "NEW_VIEW", ascii "OLD_VIEW_PREPREPARE_REQ",
  ascii "OLD_VIEW_PREPREPARE_REP", LEDGER_STATUS, ascii "CONSISTENCY_PROOF", CATCHUP_REQ,
  ascii "CATCHUP_REP", ascii "OBSERVED_DATA", ascii "BACKUP_INSTANCE_FAULTY"]

/-- An exception, seen by whether `ex.args` is empty: all that
plenum/server/node.py:1601-1604, `_invalid_client_ledger_status_handling`, looks at. -/
inductive Fault where
  | noArgs
  | withArgs
deriving DecidableEq, Repr

/-- What this part of the code takes from elsewhere. -/
structure Cfg where
  /-- `json.loads`: stp_zmq/zstack.py:880-885, `deserializeMsg`; `none` when it raises. -/
  loads : Bytes → Option Val
  /-- `bytes.decode()` succeeds. -/
  utf8 : Bytes → Bool
  /-- The limit of `msgLenVal`: stp_core/validators/message_length_validator.py. -/
  maxLen : Nat
  /-- The schema of a class accepts these keyword arguments. -/
  fits : Bytes → Items → Bool
  /-- `SafeRequest(**msg)`, `doStaticValidation` and the handlers of
  `PreSigVerification`: `none` when nothing is raised. -/
  request : Items → Option Fault
  /-- The type of a request needs a signature:
  plenum/server/req_authenticator.py:36-41, `is_write(typ) or is_action(typ)`. -/
  needsSig : Items → Bool
  /-- The rest of `authenticate`. -/
  verify : Items → Option Fault
  /-- A PROPAGATE's request can be built and its signatures verify. -/
  propagated : Items → Bool
  /-- How many batches can be nested before Python raises `RecursionError`. -/
  depth : Nat

/-- What changes between messages without being part of this model: the tables of
remotes, the mode, the blacklists. -/
structure Env where
  known : Bytes → Bool
  participating : Bool
  nodeBlacklisted : Bytes → Bool
  clientBlacklisted : Bytes → Bool
  /-- A request is refused because a view change is in progress:
  plenum/server/node.py:1680-1686, `unpackClientMsg`. -/
  busy : Items → Bool

/-- A message built by the factory: its class and its arguments. -/
structure NodeMsg where
  op : Bytes
  body : Items
deriving Repr

/-- What can be in `clientInBox`. -/
inductive ClientMsg where
  | request (d : Items)
  | node (m : NodeMsg)
deriving Repr

/-- `(identifier, reqId)` of a REQNACK, and whom it is sent to. -/
structure Nack where
  identifier : Val
  reqId : Val
  to : Bytes
deriving Repr

/-- The part of a node this path writes to. -/
structure St where
  /-- `rxMsgs` of the node stack and of the client stack: decoded text, identity. -/
  nodeRx : List (Bytes × Bytes) := []
  clientRx : List (Bytes × Bytes) := []
  stashed : List (Bytes × Bytes) := []
  nodeIn : List (NodeMsg × Bytes) := []
  clientIn : List (ClientMsg × Bytes) := []
  nacks : List Nack := []
  rejects : List Bytes := []
  stopped : Bool := false

/-- `sub in s` for texts. -/
def isInfix (sub : Bytes) : Bytes → Bool
  | [] => sub.isEmpty
  | b :: s => sub.isPrefixOf (b :: s) || isInfix sub s

/-- stp_zmq/zstack.py:641, `OP_FIELD_NAME in msg`; `none` is a `TypeError`. -/
def opIn : Val → Option Bool
  | .str s => some (isInfix OP s)
  | .list l => some (l.any (fun v => v == .str OP))
  | .dict d => some (lookup d OP).isSome
  | _ => none

/-- stp_zmq/zstack.py:641, `msg[OP_FIELD_NAME]`; `none` is a `TypeError`: texts and
lists want an index. -/
def opOf : Val → Option Val
  | .dict d => lookup d OP
  | _ => none

/-- stp_zmq/zstack.py:641-642, of `processReceived`: the condition before the ping
counter is reset raises. The counter is not modelled. -/
def scanRaises (v : Val) : Bool :=
  match opIn v with
  | none => true
  | some false => false
  | some true => (opOf v).isNone

/-- The texts of a batch: `IterableField(SerializedValueField())` accepts lists of
texts that are not empty, plenum/common/messages/node_messages.py:26-32, `Batch`. -/
def textsOf : List Val → Option (List Bytes)
  | [] => some []
  | .str s :: l => if s.isEmpty then none else (textsOf l).map (s :: ·)
  | _ :: _ => none

/-- The messages of a batch. -/
def batchTexts (d : Items) : Option (List Bytes) :=
  match lookup d MSGS with
  | some (.list l) => textsOf l
  | _ => none

/-- plenum/common/batched.py:161-174, `doProcessReceived`, the node stack's: pings are
taken out of a batch, and a batch of pings is dropped. -/
def dropPings (v : Val) : Option Val :=
  match v with
  | .dict d =>
    if get d OP == .str BATCH then
      match lookup d MSGS with
      | some (.list l) =>
        let rest := l.filter (fun m => !(PINGS.any (fun p => m == .str p)))
        if rest.isEmpty then none
        else some (.dict (d.map (fun e => if e.1 == MSGS then (e.1, .list rest) else e)))
      | _ => some v
    else some v
  | _ => some v

/-- The arguments without the `op` field:
plenum/common/messages/node_message_factory.py:55-57, `__msg_without_op_field`. -/
def withoutOp (d : Items) : Items := d.filter (fun e => !(e.1 == OP))

/-- The schema of the class: `fits`, and for a batch that its messages are texts, for a
MESSAGE_REQUEST that its parameters are a dict. -/
def accepts (cfg : Cfg) (op : Bytes) (d : Items) : Bool :=
  cfg.fits op d &&
  (if op == BATCH then (batchTexts d).isSome
   else if op == MESSAGE_REQUEST then
    (match lookup d (ascii "msg_type"), lookup d (ascii "params") with
     | some (.str _), some (.dict _) => true
     | _, _ => false)
   else true)

/-- plenum/server/node.py:1479-1505, `validateNodeMsg`, with
`MessageFactory.get_instance` (plenum/common/messages/node_message_factory.py:41-53) and
`verifySignature` (plenum/server/node.py:2624-2655). `none`: the message is from a
blacklisted node, or something was raised. A type that is neither on the whitelist nor
PROPAGATE has no `operation`, so no authenticator is found for it. -/
def validateNode (cfg : Cfg) (env : Env) (v : Val) (frm : Bytes) : Option NodeMsg :=
  if env.nodeBlacklisted frm then none else
  match v with
  | .dict d =>
    match lookup d OP with
    | some (.str op) =>
      if CLASSES.contains op && accepts cfg op (withoutOp d) then
        if WHITELIST.contains op || (op == PROPAGATE && cfg.propagated (withoutOp d)) then
          some ⟨op, withoutOp d⟩
        else none
      else none
    | _ => none
  | _ => none

/-- A loop over the texts of a batch that an exception (`true`) ends. -/
def each (f : St → Bytes → St × Bool) : St → List Bytes → St × Bool
  | s, [] => (s, false)
  | s, t :: r => if (f s t).2 then f s t else each f (f s t).1 r

/-- One text of a batch of a node: plenum/server/node.py:1519-1525, in
`unpackNodeMsg`. -/
def nodeText (cfg : Cfg) (h : St → Val → St × Bool) (s : St) (t : Bytes) : St × Bool :=
  match cfg.loads t with
  | none => (s, false)
  | some v => h s v

/-- plenum/server/node.py:1456-1477, `handleOneNodeMsg`, with `unpackNodeMsg`
(1507-1527) and `postToNodeInBox` (1529-1537). Every exception is caught, except
`RecursionError` when the handler itself is entered too deep: that one reaches the
handler of the enclosing batch, which ends its loop. The flag says that an exception
left the handler. -/
def handleNode (cfg : Cfg) (env : Env) (frm : Bytes) : Nat → St → Val → St × Bool
  | 0, s, _ => (s, true)
  | n + 1, s, v =>
    match validateNode cfg env v frm with
    | none => (s, false)
    | some m =>
      if m.op == BATCH then
        ((each (nodeText cfg (handleNode cfg env frm n)) s ((batchTexts m.body).getD [])).1, false)
      else ({ s with nodeIn := s.nodeIn ++ [(m, frm)] }, false)

/-- Texts separated by commas: `Request.idr_delimiter.join`. -/
def joinComma : List Bytes → Bytes
  | [] => []
  | [a] => a
  | a :: b :: r => a ++ ascii "," ++ joinComma (b :: r)

/-- plenum/common/txn_util.py:59-63, `idr_from_req_data`, with
plenum/common/request.py:159-160, `gen_idr_from_sigs`. `none` is an `AttributeError`:
signatures that are not a dict have no `keys`. -/
def idr (d : Items) : Option Val :=
  if truthy (get d IDENTIFIER) then some (get d IDENTIFIER)
  else
    let sigs := (lookup d SIGS).getD (.dict [])
    if truthy sigs then
      match sigs with
      | .dict e => some (.str (joinComma ((sortItems e).map Prod.fst)))
      | _ => none
    else some .none

/-- What `validateClientMsg` returns or raises. -/
inductive Verdict where
  | ignored
  | raised (f : Fault)
  | request (d : Items)
  | batch (l : List Bytes)
  | node (m : NodeMsg)

/-- plenum/server/client_authn.py:237-240, in `authenticate`: `MissingSignature`, raised
without arguments, when a request that needs one has no signature at all. The rest is
`Cfg.verify`. -/
def authFault (cfg : Cfg) (d : Items) : Option Fault :=
  if cfg.needsSig d && get d SIG == .none && get d SIGS == .none then some .noArgs else cfg.verify d

/-- The request branch of `validateClientMsg`. -/
def validateRequest (cfg : Cfg) (d : Items) : Verdict :=
  match cfg.request d with
  | some f => .raised f
  | none =>
    match authFault cfg d with
    | some f => .raised f
    | none => .request d

/-- The `op` branch of `validateClientMsg`: only batches, LEDGER_STATUS and CATCHUP_REQ
are taken, and their signatures are not verified. -/
def validateOp (cfg : Cfg) (d : Items) : Verdict :=
  match lookup d OP with
  | some (.str op) =>
    if [BATCH, LEDGER_STATUS, CATCHUP_REQ].contains op then
      if accepts cfg op d then
        if op == BATCH then .batch ((batchTexts d).getD []) else .node ⟨op, d⟩
      else .raised .withArgs
    else .raised .withArgs
  | _ => .raised .withArgs

/-- plenum/server/node.py:1618-1660, `validateClientMsg`. -/
def validateClient (cfg : Cfg) (env : Env) (v : Val) (frm : Bytes) : Verdict :=
  if env.clientBlacklisted frm then .ignored else
  match v with
  | .dict d =>
    match idr d with
    | none => .raised .withArgs
    | some i =>
      if truthy (get d OPERATION) && truthy (get d REQ_ID) && truthy i then validateRequest cfg d
      else validateOp cfg d
  | _ => .raised .withArgs

/-- plenum/server/node.py:1577-1616, `handleInvalidClientMsg`, with
`_specific_invalid_client_msg_handling` and `_invalid_client_ledger_status_handling`:
`msg.get` and `idr_from_req_data` raise for what is not a dict or has signatures that
are not, and `ex.args[0]` raises for an exception without arguments. The LEDGER_STATUS
sent back is not modelled. -/
def refuse (f : Fault) (s : St) (v : Val) (frm : Bytes) : St × Bool :=
  match v with
  | .dict d =>
    match idr d with
    | none => (s, true)
    | some i =>
      ({ s with nacks := s.nacks ++ [⟨i, if truthy (get d REQ_ID) then get d REQ_ID else .int 1, frm⟩] },
        get d OP == .str LEDGER_STATUS && f == .noArgs)
  | _ => (s, true)

/-- One text of a batch of a client: plenum/server/node.py:1670-1680, in
`unpackClientMsg`. -/
def clientText (cfg : Cfg) (h : St → Val → St × Bool) (s : St) (t : Bytes) : St × Bool :=
  if PINGS.contains t then (s, false)
  else match cfg.loads t with
    | none => (s, true)
    | some v => h s v

/-- plenum/server/node.py:1557-1575, `handleOneClientMsg`, with `unpackClientMsg`
(1662-1690) and `postToClientInBox` (1692-1700). The flag says that an exception left the
handler. -/
def handleClient (cfg : Cfg) (env : Env) (frm : Bytes) : Nat → St → Val → St × Bool
  | 0, s, _ => (s, true)
  | n + 1, s, v =>
    match validateClient cfg env v frm with
    | .ignored => (s, false)
    | .raised f => refuse f s v frm
    | .request d =>
      if env.busy d then (s, false)
      else ({ s with clientIn := s.clientIn ++ [(.request d, frm)] }, false)
    | .node m => ({ s with clientIn := s.clientIn ++ [(.node m, frm)] }, false)
    | .batch l =>
      if (each (clientText cfg (handleClient cfg env frm n)) s l).2 then
        refuse .withArgs (each (clientText cfg (handleClient cfg env frm n)) s l).1 v frm
      else ((each (clientText cfg (handleClient cfg env frm n)) s l).1, false)

/-- stp_zmq/zstack.py:500-518, `_verifyAndAppend`, on the node stack (`client = false`,
whose reject handler does nothing) and on the client stack. -/
def arrive (cfg : Cfg) (client : Bool) (s : St) (msg ident : Bytes) : St :=
  if s.stopped then s else
  if !cfg.utf8 ident then s
  else if decide (msg.length ≤ cfg.maxLen) && cfg.utf8 msg then
    (if client then { s with clientRx := s.clientRx ++ [(msg, ident)] }
     else { s with nodeRx := s.nodeRx ++ [(msg, ident)] })
  else if client then { s with rejects := s.rejects ++ [ident] }
  else s

/-- What the handler of a stack leaves: the node stops when an exception left it. -/
def after (p : St × Bool) : St := { p.1 with stopped := p.1.stopped || p.2 }

/-- One message of the node stack: stp_zmq/zstack.py:606-646, `processReceived`, with
`handlePingPong` (773-793). -/
def nodeOne (cfg : Cfg) (env : Env) (s : St) (msg ident : Bytes) : St :=
  if PINGS.contains msg then s
  else if !env.known ident then
    (if env.participating then s else { s with stashed := s.stashed ++ [(msg, ident)] })
  else
    match cfg.loads msg with
    | none => s
    | some v =>
      if scanRaises v then { s with stopped := true }
      else match dropPings v with
        | none => s
        | some w => if truthy w then after (handleNode cfg env ident (cfg.depth + 1) s w) else s

/-- One message of the client stack, which listens only and takes messages from anyone:
stp_zmq/zstack.py:606-646, `processReceived`. -/
def clientOne (cfg : Cfg) (env : Env) (s : St) (msg ident : Bytes) : St :=
  if PINGS.contains msg then s
  else
    match cfg.loads msg with
    | none => s
    | some v =>
      if scanRaises v then { s with stopped := true }
      else if truthy v then after (handleClient cfg env ident (cfg.depth + 1) s v) else s

/-- What happens to a node, as far as this model goes. -/
inductive Ev where
  /-- bytes arrive on the node stack or on the client stack -/
  | arrive (client : Bool) (msg ident : Bytes)
  /-- `processReceived` takes one message -/
  | nodeOne (env : Env)
  | clientOne (env : Env)
  /-- plenum/server/node.py:1541-1555, `processNodeInBox`: the router takes one message.
  `raises` says whether the handler of its type raises. -/
  | route (raises : NodeMsg → Bool)

/-- plenum/server/router.py:46-60, `getFunc`: a `RuntimeError` for a type without a
route, which `process_one_node_message` does not catch. -/
def routeOne (raises : NodeMsg → Bool) (s : St) : St :=
  match s.nodeIn with
  | [] => s
  | (m, _) :: r =>
    { s with nodeIn := r, stopped := s.stopped || !(ROUTES.contains m.op) || raises m }

def step (cfg : Cfg) (s : St) : Ev → St
  | .arrive c m i => arrive cfg c s m i
  | .nodeOne env =>
    if s.stopped then s else
    match s.nodeRx with
    | [] => s
    | (m, i) :: r => nodeOne cfg env { s with nodeRx := r } m i
  | .clientOne env =>
    if s.stopped then s else
    match s.clientRx with
    | [] => s
    | (m, i) :: r => clientOne cfg env { s with clientRx := r } m i
  | .route raises => if s.stopped then s else routeOne raises s

def run (cfg : Cfg) (l : List Ev) : St := l.foldl (step cfg) {}

end Verif.Entry
