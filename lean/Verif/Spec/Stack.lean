import Verif.Model.Stack
/-!
# Connections of a node: the words used in the properties
-/
namespace Verif.Stack

/-- The message and the identity of a frame that comes in. -/
def Ev.frame : Ev → Option (Msg × Key)
  | .recv _ k m => some (m, k)
  | .recvRemote k m => some (m, k)
  | _ => none

/-- The frames that came in, in order. -/
def frames (es : List Ev) : List (Msg × Key) := es.filterMap Ev.frame

/-- The messages for the node among them, with their identities. -/
def contents (l : List (Msg × Key)) : List (Nat × Key) :=
  l.filterMap (fun x => match x.1 with
    | .data d => some (d, x.2)
    | _ => none)

/-- What was handed to the node, in order: from whom, the message, and the identity it came with. -/
def Out.hand : Out → Option (Name × Nat × Key)
  | .handed n k d => some (n, d, k)
  | _ => none

def State.handed (s : State) : List (Name × Nat × Key) := s.out.filterMap Out.hand

/-- The node something is sent to. -/
def Out.about : Out → Option Name
  | .ping n => some n
  | .pong n => some n
  | .dial n _ _ => some n
  | _ => none

/-- What the replicas were told last: who is connected. -/
def Out.told : Out → Option (List Name)
  | .conns l => some l
  | _ => none

def State.told (s : State) : List Name := (s.out.filterMap Out.told).getLast?.getD []

/-- The event says that `k` is the key of node `n`. -/
def Ev.gives (n : Name) (k : Key) : Ev → Prop
  | .connectNew m _ j => m = n ∧ j = k
  | .keysChanged m j => m = n ∧ j = k
  | _ => False

/-- `k` is or was a key of node `n`: on the disk at the start, or given later. -/
def Given (s : State) (es : List Ev) (n : Name) (k : Key) : Prop :=
  s.disk.get? n = some k ∨ ∃ e ∈ es, e.gives n k

/-- The node starts: nothing but the registry and the keys. -/
def State.start (s : State) : Prop := s = { registry := s.registry, disk := s.disk, nyms := s.disk }

/-- The event puts a node into the pool for which there is a remote. -/
def State.again (s : State) : Ev → Bool
  | .connectNew n _ _ => s.remotes.has n
  | _ => false

/-- The addresses in the registry are different. -/
def State.distinct (s : State) : Prop := ∀ n m ha, s.registry.get? n = some ha → s.registry.get? m = some ha → n = m

/-- In all states of a run, with the event that comes. -/
def Along (cfg : Cfg) (P : State → Ev → Prop) (s : State) (es : List Ev) : Prop :=
  ∀ a e b, es = a ++ e :: b → P (s.run cfg a) e

/-- Events at which messages come in and are processed, time passes, or the mode changes. -/
def Ev.quiet : Ev → Bool
  | .recv _ _ _ => true
  | .recvRemote _ _ => true
  | .process => true
  | .unknown => true
  | .setMode _ => true
  | .tick _ => true
  | _ => false

/-- The event is that a message nobody known sent is processed: 1, and else 0. -/
def State.odd (s : State) : Ev → Nat
  | .process =>
    match s.rx with
    | (.data _, k) :: _ => if s.byKeys.has k then 0 else 1
    | _ => 0
  | _ => 0

/-- How many messages that nobody known sent are processed in a run. -/
def strange (cfg : Cfg) : State → List Ev → Nat
  | _, [] => 0
  | s, e :: es => s.odd e + strange cfg (s.step cfg e) es

end Verif.Stack
