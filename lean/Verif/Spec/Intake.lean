import Verif.Model.Intake
/-!
# The messages among what comes from a socket
-/
namespace Verif.Intake.Spec

/-- The message in what comes from the listener: two parts, the sender and a text that is not empty. -/
def message? : Recv → Option (Bytes × Bytes)
  | .parts [ident, msg] => if msg = [] then none else some (msg, ident)
  | _ => none

/-- The messages, in order. -/
def messages (rs : List Recv) : List (Bytes × Bytes) := rs.filterMap message?

/-- The bytes of the messages. -/
def bytes (ms : List (Bytes × Bytes)) : Nat := (ms.map (fun m => m.1.length)).sum

/-- A ROUTER socket puts the sender before what was sent, so there are at least two parts. -/
def routed (r : Recv) : Prop := ∀ ps, r = .parts ps → 2 ≤ ps.length

/-- The messages in what comes from the socket of a remote: one part that is not empty. -/
def fromOne (ident : Bytes) (rs : List Recv) : List (Bytes × Bytes) :=
  rs.filterMap (fun r => match r with | .parts [msg] => if msg = [] then none else some (msg, ident) | _ => none)

/-- It has exactly one part, or is an error. -/
def single (r : Recv) : Prop := ∀ ps, r = .parts ps → ps.length = 1

/-- What came from clients. -/
def fromClients (evs : List Ev) : List Recv :=
  evs.filterMap (fun e => match e with | .fromClient r => some r | _ => none)

/-- The same history without clients, and with no request waiting at any turn. -/
def withoutClients (evs : List Ev) : List Ev :=
  evs.filterMap (fun e => match e with | .fromClient _ => none | .prod _ => some (.prod 0) | e => some e)

/-- Other nodes send as nodes of this code do: one part in each message. -/
def wellSent (evs : List Ev) : Prop :=
  (∀ r, .fromNode r ∈ evs → routed r) ∧ (∀ i r, .fromRemote i r ∈ evs → single r)

/-- What came at the listener for nodes. -/
def fromNodes (evs : List Ev) : List Recv :=
  evs.filterMap (fun e => match e with | .fromNode r => some r | _ => none)

/-- What came from the node with this key. -/
def arrivals (ident : Bytes) (evs : List Ev) : List Recv :=
  evs.filterMap (fun e => match e with | .fromRemote i r => if i = ident then some r else none | _ => none)

/-- The sockets with all that came in them. -/
def addAll (rs : Remotes) (evs : List Ev) : Remotes :=
  rs.map (fun p => (p.1, p.2.map (fun sock => sock ++ arrivals p.1 evs)))

/-- Of what came from each node, the first part was taken and the rest waits. -/
inductive Split : Remotes → List (List Recv) → Remotes → Prop
  | nil : Split [] [] []
  | noSocket {ident rs ts rs'} : Split rs ts rs' → Split ((ident, none) :: rs) ([] :: ts) ((ident, none) :: rs')
  | socket {ident taken rest rs ts rs'} : Split rs ts rs' →
      Split ((ident, some (taken ++ rest)) :: rs) (taken :: ts) ((ident, some rest) :: rs')

/-- The accepted messages of what was taken from each node. -/
def handed (ok : Bytes → Bytes → Bool) (ids : List Bytes) (taken : List (List Recv)) : List (Bytes × Bytes) :=
  (ids.zip taken).flatMap (fun p => (fromOne p.1 p.2).filter (fun m => ok m.1 m.2))

end Verif.Intake.Spec
