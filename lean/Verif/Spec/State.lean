import Verif.Model.PruningState
/-!
# What a state should be

A user works on a state with the operations below and notes the root hash after each. What they should see is
described by three maps: the current content, the committed content and, for each root hash noted, the content then.
-/
namespace Verif.Spec.State
open Verif.Trie Verif.Rlp

/-- The operations. `revertTo i` and `commitAt i` pass the root hash noted after the first `i` operations.
`crashSet` and `crashRemove` are operations cut short after `n` writes to the store, followed by opening it again. -/
inductive Op
  | set (k v : Bytes)
  | remove (k : Bytes)
  | commit
  | commitAt (i : Nat)
  | revertTo (i : Nat)
  | revertToCommitted
  | reopen
  | crashSet (k v : Bytes) (n : Nat)
  | crashRemove (k : Bytes) (n : Nat)

/-- A finite map, as its lookup function. -/
abbrev Content := Bytes → Option Bytes

def Content.put (m : Content) (k : Bytes) (v : Option Bytes) : Content := fun j => if j = k then v else m j

/-- What should be seen. -/
structure Abs where
  current : Content
  committed : Content
  past : List Content

def Abs.init : Abs := ⟨fun _ => none, fun _ => none, [fun _ => none]⟩

def Abs.apply (a : Abs) : Op → Abs
  | .set k v => { a with current := a.current.put k (some v) }
  | .remove k => { a with current := a.current.put k none }
  | .commit => { a with committed := a.current }
  | .commitAt i => { a with committed := a.past[i]?.getD a.current }
  | .revertTo i => { a with current := a.past[i]?.getD a.current }
  | .revertToCommitted => { a with current := a.committed }
  | .reopen => { a with current := a.committed }
  | .crashSet _ _ _ => { a with current := a.committed }
  | .crashRemove _ _ => { a with current := a.committed }

def Abs.step (a : Abs) (op : Op) : Abs := { a.apply op with past := a.past ++ [(a.apply op).current] }

def Abs.run (ops : List Op) : Abs := ops.foldl Abs.step Abs.init

/-! ## The same with the code -/

/-- A store, the root node in memory, and the root hashes noted. -/
structure Session where
  world : World
  root : Item
  hashes : List Bytes

variable (H : Bytes → Bytes)

/-- The writes `new` made to the store, one after the other. -/
def putAll (w : World) (new : List Bytes) : World :=
  { w with kv := new.foldl (fun d r => d.set (H r) r) w.kv, written := w.written ++ new }

/-- `m` is cut short after `n` writes, and the process starts again. -/
def crash (m : M Item) (n : Nat) : M Item := fun w =>
  let new := ((m w).2.written.drop w.written.length).take n
  openState H { putAll H w new with spv := {} }

def act (s : Session) : Op → M Item
  | .set k v => stateSet H s.root k v
  | .remove k => stateRemove H s.root k
  | .commit => do
    commit H s.root none
    pure s.root
  | .commitAt i => match s.hashes[i]? with
    | some h => do
      commit H s.root (some h)
      pure s.root
    | none => raise .index
  | .revertTo i => match s.hashes[i]? with
    | some h => revertToHead H h
    | none => raise .index
  | .revertToCommitted => do
    let h ← committedHeadHash
    revertToHead H h
  | .reopen => fun w => openState H { w with spv := {} }
  | .crashSet k v n => crash H (stateSet H s.root k v) n
  | .crashRemove k n => crash H (stateRemove H s.root k) n

/-- One operation, then the root hash is noted. -/
def Session.step (s : Session) (op : Op) : Except Err Session :=
  match (act H s op >>= fun root => headHash H root >>= fun h => pure (root, h)) s.world with
  | (.ok (root, h), w) => .ok ⟨w, root, s.hashes ++ [h]⟩
  | (.error e, _) => .error e

/-- A new, empty store is opened. -/
def Session.init : Except Err Session :=
  match (openState H >>= fun root => headHash H root >>= fun h => pure (root, h)) {} with
  | (.ok (root, h), w) => .ok ⟨w, root, [h]⟩
  | (.error e, _) => .error e

def Session.runFrom : Except Err Session → List Op → Except Err Session
  | .error e, _ => .error e
  | .ok s, [] => .ok s
  | .ok s, op :: ops => runFrom (s.step H op) ops

/-- A history on an empty store; an exception ends it. -/
def Session.run (ops : List Op) : Except Err Session := Session.runFrom H (Session.init H) ops

/-- The strings hashed in the session: the empty trie and every node stored. -/
def Session.hashed (s : Session) : List Bytes := Rlp.encode blank :: s.world.written

end Verif.Spec.State
