/-!
# A store that counts references

`RefcountDB`: a key is kept as long as it is referred to; when it no longer is, it is marked, and removed some epochs later. The
storage below is a function from keys to what is kept there; encoding by rlp is left out.
-/
namespace Verif.Refcount

abbrev Key := Nat
abbrev Val := Nat

/-- state/db/refcount_db.py:8. -/
def offset : Nat := 2 ^ 62

/-- state/db/refcount_db.py:19, of `__init__`. -/
def ttl : Nat := 500

/-- state/db/refcount_db.py:15-20, `RefcountDB.__init__`; `nodes` is what is stored at `r:`, `dead` at `deathrow:` and `journals`
at `journal:`. -/
structure State where
  nodes : Key → Option (Nat × Val) := fun _ => none
  dead : Nat → Option (List Key) := fun _ => none
  journals : Nat → Option (List (Nat × Key)) := fun _ => none
  journal : List (Nat × Key) := []
  deathRow : List Key := []

/-- A put or remove of the storage below. state/db/refcount_db.py:31, of `inc_refcount`. -/
def upd {β : Type} (f : Nat → β) (k : Nat) (x : β) : Nat → β := fun j => if j = k then x else f j

/-- state/db/refcount_db.py:23-40, `inc_refcount`, which is also `put`. -/
def State.put (s : State) (k : Key) (v : Val) : State :=
  match s.nodes k with
  | some (r, _) =>
    let n := if r ≥ offset then 0 else r
    { s with journal := s.journal ++ [(r, k)], nodes := upd s.nodes k (some (n + 1, v)) }
  | none => { s with nodes := upd s.nodes k (some (1, v)), journal := s.journal ++ [(0, k)] }

/-- state/db/refcount_db.py:45-63, `dec_refcount`, which is also `delete`; none for an exception. -/
def State.del (s : State) (k : Key) : Option State :=
  match s.nodes k with
  | none => none
  | some (r, v) =>
    if r > 0 then
      some { s with
        journal := s.journal ++ [(r, k)]
        nodes := upd s.nodes k (some (r - 1, v))
        deathRow := if r - 1 = 0 then s.deathRow ++ [k] else s.deathRow }
    else none

/-- state/db/refcount_db.py:67-74, `get_refcount`: the number that is decoded is taken the first item of, which it does not have;
the exception is caught. -/
def State.getRefcount (_ : State) (_ : Key) : Nat := 0

/-- state/db/refcount_db.py:77-78, `get`; none for `KeyError`. -/
def State.get (s : State) (k : Key) : Option Val := (s.nodes k).map Prod.snd

/-- state/db/refcount_db.py:91-96, of `cleanup`. -/
def pruneOne (epoch : Nat) (nodes : Key → Option (Nat × Val)) (k : Key) : Key → Option (Nat × Val) :=
  match nodes k with
  | some (r, _) => if r = offset + epoch then upd nodes k none else nodes
  | none => nodes

/-- state/db/refcount_db.py:82-109, `cleanup`. -/
def State.cleanup (s : State) (epoch : Nat) : State :=
  { s with
    nodes := ((s.dead epoch).getD []).foldl (pruneOne epoch) s.nodes
    dead := upd s.dead epoch none
    journals := if ttl ≤ epoch then upd s.journals (epoch - ttl) none else s.journals }

/-- state/db/refcount_db.py:120-127, of `commit_refcount_changes`. A key that is not there would raise an exception; here it is
passed over. -/
def markOne (epoch : Nat) (nodes : Key → Option (Nat × Val)) (k : Key) : Key → Option (Nat × Val) :=
  match nodes k with
  | some (r, v) => if r = 0 then upd nodes k (some (offset + epoch, v)) else nodes
  | none => nodes

/-- state/db/refcount_db.py:112-143, `commit_refcount_changes`. -/
def State.commit (s : State) (epoch : Nat) : State :=
  { nodes := s.deathRow.foldl (markOne (epoch + ttl)) s.nodes
    dead := upd s.dead (epoch + ttl) (some ((s.dead (epoch + ttl)).getD [] ++ s.deathRow))
    deathRow := []
    journals := upd s.journals epoch (some ((s.journals epoch).getD [] ++ s.journal))
    journal := [] }

/-- state/db/refcount_db.py:158-163, of `revert_refcount_changes`. -/
def backOne (nodes : Key → Option (Nat × Val)) (e : Nat × Key) : Key → Option (Nat × Val) :=
  match nodes e.2 with
  | some (_, v) => upd nodes e.2 (some (e.1, v))
  | none => nodes

/-- state/db/refcount_db.py:146-165, `revert_refcount_changes`. A key that is not there ends the loop in the code; here it is
passed over. -/
def State.revert (s : State) (epoch : Nat) : State :=
  { s with
    dead := upd s.dead (epoch + ttl) none
    nodes := ((s.journals epoch).getD []).reverse.foldl backOne s.nodes }

/-- A use of the store, without `revert_refcount_changes`. -/
inductive Op where
  | put (k : Key) (v : Val)
  | del (k : Key)
  | commit (epoch : Nat)
  | cleanup (epoch : Nat)
deriving DecidableEq, Repr

def State.step (s : State) : Op → State
  | .put k v => s.put k v
  | .del k => (s.del k).getD s
  | .commit e => s.commit e
  | .cleanup e => s.cleanup e

def run (h : List Op) : State := h.foldl State.step {}

end Verif.Refcount
