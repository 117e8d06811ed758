/-!
# What a store with uncommitted batches means

A committed map, batches of writes on top of it, oldest first, and the writes made since the last batch.
-/
namespace Verif.Spec.OptKv
variable {I K V : Type} [DecidableEq K]

/-- A map with some writes made, in order. -/
def write (m : K → Option V) (l : List (K × V)) : K → Option V :=
  l.foldl (fun m e j => if j = e.1 then some e.2 else m j) m

structure Abs (I K V : Type) where
  committed : K → Option V
  batches : List (I × List (K × V))
  current : List (K × V)

/-- What an uncommitted read sees: all the writes made, on top of the committed map. -/
def Abs.visible (a : Abs I K V) : K → Option V :=
  write (write a.committed (a.batches.flatMap Prod.snd)) a.current

/-- The events, with their meaning. There is no meaning here for an uncommitted removal. -/
inductive Act (I K V : Type)
  | set (k : K) (v : V)
  | setCommitted (l : List (K × V))
  | removeCommitted (k : K)
  | create (idr : I)
  | commit
  | reject

def Abs.act (a : Abs I K V) : Act I K V → Abs I K V
  | .set k v => { a with current := a.current ++ [(k, v)] }
  | .setCommitted l => { a with committed := write a.committed l }
  | .removeCommitted k => { a with committed := fun j => if j = k then none else a.committed j }
  -- the writes made so far become the newest batch
  | .create idr => { a with batches := a.batches ++ [(idr, a.current)], current := [] }
  -- the oldest batch becomes permanent
  | .commit => match a.batches with
    | [] => a
    | b :: r => { a with committed := write a.committed b.2, batches := r }
  -- the newest batch goes, with what was written after it
  | .reject => match a.batches with
    | [] => a
    | _ :: _ => { a with batches := a.batches.dropLast, current := [] }

end Verif.Spec.OptKv
