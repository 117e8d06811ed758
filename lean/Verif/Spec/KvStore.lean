/-!
# What looking things up by time means
-/
namespace Verif.Spec

/-- `(u, r)` is the last record made for time `u`. -/
def LastAt {R : Type} (records : List (Int × R)) (u : Int) (r : R) : Prop :=
  ∃ before after, records = before ++ (u, r) :: after ∧ ∀ e ∈ after, e.1 ≠ u

/-- `o` is what was in force at `t`: the last record for the greatest recorded time not after `t`, and
nothing if every recorded time is after `t`. -/
def InForce {R : Type} (records : List (Int × R)) (t : Int) : Option R → Prop
  | none => ∀ e ∈ records, t < e.1
  | some r => ∃ u, LastAt records u r ∧ u ≤ t ∧ ∀ e ∈ records, e.1 ≤ t → e.1 ≤ u

/-- A write or removal of a key. -/
inductive KvOp (K V : Type)
  | put (k : K) (v : V)
  | remove (k : K)

/-- A map after one more write or removal. -/
def KvOp.apply {K V : Type} [DecidableEq K] (m : K → Option V) : KvOp K V → K → Option V
  | .put k v => fun j => if j = k then some v else m j
  | .remove k => fun j => if j = k then none else m j

/-- The map a history of writes and removals makes, from the empty one. -/
def kvAfter {K V : Type} [DecidableEq K] (h : List (KvOp K V)) : K → Option V :=
  h.foldl KvOp.apply (fun _ => none)

end Verif.Spec
