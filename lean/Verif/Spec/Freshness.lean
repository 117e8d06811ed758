import Verif.Model.Freshness
/-!
# What a user of the freshness checker sees

Only calls and their results.
-/
namespace Verif.Spec.Freshness
open Verif.Freshness

/-- When the ledger was last updated or registered, if it is watched. The latest call
comes last. -/
def lastUpdate (lid : Nat) (h : List Event) : Option Int :=
  h.foldl (fun acc e => match e with
    | .register l t => if l = lid then some t else acc
    | .remove ls => if lid ∈ ls then none else acc
    | .update l t => if l = lid then acc.map (fun _ => t) else acc
    | .check _ _ => acc) none

/-- When the ledger was last returned from a check or registered, if it is watched. -/
def lastReport (lid : Nat) (h : List Event) : Option Int :=
  h.foldl (fun acc e => match e with
    | .register l t => if l = lid then some t else acc
    | .remove ls => if lid ∈ ls then none else acc
    | .update _ _ => acc
    | .check t r => if lid ∈ r.map Prod.fst then some t else acc) none

/-- The check at time `ts` should return this ledger: neither updated nor returned
for more than the timeout. -/
def Due (timeout ts : Int) (h : List Event) (lid : Nat) : Prop :=
  ∃ u r, lastUpdate lid h = some u ∧ lastReport lid h = some r ∧ ts - u > timeout ∧ ts - r > timeout

end Verif.Spec.Freshness
