import Verif.Model.Dict
/-!
# Model of `plenum/server/consensus/primary_selector.py`

Node names are naturals. An exception is `none`.
-/
namespace Verif.Primary

abbrev Node := Nat

/-- primary_selector.py:27-28, `RoundRobinConstantNodesPrimariesSelector.select_master_primary`;
`none` is the ZeroDivisionError for an empty list. -/
def masterOf (validators : List Node) (viewNo : Nat) : Option Node :=
  validators[viewNo % validators.length]?

/-- primary_selector.py:39-50, the loop of `select_backup_primaries_round_robin`.
`fuel` bounds the rounds; `none` when they do not suffice, where the Python
would go on looping. Only called for a nonempty list. -/
def backupLoop (viewNo : Nat) (validators : List Node) (count : Nat) (master : Node) :
    Nat → Nat → List Node → Option (List Node)
  | 0, _, primaries => if primaries.length < count then none else some primaries
  | fuel + 1, i, primaries =>
    if primaries.length < count then
      let backup := validators.getD ((viewNo + i) % validators.length) 0
      backupLoop viewNo validators count master fuel (i + 1)
        (if backup ≠ master then primaries ++ [backup] else primaries)
    else some primaries

/-- primary_selector.py:39-49, `select_backup_primaries_round_robin`, given as
many rounds as there are validators. -/
def backups (viewNo : Nat) (validators : List Node) (count : Nat) (master : Node) : Option (List Node) :=
  backupLoop viewNo validators count master validators.length 1 []

/-- primary_selector.py:30-32, `select_primaries` and `_select_backup_primaries`
of the selector for a constant list. -/
def primariesOf (validators : List Node) (viewNo : Nat) : Option (List Node) := do
  let master ← masterOf validators viewNo
  let bs ← backups viewNo validators ((validators.length - 1) / 3) master
  return master :: bs

/-- primary_selector.py:74-77: the last view not after `v` that has an entry. -/
def viewForSelection (nodeReg : Dict Nat (List Node)) : Nat → Option (List Node)
  | 0 => nodeReg.get? 0
  | v + 1 => match nodeReg.get? (v + 1) with
    | some r => some r
    | none => viewForSelection nodeReg v

/-- primary_selector.py:68-80, `RoundRobinNodeRegPrimariesSelector._do_select_master_primary`. -/
def selectMaster (nodeReg : Dict Nat (List Node)) (viewNo : Nat) : Option Node := do
  let reg ← viewForSelection nodeReg (if viewNo > 1 then viewNo - 1 else 0)
  reg[viewNo % reg.length]?

/-- primary_selector.py:62-66 and 82-89, `select_primaries` and
`_select_backup_primaries` of the selector for the node registry. -/
def selectPrimaries (nodeReg : Dict Nat (List Node)) (active : List Node) (viewNo : Nat) : Option (List Node) := do
  let master ← selectMaster nodeReg viewNo
  let bs ← backups viewNo active ((active.length - 1) / 3) master
  return master :: bs

end Verif.Primary
