import Verif.Model.Dict
/-!
# Freshness of ledgers

plenum/server/replica_freshness_checker.py. Times are integers.
-/
namespace Verif.Freshness
open Verif

/-- plenum/server/replica_freshness_checker.py:4-7, `FreshnessState`. -/
structure FreshnessState where
  lastUpdated : Int
  lastMarkedAsOutdated : Int
deriving Repr, DecidableEq

/-- plenum/server/replica_freshness_checker.py:10-14, `FreshnessChecker`. -/
structure Checker where
  freshnessTimeout : Int
  ledgerFreshness : Dict Nat FreshnessState
deriving Repr, DecidableEq

/-- plenum/server/replica_freshness_checker.py:16-17, `register_ledger`. -/
def Checker.registerLedger (c : Checker) (lid : Nat) (initialTime : Int) : Checker :=
  { c with ledgerFreshness := c.ledgerFreshness.set lid ⟨initialTime, initialTime⟩ }

/-- plenum/server/replica_freshness_checker.py:19-21, `remove_ledgers`. -/
def Checker.removeLedgers (c : Checker) (lids : List Nat) : Checker :=
  { c with ledgerFreshness := lids.foldl Dict.erase c.ledgerFreshness }

/-- The two conditions of the loop, plenum/server/replica_freshness_checker.py:36-39. -/
def isOutdated (timeout ts : Int) (s : FreshnessState) : Bool :=
  !(ts - s.lastUpdated ≤ timeout) && !(ts - s.lastMarkedAsOutdated ≤ timeout)

/-- The sort key, plenum/server/replica_freshness_checker.py:48: `(-item[1], item[0])`,
compared as tuples are. -/
def before (a b : Nat × Int) : Bool := a.2 > b.2 || (a.2 == b.2 && a.1 ≤ b.1)

/-- `sorted` by insertion; Python's sort is stable and so is this. -/
def insertBy (le : Nat × Int → Nat × Int → Bool) (x : Nat × Int) : List (Nat × Int) → List (Nat × Int)
  | [] => [x]
  | y :: r => if le x y then x :: y :: r else y :: insertBy le x r

/-- `sorted(…, key=…)`. -/
def sortBy (le : Nat × Int → Nat × Int → Bool) : List (Nat × Int) → List (Nat × Int)
  | [] => []
  | x :: r => insertBy le x (sortBy le r)

/-- plenum/server/replica_freshness_checker.py:23-50, `check_freshness`: the outdated
ledgers with the time since their update. -/
def Checker.checkFreshness (c : Checker) (ts : Int) : List (Nat × Int) × Checker :=
  let outdated := (c.ledgerFreshness.filter (fun e => isOutdated c.freshnessTimeout ts e.2)).map
    (fun e => (e.1, ts - e.2.lastUpdated))
  let marked := c.ledgerFreshness.map (fun e =>
    if isOutdated c.freshnessTimeout ts e.2 then (e.1, { e.2 with lastMarkedAsOutdated := ts }) else e)
  (sortBy before outdated, { c with ledgerFreshness := marked })

/-- plenum/server/replica_freshness_checker.py:52-62, `update_freshness`. -/
def Checker.updateFreshness (c : Checker) (lid : Nat) (ts : Int) : Checker :=
  match c.ledgerFreshness.get? lid with
  | some s => { c with ledgerFreshness := c.ledgerFreshness.set lid { s with lastUpdated := ts } }
  | none => c

/-- Sort key of plenum/server/replica_freshness_checker.py:77: `(item[1], item[0])`. -/
def earlier (a b : Nat × Int) : Bool := a.2 < b.2 || (a.2 == b.2 && a.1 ≤ b.1)

/-- plenum/server/replica_freshness_checker.py:64-79, `get_last_update_time`. -/
def Checker.getLastUpdateTime (c : Checker) : List (Nat × Int) :=
  sortBy earlier (c.ledgerFreshness.map (fun e => (e.1, e.2.lastUpdated)))

/-- A call, as its user sees it: for `check` with what it returned. -/
inductive Event where
  | register (lid : Nat) (t : Int)
  | remove (lids : List Nat)
  | update (lid : Nat) (t : Int)
  | check (t : Int) (result : List (Nat × Int))
deriving Repr, DecidableEq

/-- The calls a user can make. -/
inductive Op where
  | register (lid : Nat) (t : Int)
  | remove (lids : List Nat)
  | update (lid : Nat) (t : Int)
  | check (t : Int)
deriving Repr, DecidableEq

/-- One call. -/
def step (c : Checker) : Op → Event × Checker
  | .register l t => (.register l t, c.registerLedger l t)
  | .remove ls => (.remove ls, c.removeLedgers ls)
  | .update l t => (.update l t, c.updateFreshness l t)
  | .check t => (.check t (c.checkFreshness t).1, (c.checkFreshness t).2)

/-- A history of calls, with what they returned, and the state after it. -/
def run (c : Checker) : List Op → List Event × Checker
  | [] => ([], c)
  | o :: r =>
    let a := step c o
    let rest := run a.2 r
    (a.1 :: rest.1, rest.2)

end Verif.Freshness
