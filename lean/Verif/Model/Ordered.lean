import Verif.Model.Dict
/-!
# The record of what was ordered

`IntervalList` keeps a set of integers as a list of closed intervals, `OrderedTracker` one such set for each view.
-/
namespace Verif.Ordered

/-- Models plenum/server/replica_helper.py:73-75, `IntervalList`; a two-element list `[a, b]` is a pair. -/
abbrev IntervalList := List (Int × Int)

/-- Models plenum/server/replica_helper.py:77-78, `__len__`. -/
def IntervalList.len (l : IntervalList) : Int := (l.map (fun i => i.2 - i.1 + 1)).sum

/-- Models plenum/server/replica_helper.py:85-86, `__contains__`. -/
def IntervalList.contains (l : IntervalList) (x : Int) : Bool := l.any (fun i => i.1 ≤ x && x ≤ i.2)

/-- The loop over neighbouring intervals and what follows it: `prev` and the intervals after it. `remove(next)` and
`index(next)` look for the first interval equal to `next`; no two intervals are equal, so that is `next` itself.
Models plenum/server/replica_helper.py:103-128. -/
def scan (x : Int) (prev : Int × Int) : List (Int × Int) → List (Int × Int)
  | [] => if x = prev.2 + 1 then [(prev.1, prev.2 + 1)] else [prev, (x, x)]
  | next :: rest =>
    if x = prev.2 + 1 then
      if prev.2 + 1 = next.1 - 1 then (prev.1, next.2) :: rest
      else (prev.1, prev.2 + 1) :: next :: rest
    else if prev.2 + 1 < x ∧ x < next.1 - 1 then prev :: (x, x) :: next :: rest
    else if x = next.1 - 1 then prev :: (next.1 - 1, next.2) :: rest
    else if next.1 ≤ x ∧ x ≤ next.2 then prev :: next :: rest
    else prev :: scan x next rest

/-- Models plenum/server/replica_helper.py:88-128, `add`. -/
def IntervalList.add (l : IntervalList) (x : Int) : IntervalList :=
  match l with
  | [] => [(x, x)]
  | i :: rest =>
    if x < i.1 - 1 then (x, x) :: i :: rest
    else if x = i.1 - 1 then (i.1 - 1, i.2) :: rest
    else if i.1 ≤ x ∧ x ≤ i.2 then i :: rest
    else scan x i rest

/-- Models plenum/server/replica_helper.py:131-133, `OrderedTracker`: a `defaultdict`. -/
abbrev Tracker := Dict Int IntervalList

/-- Looking a key up in a `defaultdict` creates it. -/
def Tracker.touch (t : Tracker) (view : Int) : Tracker :=
  match Dict.get? t view with
  | some _ => t
  | none => Dict.set t view []

/-- Models plenum/server/replica_helper.py:135-136, `__len__`. -/
def Tracker.len (t : Tracker) : Int := (t.map (fun e => IntervalList.len e.2)).sum

/-- Models plenum/server/replica_helper.py:143-145, `__contains__`: the answer and the tracker after it. -/
def Tracker.lookup (t : Tracker) (view pp : Int) : Bool × Tracker :=
  (((Dict.get? t view).getD []).contains pp, t.touch view)

/-- Models plenum/server/replica_helper.py:147-148, `add`. -/
def Tracker.add (t : Tracker) (view pp : Int) : Tracker :=
  Dict.set t view (((Dict.get? t view).getD []).add pp)

/-- Models plenum/server/replica_helper.py:150-153, `clear_below_view`. -/
def Tracker.clearBelow (t : Tracker) (view : Int) : Tracker := t.filter (fun e => ¬ e.1 < view)

/-- Models plenum/server/replica_helper.py:138-141, `__eq__`: dictionaries are equal if they have the same keys with
equal values. -/
def Tracker.Same (t u : Tracker) : Prop := ∀ v, Dict.get? t v = Dict.get? u v

/-- Calls on a tracker. -/
inductive Call
  | add (view pp : Int)
  | lookup (view pp : Int)
  | clearBelow (view : Int)
deriving DecidableEq, Repr

/-- One call: the answer, if it has one, and the tracker after it. -/
def Tracker.call (t : Tracker) : Call → Option Bool × Tracker
  | .add v p => (none, t.add v p)
  | .lookup v p => (some (t.lookup v p).1, (t.lookup v p).2)
  | .clearBelow v => (none, t.clearBelow v)

/-- A sequence of calls on a new tracker. -/
def run (cs : List Call) : Tracker := cs.foldl (fun t c => (t.call c).2) []

end Verif.Ordered
