import Verif.Model.Metrics
/-!
# What the metrics of a node should say

Nothing here is computed with accumulators: there are only lists of samples.
-/
namespace Verif.Spec.Metrics
open Verif.Metrics (Name Time Acc Ev)

/-- `m` is the least of the samples; `none` if there are none. -/
def IsLeast : Option Rat → List Rat → Prop
  | none, vs => vs = []
  | some m, vs => m ∈ vs ∧ ∀ v ∈ vs, m ≤ v

/-- `m` is the greatest of the samples; `none` if there are none. -/
def IsGreatest : Option Rat → List Rat → Prop
  | none, vs => vs = []
  | some m, vs => m ∈ vs ∧ ∀ v ∈ vs, v ≤ m

/-- `a` says of the samples `vs` how many there are, their sum, that of their squares, the least and the greatest. -/
structure Sums (a : Acc) (vs : List Rat) : Prop where
  count : a.count = vs.length
  sum : a.sum = vs.sum
  sumsq : a.sumsq = (vs.map (fun v => v * v)).sum
  min : IsLeast a.min vs
  max : IsGreatest a.max vs

/-- Samples of one name that were stored together: when, as which one since the node was started, and which ones. -/
structure Rec where
  time : Time
  seq : Nat
  name : Name
  samples : List Rat

/-- The samples of a name. -/
def samplesOf (n : Name) (l : List (Name × Rat)) : List Rat := (l.filter (fun e => e.1 = n)).map Prod.snd

/-- The records of a flush: one for each name. -/
def recsOf (clock : Nat → Time) (pending : List (Name × Rat)) : Nat → Nat → List Name → List Rec
  | _, _, [] => []
  | i, seq, n :: ns => ⟨clock i, seq, n, samplesOf n pending⟩ :: recsOf clock pending (i + 1) (seq + 1) ns

/-- The names, in the order of their first samples. -/
def namesOf (l : List (Name × Rat)) : List Name := l.foldl (fun ns e => if e.1 ∈ ns then ns else ns ++ [e.1]) []

/-- What was stored over a history: `pending` are the samples not stored yet, `seq` counts since the start of the node. -/
def stored (pending : List (Name × Rat)) (seq : Nat) (closed : Bool) : List Ev → List Rec
  | [] => []
  | .add n v :: es => stored (pending ++ [(n, v)]) seq closed es
  | .flush clock :: es =>
    if closed then stored [] seq closed es
    else recsOf clock pending 0 seq (namesOf pending) ++ stored [] (seq + (namesOf pending).length) closed es
  | .close :: es => stored pending seq true es
  | .restart :: es => stored [] 0 false es

/-- No two records were stored in the same microsecond with numbers that are the same modulo 2048. -/
def Apart (rs : List Rec) : Prop := rs.Pairwise (fun a b => ¬ (a.time = b.time ∧ a.seq % 2048 = b.seq % 2048))

/-- From 2000 on, and in the 285 years for which there are keys. -/
def InTime (rs : List Rec) : Prop := ∀ r ∈ rs, Verif.Metrics.base ≤ r.time ∧ r.time < 2 ^ 53

/-- The samples of name `n` in the records that satisfy `p`. -/
def pick (n : Name) (p : Rec → Bool) (rs : List Rec) : List Rat :=
  (rs.filter (fun r => r.name = n ∧ p r)).flatMap Rec.samples

/-- A time within the given limits. -/
def within (minTs maxTs : Option Time) (t : Time) : Bool := minTs.all (· ≤ t) && maxTs.all (t ≤ ·)

/-- Two times in the same frame of `step` microseconds, counted from 2000. -/
def sameFrame (step : Nat) (t u : Time) : Bool :=
  (t - Verif.Metrics.base) / step == (u - Verif.Metrics.base) / step

end Verif.Spec.Metrics
