import Verif.Model.PerfCheck
import Verif.Spec.AccMonitor
/-! # What the performance check is meant to do, in terms of the history -/
namespace Verif.PerfCheck.Spec
open Verif Verif.PerfCheck
open Verif.AccMonitor (Inst Cfg)

/-- What one event means for the accumulating monitor; a check looks at it or does not. -/
def Meaning : Ev → List AccMonitor.Ev → Prop
  | .received now, x => x = [.time now, .received]
  | .ordered now i k, x => x = .time now :: List.replicate k (.ordered i)
  | .add i, x => x = [.add i, .reset]
  | .remove i, x => x = [.remove i] ∨ x = []
  | .reset, x => x = [.reset]
  | .check _ _ now, x => x = [.time now] ∨ x = []

/-- What a history means for the accumulating monitor. -/
inductive Unfolds : List Ev → List AccMonitor.Ev → Prop
  | nil : Unfolds [] []
  | snoc {es h e x} : Unfolds es h → Meaning e x → Unfolds (es ++ [e]) (h ++ x)

/-- The time of an event. -/
def timeOf : Ev → Option Nat
  | .received now => some now
  | .ordered now _ _ => some now
  | .check _ _ now => some now
  | _ => none

/-- Times do not go back. -/
def Ahead (st : Nat) (es : List Ev) : Prop := ((st :: es.filterMap timeOf)).Pairwise (· ≤ ·)

/-- How many requests the watched instances have ordered since the last reset, all together. -/
def total (h : List AccMonitor.Ev) : Nat :=
  ((AccMonitor.Spec.members [] h).map (AccMonitor.Spec.orderedBy h)).sum

/-- Requests come in, and the node checks: nothing is ordered. -/
def Quiet : Ev → Prop
  | .received _ => True
  | .check _ _ _ => True
  | _ => False

/-- Requests come in or are ordered. -/
def Traffic : Ev → Prop
  | .received _ => True
  | .ordered _ _ _ => True
  | _ => False

/-- How many requests were ordered. -/
def ordering : Ev → Nat
  | .ordered _ _ k => k
  | _ => 0

end Verif.PerfCheck.Spec
