import Verif.Model.AccMonitor
/-!
# What the accumulating monitor is meant to say

Everything is read off the history of calls; the state of the monitor is not mentioned.
-/
namespace Verif.AccMonitor.Spec
open Verif Verif.AccMonitor

/-- The instances which are watched after the calls. -/
def members (l : List Inst) (h : List Ev) : List Inst :=
  h.foldl (fun l e => match e with
    | .add i => if i ∈ l then l else l ++ [i]
    | .remove i => l.filter (· ≠ i)
    | _ => l) l

/-- The calls after the last reset. -/
def current (h : List Ev) : List Ev := h.foldl (fun r e => if e = .reset then [] else r ++ [e]) []

/-- How many requests the instance has ordered since the last reset. -/
def orderedBy (h : List Ev) (i : Inst) : Nat := (current h).count (.ordered i)

/-- The last time the monitor was told. -/
def clock (start : Nat) (h : List Ev) : Nat :=
  h.foldl (fun t e => match e with | .time u => u | _ => t) start

/-- The time of the last reset (of the start, when there was none). -/
def since (start : Nat) (h : List Ev) : Nat :=
  (h.foldl (fun (p : Nat × Nat) e => match e with
    | .time u => (u, p.2)
    | .reset => (p.1, p.1)
    | _ => p) (start, start)).2

/-- The times at which requests came in since the last reset. -/
def arrivals (start : Nat) (h : List Ev) : List Nat :=
  (h.foldl (fun (p : Nat × List Nat) e => match e with
    | .time u => (u, p.2)
    | .reset => (p.1, [])
    | .received => (p.1, p.2 ++ [p.1])
    | _ => p) (start, [])).2

/-- The number of the window in which a time lies. Window `m` goes from `m * w` after the start to `(m+1) * w` after it;
its end belongs to it and its beginning does not. (The start itself is put into window 0.) -/
def windowOf (w start t : Nat) : Nat := (t - start - 1) / w

/-- The moving average over the windows before window `n`, where `cnt m` requests came in in window `m`. -/
def ema (w : Nat) (a : Rat) (cnt : Nat → Nat) : Nat → Rat
  | 0 => 0
  | n + 1 => (cnt n : Rat) / (w : Rat) * a + ema w a cnt n * (1 - a)

/-- The rate at which requests came in, at the last time the monitor was told. -/
def inputRate (c : Cfg) (start : Nat) (h : List Ev) : Rat :=
  ema c.window c.alpha
    (fun m => (arrivals start h).countP (fun t => windowOf c.window (since start h) t = m))
    (windowOf c.window (since start h) (clock start h))

/-- Some instance has ordered more than this one, by more than the allowed number of requests. -/
def behind (c : Cfg) (start : Nat) (l : List Inst) (h : List Ev) (i : Inst) : Prop :=
  ∃ j ∈ members l h, (orderedBy h j : Rat) > (orderedBy h i : Rat) + c.k * inputRate c start h

/-- The times the monitor is told do not go back. -/
def Forward (start : Nat) : List Ev → Prop
  | [] => True
  | .time t :: r => start ≤ t ∧ Forward t r
  | _ :: r => Forward start r

/-- The instance has been behind at every look since some call `time t0`: the history is `h1`, that call, and `h2`
without a reset, and at each call of `time` from there on the instance is behind (if it is watched then). -/
def BehindSince (c : Cfg) (start : Nat) (l : List Inst) (h : List Ev) (i : Inst) (t0 : Nat) : Prop :=
  ∃ h1 h2, h = h1 ++ .time t0 :: h2 ∧ i ∈ members l h1 ∧ Ev.reset ∉ h2 ∧
    ∀ g t r, .time t0 :: h2 = g ++ .time t :: r → i ∈ members l (h1 ++ g) →
      behind c start l (h1 ++ g ++ [.time t]) i

/-- The settings make sense. -/
structure Sane (c : Cfg) : Prop where
  k : 0 ≤ c.k
  window : 0 < c.window
  alpha0 : 0 ≤ c.alpha
  alpha1 : c.alpha ≤ 1

/-- As a node does it: an instance which is added is followed by a reset at once, and only watched instances are taken out
(plenum/server/replicas.py:32-49, `add_replica`, and 51-61, `remove_replica`). -/
def Orderly (l : List Inst) : List Ev → Prop
  | [] => True
  | .add i :: .reset :: r => Orderly (if i ∈ l then l else l ++ [i]) r
  | .add _ :: _ => False
  | .remove i :: r => i ∈ l ∧ Orderly (l.filter (· ≠ i)) r
  | _ :: r => Orderly l r

end Verif.AccMonitor.Spec
