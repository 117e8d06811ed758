/-!
# What is measured of an instance, in words

Time is cut into windows of equal length from the moment the measuring starts. The measurement of the
throughput only knows how many requests were ordered in each window.
-/
namespace Verif.Spec.Monitor

/-- How many of the times fall into window `j`, when windows of length `w` are counted from `t0`. -/
def inWindow (t0 w : Nat) (ts : List Nat) (j : Nat) : Nat :=
  (ts.filter fun t => decide (t0 + w * j ≤ t) && decide (t < t0 + w * (j + 1))).length

/-- The numbers for the first `n` windows. -/
def counts (t0 w : Nat) (ts : List Nat) (n : Nat) : List Nat := (List.range n).map (inWindow t0 w ts)

/-- Every window has between `lo` and `hi` requests. -/
def AtLeast (lo : Nat) (ns : List Nat) : Prop := ∀ n ∈ ns, lo ≤ n
def AtMost (hi : Nat) (ns : List Nat) : Prop := ∀ n ∈ ns, n ≤ hi

/-- The instance has just come back: after a silence of at least `m` windows, or from the beginning, there were requests
in every window, but not yet for `m` windows. -/
def Back (m : Nat) (ns : List Nat) : Prop :=
  ∃ before since, ns = before ++ since ∧ AtLeast 1 since ∧ since ≠ [] ∧ since.length < m ∧
    (AtMost 0 before ∨ ∃ older silence, before = older ++ silence ∧ AtMost 0 silence ∧ m ≤ silence.length)

/-- In each of the windows from `j1` up to `j2` there are at least `lo` of the times. -/
def AtLeastIn (lo t0 w : Nat) (ts : List Nat) (j1 j2 : Nat) : Prop := ∀ j, j1 ≤ j → j < j2 → lo ≤ inWindow t0 w ts j

/-- In each of the windows from `j1` up to `j2` there are at most `hi` of the times. -/
def AtMostIn (hi t0 w : Nat) (ts : List Nat) (j1 j2 : Nat) : Prop := ∀ j, j1 ≤ j → j < j2 → inWindow t0 w ts j ≤ hi

end Verif.Spec.Monitor
