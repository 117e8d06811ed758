import Verif.Model.BackupFaulty
/-!
# Votes against a backup instance, as seen from outside

Only the events a node takes part in.
-/
namespace Verif.Spec.Bif
open Verif.Bif

/-- The view a node is in. -/
def viewOf (h : List Event) : Nat :=
  h.foldl (fun v e => match e with | .newView v' _ => v' | _ => v) 0

/-- The number of nodes. -/
def nOf (n : Nat) (h : List Event) : Nat :=
  h.foldl (fun n e => match e with | .pool n' => n' | _ => n) n

/-- The events since the view began. -/
def thisView (h : List Event) : List Event :=
  h.foldl (fun acc e => match e with | .newView _ _ => [] | e => acc ++ [e]) []

/-- Node `x` votes, in view `view`, against the instance. The node itself (`name`) votes
when it finds the instance degraded or its primary disconnected. -/
def Votes (name view inst x : Nat) : Event → Prop
  | .received v is _ frm => frm = x ∧ v = view ∧ inst ∈ is
  | .degradation is => name = x ∧ inst ∈ is
  | .primaryDisconnected is => name = x ∧ inst ∈ is
  | _ => False

/-- How often the node itself votes against the instance in one event. A message names
an instance as often as it is listed. -/
def ownVotes (name view inst : Nat) : Event → Nat
  | .received v is _ frm => if frm = name ∧ v = view then is.count inst else 0
  | .degradation is => is.count inst
  | .primaryDisconnected is => is.count inst
  | _ => 0

/-- The event is a vote, that is, not the node's own decision to drop the instance. -/
def IsVote (cfg : Cfg) : Event → Prop
  | .received _ _ _ _ => True
  | .degradation _ => cfg.onDegraded = .quorum
  | .primaryDisconnected _ => cfg.onDisconnected = .quorum
  | _ => False

end Verif.Spec.Bif
