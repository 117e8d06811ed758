import Verif.Model.Join
/-!
# Specification: joining a view change

The words of `C94`.
-/
namespace Verif.VC

/-- The messages that arrived. -/
def arrived (evs : List JEvent) : List (VMsg × Node) :=
  evs.filterMap fun | .deliver m w _ _ => some (m, w) | _ => none

/-- A VIEW_CHANGE for view `v`. -/
def isFor (v : Nat) (x : VMsg × Node) : Bool :=
  match x.1 with
  | .viewChange vc => vc.viewNo == v
  | _ => false

/-- No node's VIEW_CHANGE for the same view arrived twice. -/
def OnceEach (evs : List JEvent) : Prop :=
  ∀ v w, (arrived evs).countP (fun x => isFor v x && x.2 == w) ≤ 1

end Verif.VC
