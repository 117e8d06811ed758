import Verif.Model.MsgReq
/-!
# What a reply may bring about
-/
namespace Verif.Spec.MsgReq
open Verif Verif.MsgReq

/-- The events since the last start of a view change. -/
def current {Vc : Type} (evs : List (Ev Vc)) : List (Ev Vc) :=
  evs.foldl (fun l e => match e with
    | .viewChangeStarted => []
    | e => l ++ [e]) []

/-- In these events the node replied with the VIEW_CHANGE `vc`, or one of the same
digest, as that of `name`. -/
def RepliedVC {Vc : Type} (digest : Vc → Nat) (evs : List (Ev Vc)) (node name : Bytes) (vc : Vc) : Prop :=
  ∃ vc', Ev.reply node (.viewChange (some name) (some (digest vc)) (some vc')) ∈ evs ∧
    (vc' = vc ∨ vc' ≠ vc ∧ digest vc' = digest vc)

/-- The message has the digest and roots, if there are any to compare with. -/
def Fits (m : Msg) : Option Stash → Prop
  | none => True
  | some (d, s, t) => m.digest = d ∧ m.stateRoot = s ∧ m.txnRoot = t

end Verif.Spec.MsgReq
