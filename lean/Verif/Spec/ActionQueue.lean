import Verif.Model.ActionQueue
/-! What it means that an action is still to run. -/
namespace Verif.AQ

/-- By the record `h`, the action scheduled under the id `aid`, at time `at'` to
run after `secs`, was neither cancelled nor run since. -/
def Waiting (h : List Entry) (aid : Nat) (act : Act) (at' secs : Nat) : Prop :=
  ∃ a b, h = a ++ .asked aid act at' secs :: b ∧ .cancelAct act ∉ b ∧ .cancelAid aid ∉ b ∧ ∀ t, .ran aid act t ∉ b

/-- Nobody stops the repeated action `a`, and no ids are cancelled. -/
def Undisturbed (a : Nat) (evs : List Event) : Prop :=
  ∀ e ∈ evs, .stop a ∉ e.calls ∧ ∀ aid, .cancelAid aid ∉ e.calls

end Verif.AQ
