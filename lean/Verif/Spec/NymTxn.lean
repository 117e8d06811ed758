import Verif.Model.NymTxn
/-!
# The number of stewards
-/
namespace Verif.Spec.NymTxn
open Verif Verif.NymTxn

/-- How many identities of a state are stewards. -/
def stewards (d : Domain) : Nat := (d.filter (fun e => e.2.role = some (ascii "2"))).length

/-- The request makes an identity a steward. -/
def MakesSteward (r : Req) : Prop := r.role = some (some (ascii "2"))

/-- In the history no batch is reverted that changed the number of stewards, and the
node is not restarted with stewards in its state. -/
def Undisturbed (H : Bytes → Bytes) (limit : Int) (evs : List Ev) : Prop :=
  ∀ pre e post, evs = pre ++ e :: post →
    (e = .reject → stewards (step H limit (run H limit pre) .reject).head = stewards (run H limit pre).head) ∧
    (e = .restart → stewards (run H limit pre).committed = 0)

end Verif.Spec.NymTxn
