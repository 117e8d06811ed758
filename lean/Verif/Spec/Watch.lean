import Verif.Model.Watch
/-!
# Watching the primary: the words used in the properties
-/
namespace Verif.Watch

/-- The node is not in a callback of the timer, and has called all that are due. -/
def State.idle (s : State) : Bool := s.running.isNone && s.timer.due.isNone

/-- The event changes who is primary. -/
def Ev.changesPrimary : Ev → Bool
  | .needViewChange _ => true
  | .newView _ => true
  | .caughtUp _ => true
  | _ => false

/-- A primary is selected: the end of a view change or of a catchup. -/
def Ev.selects : Ev → Bool
  | .newView _ => true
  | .caughtUp _ => true
  | _ => false

/-- The event may tell the node that its primary is connected. -/
def Ev.mayConnect : Ev → Bool
  | .conns _ => true
  | e => e.selects

/-- The event starts or ends a view change. -/
def Ev.viewChange : Ev → Bool
  | .needViewChange _ => true
  | .newView _ => true
  | _ => false

/-- The events `es` happen from a state: before each, `P` holds of the state and the event. -/
def Along (cfg : Cfg) (P : State → Ev → Prop) (s : State) (es : List Ev) : Prop :=
  ∀ a e b, es = a ++ e :: b → P (s.run cfg a) e

/-- In all states of a run later than `u`. -/
def After (cfg : Cfg) (es : List Ev) (u : Int) (P : State → List Ev → Prop) : Prop :=
  ∀ a b, es = a ++ b → u < (run cfg a).timer.now → P (run cfg a) b

end Verif.Watch
