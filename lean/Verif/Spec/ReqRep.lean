import Verif.Model.ReqRep
/-!
# What a client should find in its store

Read off the history of what was written down, without files and lines.
-/
namespace Verif.Spec.ReqRep
open Verif.ReqRep (Str Entry Item isBreak)

/-- The items for a request. -/
def itemsOf (h : List Entry) (idr : Str) (reqId : Nat) : List Item :=
  (h.filter (fun e => e.idr = idr ∧ e.reqId = reqId)).map Entry.item

def asRequest : Item → Option Str
  | .request s => some s
  | _ => none

def asAck : Item → Option Str
  | .ack s => some s
  | _ => none

def asNack : Item → Option (Str × Str)
  | .nack s r => some (s, r)
  | _ => none

def asReject : Item → Option (Str × Str)
  | .reject s r => some (s, r)
  | _ => none

def asReply : Item → Option (Str × Str)
  | .reply s r => some (s, r)
  | _ => none

/-- The last answer of `sender` among answers. -/
def lastOf (l : List (Str × Str)) (sender : Str) : Option Str :=
  ((l.filter (fun p => p.1 = sender)).map Prod.snd).getLast?

/-- No line break. -/
def OneLine (s : Str) : Prop := ∀ c ∈ s, isBreak c = false

/-- The name of a node: no line break and no `~`. -/
def IsName (s : Str) : Prop := OneLine s ∧ '~' ∉ s

/-- An item whose texts have no line breaks, from a node with a name. -/
def Clean : Item → Prop
  | .request s => OneLine s
  | .ack s => IsName s
  | .nack s r => IsName s ∧ OneLine r
  | .reject s r => IsName s ∧ OneLine r
  | .reply s r => IsName s ∧ OneLine r

end Verif.Spec.ReqRep
