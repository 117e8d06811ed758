import Verif.Model.Answers
/-!
# What clients are told: the words used in the properties

Only events and messages are spoken of here.
-/
namespace Verif.Answers
open Verif.Propagator (Key Req)

/-- The event is a request with this digest, from a client or in a PROPAGATE. -/
def Ev.brings (cfg : Cfg) (k : Key) : Ev → Bool
  | .came r _ => cfg.prop.digest r = k
  | .propagate r _ _ => cfg.prop.digest r = k
  | .propRep r _ _ => cfg.prop.digest r = k
  | _ => false

/-- The event is the request `r`, and a client `c` is said to have sent it: the client itself, or a
node which says so. -/
def Ev.names (e : Ev) (r : Req) (c : Client) : Prop :=
  match e with
  | .came q d => q = r ∧ d = c
  | .propagate q _ d => q = r ∧ d = some c
  | .propRep q _ d => q = r ∧ d = some c
  | _ => False

/-- The event is not sent by a client. -/
def Ev.isCame : Ev → Bool
  | .came _ _ => true
  | _ => false

/-- The message tells a client how a request with this digest ended. -/
def Out.ends (cfg : Cfg) (k : Key) : Out → Bool
  | .client _ (.reject r) => cfg.prop.digest r = k
  | .client _ (.reply t _ _) => cfg.prop.digest t = k
  | _ => false

/-- The message is a transaction with this payload digest. -/
def Out.replies (cfg : Cfg) (p : Key) : Out → Bool
  | .client _ (.reply t _ _) => cfg.prop.payload t = p
  | _ => false

/-- What the node sends of its own accord: not as the answer to a message of a client. -/
def pushed (tr : List (Ev × List Out)) : List Out := (tr.filter (fun x => !x.1.isCame)).flatMap Prod.snd

/-- The events after which a node may forget a request it is processing: it is older than the
timeouts, its transaction came in a catchup, or the node was started again. -/
def Ev.forgets (cfg : Cfg) (k : Key) : Ev → Bool
  | .outdated j => j = k
  | .caughtUp r => cfg.prop.digest r = k
  | .restart => true
  | _ => false

/-- The PROPAGATE was not sent in the name of this node. -/
def Ev.fromOther (cfg : Cfg) : Ev → Bool
  | .propagate _ frm _ => frm ≠ .str cfg.prop.name
  | .propRep _ frm _ => frm ≠ .str cfg.prop.name
  | _ => true

end Verif.Answers
