import Verif.Model.Propagator
/-!
# What the properties of request propagation say

In terms of what the node received (`Event`) and of the log of what it did.
-/
namespace Verif.Propagator

/-- What was done since the record of `k` was made; `none` if there is no record. -/
def life (k : Key) (log : List Act) : Option (List Act) :=
  log.foldl (fun o a => match a with
    | .added j => if j = k then some [] else o.map (· ++ [a])
    | .cleaned j => if j = k then none else o.map (· ++ [a])
    | .dropped j => if j = k then none else o.map (· ++ [a])
    | a => o.map (· ++ [a])) none

/-- Is this the release of `k` by some instance? -/
def isFree (k : Key) : Act → Bool
  | .freed _ j => j = k
  | _ => false

/-- `v` sent the request: in a PROPAGATE, and its signatures were verified, or in a
reply, whose signatures are not verified. -/
def SentBy (cfg : Cfg) (evs : List Event) (r : Req) (v : Sender) : Prop :=
  (Event.propagate r v ∈ evs ∧ cfg.authentic r = true) ∨ Event.reply r v ∈ evs

/-- The request came to this node: from a client, with verified signatures, or from
some node. -/
def Came (cfg : Cfg) (evs : List Event) (r : Req) : Prop :=
  (Event.client r ∈ evs ∧ cfg.authentic r = true) ∨ ∃ w, SentBy cfg evs r w

/-- `v` vouched for the digest `k`: it sent a request with that digest, or it is this
node and received such a request. -/
def Vouched (cfg : Cfg) (evs : List Event) (k : Key) (v : Sender) : Prop :=
  ∃ r, cfg.digest r = k ∧ (SentBy cfg evs r v ∨ (v = .str cfg.name ∧ Came cfg evs r))

/-- The digest has the votes needed. -/
def Quorate (cfg : Cfg) (evs : List Event) (k : Key) : Prop :=
  ∃ vs : List Nat, vs.Nodup ∧ vs.length ≥ cfg.quorums.propagate.value ∧
    ∀ v ∈ vs, Vouched cfg evs k (.str v)

end Verif.Propagator
