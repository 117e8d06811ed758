import Verif.Model.NodeTxn
/-!
# What holds of the nodes of a pool
-/
namespace Verif.Spec.NodeTxn
open Verif Verif.NodeTxn

/-- The address other nodes reach the node at. -/
def nodeAddr (r : Rec) : Option Fv × Option Fv := (r.get? .nodeIp, r.get? .nodePort)
/-- The address clients reach the node at. -/
def clientAddr (r : Rec) : Option Fv × Option Fv := (r.get? .clientIp, r.get? .clientPort)

/-- Different nodes do not agree in `f`. -/
def Distinct {α : Type} (p : Pool) (f : Rec → α) : Prop :=
  ∀ a b ra rb, p.get? a = some ra → p.get? b = some rb → f ra = f rb → a = b

/-- Names and addresses are there and are unique, and the two addresses of a node
differ. -/
structure Unique (p : Pool) : Prop where
  complete : ∀ a r, p.get? a = some r → ∀ f ∈ haFields ++ [Field.alias], ∃ v, r.get? f = some v
  alias : Distinct p (fun r => r.get? .alias)
  nodeHa : Distinct p nodeAddr
  clientHa : Distinct p clientAddr
  differ : ∀ a r, p.get? a = some r → nodeAddr r ≠ clientAddr r

/-- Every node has a recorded steward, and different nodes have different ones. -/
structure OnePerSteward (p : Pool) : Prop where
  recorded : ∀ a r, p.get? a = some r → ∃ v, r.get? .identifier = some v
  distinct : Distinct p (fun r => r.get? .identifier)

/-- Every BLS key comes with a proof of its possession. -/
def KeysProved (verify : Bytes → Bytes → Bool) (p : Pool) : Prop :=
  ∀ a r v, p.get? a = some r → r.get? .blsKey = some v →
    ∃ key proof, v = .str key ∧ r.get? .blsKeyProof = some (.str proof) ∧ verify proof key = true

end Verif.Spec.NodeTxn
