import Verif.Spec.Merkle
/-!
# Specification vocabulary for catchup
-/
namespace Verif.Spec

/-- All strings hashed in computing the tree heads of a log and of all its prefixes,
that is, while the log was being built entry by entry. -/
def logInputs (H : Bytes → Bytes) (D : List Bytes) : List Bytes :=
  (List.range (D.length + 1)).flatMap (fun k => mthInputs H (D.take k))

end Verif.Spec
