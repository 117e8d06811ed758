import Verif.Model.AskProp
/-! # Who is to be asked for a request, and which digests count as asked for lately -/
namespace Verif.AskProp.Spec
open Verif.AskProp

/-- The digests asked for so far, in order. -/
def asked (s : State) : List Digest := s.sent.map (·.1)

/-- A digest is among the last `k` that were asked for. -/
def Lately (k : Nat) (l : List Digest) (d : Digest) : Prop := ∃ a b, l = a ++ d :: b ∧ b.length < k

end Verif.AskProp.Spec
