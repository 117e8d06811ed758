import Verif.Model.OutBox
/-! # The messages of one instance -/
namespace Verif.OutBox.Spec
open Verif.OutBox

/-- The messages which the instance put into its box. -/
def putOf (i : Inst) : List Ev → List Msg
  | [] => []
  | .put j m :: r => if j = i then m :: putOf i r else putOf i r
  | _ :: r => putOf i r

/-- The messages of the instance among those taken out. -/
def outOf (i : Inst) : List (Inst × Msg) → List Msg
  | [] => []
  | (j, m) :: r => if j = i then m :: outOf i r else outOf i r

/-- How often the boxes were served. -/
def turns : List Ev → Nat
  | [] => 0
  | .service _ :: r => turns r + 1
  | _ :: r => turns r

end Verif.OutBox.Spec
