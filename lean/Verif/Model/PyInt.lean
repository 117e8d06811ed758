import Verif.Model.ReqIdrToTxn
/-!
# Integers as Python text

`str(n)` and `int(s)` for an optional minus sign followed by decimal digits.
Python's `int` also accepts a plus sign, surrounding white space, underscores
between digits and digits of other scripts. Those are left out: they only add to
the texts that are accepted.
-/
namespace Verif.Py
open Verif.ReqDb

/-- `int(s)`, used at plenum/server/catchup/catchup_rep_service.py:302. -/
def int : List Char → Option Int
  | [] => none
  | c :: s => if c = '-' then (parse s).map (fun n => -(n : Int)) else (parse (c :: s)).map (fun n => (n : Int))

/-- `str(n)`, used at plenum/server/catchup/catchup_rep_service.py:399. -/
def str : Int → List Char
  | .ofNat n => dec n
  | .negSucc n => '-' :: dec (n + 1)

end Verif.Py
