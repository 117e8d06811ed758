import Verif.Model.PyInt
import Verif.Props.ReqIdrToTxn
namespace Verif.Py
open Verif.ReqDb Verif.Props

theorem foldl_none (s : List Char) :
    s.foldl (fun o c => o.bind (fun n => (digitVal c).map (fun d => 10 * n + d))) (none : Option Nat) = none := by
  induction s with
  | nil => rfl
  | cons c s ih => simpa using ih

theorem parse_minus (s : List Char) : parse ('-' :: s) = none := by
  unfold parse
  rw [if_neg (by simp), List.foldl_cons]
  have : ((some 0 : Option Nat).bind fun n => (digitVal '-').map (fun d => 10 * n + d)) = none := by decide
  rw [this, foldl_none]

/-- `int(str(n)) == n`. -/
theorem int_str (n : Int) : int (str n) = some n := by
  cases n with
  | ofNat n =>
    have hp := parse_dec n
    simp only [str]
    cases hd : dec n with
    | nil => rw [hd] at hp; simp [parse] at hp
    | cons c s =>
      have hc : c ≠ '-' := by
        rintro rfl
        rw [hd, parse_minus] at hp
        cases hp
      rw [hd] at hp
      simp [int, hc, hp]
  | negSucc n =>
    simp [str, int, parse_dec]
    omega

end Verif.Py
