import Verif.Model.Version
/-!
# What a version is written like
-/
namespace Verif.Spec.Version
open Verif.Version

/-- The characters are decimal digits, at least one, of the number. -/
def Digits (s : List Char) (n : Nat) : Prop :=
  s ≠ [] ∧ (∀ c ∈ s, c.isDigit = true) ∧ n = Nat.ofDigitChars 10 s 0

/-- A dot that may be left out. -/
def OptDot (s : List Char) : Prop := s = [] ∨ s = ['.']

/-- What may follow the release: `[.]dev[.]N` and the like. -/
inductive Extra : List Char → Option (Tag × Nat) → Prop
  | none : Extra [] none
  | some (d1 d2 : List Char) (t : Tag) (s : List Char) (n : Nat) (h1 : OptDot d1) (h2 : OptDot d2) (hs : Digits s n) :
    Extra (d1 ++ (t.chars ++ (d2 ++ s))) (some (t, n))

/-- `N.N.N[[.]{a|b|rc|dev}[.]N]`. -/
def Written (s : List Char) (v : Ver) : Prop :=
  ∃ x y z e, Digits x v.major ∧ Digits y v.minor ∧ Digits z v.patch ∧ Extra e v.extra ∧
    s = x ++ '.' :: (y ++ '.' :: (z ++ e))

end Verif.Spec.Version
