import Verif.Model.Wallet
/-! # What a wallet is meant to hold, read off the calls that were made -/
namespace Verif.Wallet.Spec
open Verif.Wallet

/-- The key which the identifier has after the calls: the one added last, or given later by an update of an identifier that
is there; an update with a signer of another identifier is refused. -/
def keyOf (i : Str) : List Op → Option Nat → Option Nat
  | [], k => k
  | .add s _ :: r, k => keyOf i r (if s.ident = i then some s.key else k)
  | .update j s :: r, k => keyOf i r (if j = i ∧ s.ident = i ∧ k.isSome then some s.key else k)

/-- The identifier that was added first. -/
def first : List Op → Option Str
  | [] => none
  | .add s _ :: _ => some s.ident
  | .update _ _ :: r => first r

/-- The alias which a call gives to its signer: the one passed, else the signer's own. -/
def aliasGiven (s : Signer) (a : Option Str) : Option Str :=
  match a with
  | some (c :: r) => some (c :: r)
  | _ => match s.alias with
    | some (c :: r) => some (c :: r)
    | _ => none

/-- The identifier to which the alias was given last. -/
def aliasOf (a : Str) : List Op → Option Str → Option Str
  | [], i => i
  | .add s b :: r, i => aliasOf a r (if aliasGiven s b = some a then some s.ident else i)
  | .update _ _ :: r, i => aliasOf a r i

/-- A path lies inside a directory. -/
def Inside (base p : Path) : Prop := ∃ n rest, p = base ++ n :: rest

end Verif.Wallet.Spec
