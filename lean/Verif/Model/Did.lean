import Verif.Model.Schema
import Verif.Model.ClientAuth
/-!
# Base58, the keys of DIDs, and the check of a signature

plenum/common/verifier.py, plenum/common/signer_did.py and the wrappers of libnacl in
stp_core/crypto/nacl_wrappers.py. Base58 is that of the library `base58`, without what it does
with white space at the end of a text. Of Ed25519 only the relation "this is a signature of
this message for this key" is used: it is a parameter.
-/
namespace Verif.Did

open Verif (Val ascii)
open Verif.Schema (alphabet b58int)

/-- The digits of a number for a base, the first is not 0. The loops of `b58encode` and
`b58decode` in base58 take them off from the end. -/
def digits (b n : Nat) : List Nat :=
  if _h : n = 0 ∨ b < 2 then [] else digits b (n / b) ++ [n % b]
termination_by n
decreasing_by exact Nat.div_lt_self (by omega) (by omega)

/-- The number with the given digits. -/
def number (b : Nat) (l : List Nat) : Nat := l.foldl (fun n d => n * b + d) 0

/-- base58: `b58encode`. A leading zero byte becomes a `1`. -/
def b58encode (bs : Bytes) : Bytes :=
  List.replicate (bs.takeWhile (· == 0)).length 49 ++
    (digits 58 (number 256 ((bs.dropWhile (· == 0)).map UInt8.toNat))).map (fun d => alphabet.getD d 0)

/-- base58: `b58decode`. `none`: a character that is not in the alphabet. -/
def b58decode (s : Bytes) : Option Bytes :=
  if s.all (fun c => alphabet.contains c) then
    some (List.replicate (s.takeWhile (· == 49)).length 0 ++
      (digits 256 (b58int (s.dropWhile (· == 49)))).map UInt8.ofNat)
  else none

/-- `~`: plenum/common/signer_did.py:15, `abbr_prfx`. -/
def tilde : UInt8 := 126

/-! ## Identities -/

/-- plenum/common/signer_did.py:14-53, `DidIdentity`: `_identifier`, `_verkey` and
`abbreviated`. -/
structure Identity where
  identifier : Bytes
  key : Option Bytes
  abbreviated : Bool
deriving Repr, DecidableEq

/-- `bool(…)` of a text or of bytes that may be missing. -/
def full : Option Bytes → Bool
  | some (_ :: _) => true
  | _ => false

/-- plenum/common/signer_did.py:17-49, `__init__`. `none`: an exception. `abbreviated` is
`None` in an identity without a key; here it is `false`, it is only asked if it is true. -/
def identity (identifier verkey rawVerkey : Option Bytes) : Option Identity :=
  if !full verkey && rawVerkey = none && full identifier then
    some ⟨identifier.getD [], verkey, false⟩
  else if !((full verkey || full rawVerkey) && !(full verkey && full rawVerkey)) then none
  else if full identifier then
    if full rawVerkey then some ⟨identifier.getD [], rawVerkey.map b58encode, false⟩
    else match verkey with
      | some (c :: t) => if c = tilde then some ⟨identifier.getD [], some t, true⟩
          else some ⟨identifier.getD [], some (c :: t), false⟩
      | _ => none
  else
    match (if full rawVerkey then rawVerkey else b58decode (verkey.getD [])) with
    | none => none
    | some raw => some ⟨b58encode (raw.take 16), some (b58encode (raw.drop 16)), true⟩

/-- plenum/common/signer_did.py:56-64, `verkey`. -/
def Identity.verkey (i : Identity) : Option Bytes :=
  match i.key with
  | none => none
  | some k => if i.abbreviated then some (tilde :: k) else some k

/-- plenum/common/signer_did.py:67-73, `full_verkey`. The outer `none`: an exception. -/
def Identity.fullVerkey (i : Identity) : Option (Option Bytes) :=
  if i.abbreviated then
    match b58decode i.identifier, b58decode (i.key.getD []) with
    | some a, some b => some (some (b58encode (a ++ b)))
    | _, _ => none
  else some i.verkey

/-- plenum/common/signer_did.py:86-108, `DidSigner.__init__`, for the verification key `pk`
that belongs to the seed. -/
def signer (identifier : Option Bytes) (pk : Bytes) : Option Identity := identity identifier none (some pk)

/-! ## The check of a signature -/

/-- The value of a hexadecimal digit. -/
def hexDigit (c : UInt8) : Option Nat :=
  if 48 ≤ c.toNat ∧ c.toNat ≤ 57 then some (c.toNat - 48)
  else if 65 ≤ c.toNat ∧ c.toNat ≤ 70 then some (c.toNat - 55)
  else if 97 ≤ c.toNat ∧ c.toNat ≤ 102 then some (c.toNat - 87)
  else none

/-- stp_core/crypto/encoding.py:21-23, `HexEncoder.decode`: `binascii.unhexlify`. -/
def unhex : Bytes → Option Bytes
  | [] => some []
  | [_] => none
  | a :: b :: r =>
    match hexDigit a, hexDigit b, unhex r with
    | some x, some y, some l => some (UInt8.ofNat (x * 16 + y) :: l)
    | _, _, _ => none

/-- stp_core/crypto/nacl_wrappers.py:217-230, `Verifier.__init__`, with
stp_core/crypto/nacl_wrappers.py:71-81, `VerifyKey.__init__`: the bytes of the key it keeps;
none of them for an empty key. `none`: an exception. -/
def naclKey (key : Bytes) : Option Bytes :=
  if key = [] then some []
  else if key.length = 32 then some key
  else match unhex key with
    | some r => if r.length = 32 then some r else none
    | none => none

/-- `libnacl.crypto_sign_open` raises nothing: the first 64 bytes are a signature of the
rest. -/
def opens (valid : Bytes → Bytes → Bytes → Bool) (key sm : Bytes) : Bool :=
  decide (64 ≤ sm.length) && valid key (sm.take 64) (sm.drop 64)

/-- stp_core/crypto/nacl_wrappers.py:232-242, `Verifier.verify`, with
stp_core/crypto/nacl_wrappers.py:86-108, `VerifyKey.verify`. -/
def naclVerify (valid : Bytes → Bytes → Bytes → Bool) (key signature msg : Bytes) : Bool :=
  if key = [] then false else opens valid key (signature ++ msg)

/-- plenum/common/verifier.py:25-38, the text of the key that `DidVerifier.__init__` sets.
`none`: an exception. -/
def fullKeyText (verkey identifier : Bytes) : Option Bytes :=
  if identifier = [] then some verkey
  else match b58decode identifier with
    | none => none
    | some rawIdr =>
      match (if rawIdr.length = 32 ∧ verkey = [] then identifier else verkey) with
      | [] => none
      | c :: t => if c = tilde then (b58decode t).map (fun k => b58encode (rawIdr ++ k)) else some (c :: t)

/-- plenum/common/verifier.py:25-51, `DidVerifier.__init__` and `verkey.setter`: the key it
checks signatures with. -/
def didKey (verkey identifier : Bytes) : Option Bytes :=
  match fullKeyText verkey identifier with
  | none => none
  | some v => match b58decode v with
    | none => none
    | some k => naclKey k

/-- plenum/common/verifier.py:24-54, `DidVerifier(verkey, identifier).verify(sig, msg)`.
`none`: the constructor raises. A key that is not a text is refused. -/
def didVerify (valid : Bytes → Bytes → Bytes → Bool) (verkey : Val) (identifier sig msg : Bytes) : Option Bool :=
  match verkey with
  | .str v => (didKey v identifier).map (fun k => naclVerify valid k sig msg)
  | _ => none

/-- What plenum/server/client_authn.py uses from elsewhere, with base58 and `DidVerifier` in
it. JSON delivers no bytes, so a signature that is not a text is refused. -/
def env (valid : Bytes → Bytes → Bytes → Bool) (floatStr : UInt64 → Bytes) (clients : Dict Bytes Val)
    (nym : Bytes → Option Val) : Auth.Env where
  b58decode v := match v with
    | .str s => b58decode s
    | _ => none
  floatStr := floatStr
  clients := clients
  nym := nym
  verify := didVerify valid

/-- plenum/common/signer_did.py:122-129, `sign`, for the signature `sign` that
libnacl makes with the key of the signer. -/
def signText (floatStr : UInt64 → Bytes) (sign : Bytes → Bytes) (msg : Val) : Option Bytes :=
  (Signing.serializeMsgForSigning floatStr msg [ascii "signature"]).map (fun b => b58encode (sign b))

end Verif.Did
