import Verif.Model.Dict
/-!
# The wallet of a client, and where it is stored

Strings are lists of characters. A signer is its identifier, its alias and its key; a signature is the key and what was
signed with it. Left out: making new signers from seeds (`didMethods`), encryption, `ids`, the encoding of the file, links in
the file system, and file errors. A signer that a caller changes afterwards is not modelled.
-/
namespace Verif.Wallet
open Verif

abbrev Str := List Char

/-- plenum/client/signer.py, stp_core/crypto/signer.py: identifier, alias and key. -/
structure Signer where
  ident : Str
  alias : Option Str
  key : Nat
deriving DecidableEq, Repr

/-- plenum/client/wallet.py:39-47, `__init__`. -/
structure Wallet where
  signers : Dict Str Signer := []
  aliases : Dict Str Str := []
  default : Option Str := none
deriving DecidableEq, Repr

/-- Python's truth of an optional string: a string that is not empty. -/
def truthy : Option Str → Option Str
  | some [] => none
  | a => a

/-- plenum/client/wallet.py:79-108, `addIdentifier`, with a signer given. -/
def Wallet.add (w : Wallet) (s : Signer) (alias : Option Str) : Wallet :=
  let s := match truthy alias with
    | some a => { s with alias := some a }
    | none => s
  { signers := w.signers.set s.ident s
    aliases := match truthy s.alias with
      | some a => w.aliases.set a s.ident
      | none => w.aliases
    default := match w.default with
      | none => some s.ident
      | some d => some d }

/-- plenum/client/wallet.py:110-134, `updateSigner`; `none`: `ValueError` or `KeyError`. -/
def Wallet.update (w : Wallet) (i : Str) (s : Signer) : Option Wallet :=
  if i ≠ s.ident then none
  else match w.signers.get? i with
    | none => none
    | some old =>
      let s := match truthy old.alias with
        | some a => if w.aliases.has a then { s with alias := some a } else s
        | none => s
      some { w with signers := w.signers.set i s }

/-- `idr.split(':')[1]`, when there is a colon: what is between the first colon and the next one or the end. -/
def afterColon (i : Str) : Str := ((i.dropWhile (· ≠ ':')).drop 1).takeWhile (· ≠ ':')

/-- plenum/client/wallet.py:136-158, `requiredIdr`; `none`: `EmptyIdentifier` or `KeyError`. -/
def Wallet.requiredIdr (w : Wallet) (i alias : Option Str) : Option Str :=
  match truthy i with
  | some i => truthy (some (if ':' ∈ i then afterColon i else i))
  | none => match truthy alias with
    | some a => truthy (w.aliases.get? a)
    | none => truthy w.default

/-- plenum/client/wallet.py:236-240, `_signerById`; `none`: `RuntimeError`. -/
def Wallet.signerById (w : Wallet) (i : Str) : Option Signer := w.signers.get? i

/-- plenum/client/wallet.py:242-246, `_signerByAlias`; `none`: `RuntimeError`. -/
def Wallet.signerByAlias (w : Wallet) (a : Str) : Option Signer :=
  match truthy (w.aliases.get? a) with
  | none => none
  | some i => w.signerById i

/-- A signature: the key, and what was signed. -/
structure Signature where
  key : Nat
  /-- the identifier in what was signed -/
  ident : Option Str
  /-- the rest of what was signed -/
  body : Nat
deriving DecidableEq, Repr

/-- Python's `a or b` of optional strings. -/
def orElse (a b : Option Str) : Option Str :=
  match truthy a with
  | some x => some x
  | none => b

/-- plenum/client/wallet.py:160-175, `signMsg`; `none`: an error. What is signed is `ident` and `body`. -/
def Wallet.signMsg (w : Wallet) (ident : Option Str) (body : Nat) (i other : Option Str) : Option Signature :=
  match w.requiredIdr (orElse i other) none with
  | none => none
  | some idr => (w.signerById idr).map (fun s => ⟨s.key, ident, body⟩)

/-- A request: its identifier, the rest, and the signature. plenum/common/request.py:15-45, `Request`. -/
structure Req where
  ident : Option Str
  body : Nat
  sig : Option Signature := none
deriving DecidableEq, Repr

/-- plenum/client/wallet.py:177-201, `signRequest`; the new request id is in `body`. -/
def Wallet.signRequest (w : Wallet) (r : Req) (i : Option Str) : Option Req :=
  match w.requiredIdr (orElse i r.ident) none with
  | none => none
  | some idr =>
    (w.signMsg (some idr) r.body (some idr) (some idr)).map (fun s => { r with ident := some idr, sig := some s })

/-- One more signature for a request, with the identifier under which it is put; the request itself keeps its identifier.
plenum/client/wallet.py:218-222, `do_multi_sig_on_req`, and 224-234, `sign_using_multi_sig`. -/
def Wallet.multiSign (w : Wallet) (r : Req) (i : Option Str) : Option (Str × Signature) :=
  match w.requiredIdr (orElse i w.default) none with
  | none => none
  | some idr => (w.signMsg r.ident r.body (some idr) none).map (fun s => (idr, s))

/-- plenum/client/wallet.py:248-249, `getVerkey`; `none`: `RuntimeError`. -/
def Wallet.getVerkey (w : Wallet) (i : Option Str) : Option Nat :=
  match orElse i w.default with
  | none => none
  | some i => (w.signerById i).map (·.key)

/-- plenum/client/wallet.py:251-254, `getAlias`. -/
def Wallet.getAlias (w : Wallet) (i : Str) : Option Str := (w.aliases.find? (fun e => decide (e.2 = i))).map (·.1)

/-- plenum/client/wallet.py:264-278, `listIds`, without `exclude`. -/
def Wallet.listIds (w : Wallet) : List Str :=
  w.aliases.map (·.1) ++ (w.signers.map (·.1)).filter (fun i => decide (i ∉ w.aliases.map (·.2)))

/-- The calls that change a wallet. plenum/client/wallet.py:79-134. -/
inductive Op where
  | add (s : Signer) (alias : Option Str)
  | update (i : Str) (s : Signer)
deriving DecidableEq, Repr

/-- One call; a call that raises an error leaves the wallet as it is. plenum/client/wallet.py:79-134. -/
def Wallet.step (w : Wallet) : Op → Wallet
  | .add s a => w.add s a
  | .update i s => (w.update i s).getD w

/-- A history of calls on a new wallet. -/
def run (ops : List Op) : Wallet := ops.foldl Wallet.step {}

/-! ## Files -/

/-- A path from the root: the names on the way. -/
abbrev Path := List Str

/-- Python's `Path.resolve`, without links: `.` is left out and `..` goes up. plenum/client/wallet.py:331-336, `_resolve`. -/
def resolve (p : Path) : Path :=
  p.foldl (fun acc n => if n = ['.'] ∨ n = [] then acc else if n = ['.', '.'] then acc.dropLast else acc ++ [n]) []

/-- `base / fpath`: an absolute path replaces the base. plenum/client/wallet.py:338-339, `_normalize`. -/
def normalize (base : Path) (absolute : Bool) (fpath : Path) : Path :=
  resolve (if absolute then fpath else base ++ fpath)

/-- The directories between the base and the file, from the bottom; the loop of `saveWallet`.
plenum/client/wallet.py:378-381, `saveWallet`. -/
def climb (base : Path) : Nat → Path → List Path
  | 0, _ => []
  | k + 1, d => if d ≠ base then d :: climb base k d.dropLast else []

/-- What `saveWallet` touches: the file it writes and the directories whose permissions it sets. -/
structure Touched where
  file : Path
  dirs : List Path
deriving DecidableEq, Repr

/-- plenum/client/wallet.py:348-391, `saveWallet`; `none`: `ValueError`. The parent of the root is the root. -/
def saveWallet (base : Path) (absolute : Bool) (fpath : Path) : Option Touched :=
  let f := normalize base absolute fpath
  let d := f.dropLast
  if base.isPrefixOf d then some ⟨f, climb base (d.length + 1) d⟩ else none

/-- plenum/client/wallet.py:393-421, `loadWallet`: the file that is read; `none`: `ValueError`. -/
def loadWallet (base : Path) (absolute : Bool) (fpath : Path) : Option Path :=
  let f := normalize base absolute fpath
  if base.isPrefixOf f.dropLast then some f else none

end Verif.Wallet
