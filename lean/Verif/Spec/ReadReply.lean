import Verif.Model.ReadReply
import Verif.Spec.State
/-!
# What the reply to a read request should be

`m` is the content of the state at the root the reply is about, `puts` are the multi-signatures the
node has stored so far, in order.
-/
namespace Verif.Spec.Read
open Verif.Rlp Verif.Trie Verif.Read Verif.Spec.State

/-- The multi-signature stored last for a state root. -/
def lastSig (puts : List Sig) (root : Bytes) : Option Sig := (puts.filter (fun s => s.stateRoot = root)).getLast?

/-- The store of a node that has stored these multi-signatures. -/
def storeOf (puts : List Sig) : Store := puts.foldl Store.put []

/-- The proof in a reply, if there is one, has the root, the multi-signature stored last for this root, and nodes that
every verifier accepts for this key and this value. There is a proof if and only if the client understands it and
there is such a multi-signature. -/
structure Proves (H : Bytes → Bytes) (puts : List Sig) (root key : Bytes) (value : Option Bytes) (support : Bool)
    (proof : Option Read.Proof) : Prop where
  some_iff : proof.isSome = true ↔ support = true ∧ ∃ g ∈ puts, g.stateRoot = root
  about : ∀ p, proof = some p → p.root = root
  sig : ∀ p, proof = some p → lastSig puts root = some p.sig
  accepted : ∀ p, proof = some p → ∀ w, w.spv = {} → verifySerialized H root key value p.nodes w = (.ok true, w)

/-- The root a request is about, and the content of the state at this root: the committed one or, for a request with a
timestamp (and nothing that goes before it), the one the node has noted for this time. -/
def About (ops : List Op) (s : Session) (ts : Int → Option Bytes) (named : Bool) (time : Option Int) (root : Bytes)
    (m : Content) : Prop :=
  match named, time with
  | false, some t => ts t = some root ∧ ∃ i : Nat, s.hashes[i]? = some root ∧ (Abs.run ops).past[i]? = some m
  | _, _ => committedHeadHash s.world = (.ok root, s.world) ∧ m = (Abs.run ops).committed

/-- The last state root of a ledger in the audit ledger. -/
def lastAuditRoot (ledgerId : Nat) (audit : List (Dict Nat Bytes)) : Option Bytes :=
  ((audit.filterMap (fun t => t.get? ledgerId)).filter (fun r => r ≠ [])).getLast?

/-- What a request about acceptance mechanisms asks for. -/
def amlKey (q : Query) : Bytes :=
  match q.version with
  | some v => ascii "3:v:" ++ v
  | none => ascii "3:latest"

/-- What a request about author agreements asks for: under the digest there is the agreement, under the others there
is the digest of one. -/
def taaKey (q : Query) : Bytes :=
  match q.version, q.digest with
  | some v, _ => ascii "2:v:" ++ v
  | none, some d => ascii "2:d:" ++ d
  | none, none => ascii "2:latest"

end Verif.Spec.Read
