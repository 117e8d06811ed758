import Verif.Spec.Entry
/-!
# The declared forms of messages

What the schemas of plenum/common/messages say in words: which fields a message has, and what
may be in them. Written without the validators: about the JSON value alone.
-/
namespace Verif.Schema

open Verif (Val ascii)

/-- What the schemas take from elsewhere: Python's `int` on texts (`none`: it raises), the texts
that are IP addresses, and the ids of the ledgers of plugins. -/
structure Env where
  /-- `int(text)`; `none`: `ValueError`. -/
  intOf : List UInt8 → Option Int
  /-- `ipaddress.ip_address(text)` does not raise `ValueError`. -/
  isIp : List UInt8 → Bool
  /-- plenum/__init__.py:19, `PLUGIN_LEDGER_IDS`. -/
  plugins : List Int

namespace Spec

open Verif.Entry.Spec (Field NoField)

/-! ### Values -/

/-- Anything. -/
def Anything (_ : Val) : Prop := True

/-- An integer with a property. In Python `True` and `False` are the integers 1 and 0. -/
def Whole (p : Int → Prop) (v : Val) : Prop :=
  (∃ n, v = .int n ∧ p n) ∨ (v = .bool true ∧ p 1) ∨ (v = .bool false ∧ p 0)

def Natural : Val → Prop := Whole (fun n => 0 ≤ n)
def Port : Val → Prop := Whole (fun n => 1 ≤ n ∧ n ≤ 65535)
def SeqNo : Val → Prop := Whole (fun n => 1 ≤ n)
/-- Not before July 2017. -/
def Time : Val → Prop := Whole (fun n => 1499906902 ≤ n)
def LedgerId (env : Env) : Val → Prop := Whole (fun n => (0 ≤ n ∧ n ≤ 3) ∨ n ∈ env.plugins)
def Flag (v : Val) : Prop := ∃ b, v = .bool b

/-- A text with a property. -/
def Text (p : List UInt8 → Prop) (v : Val) : Prop := ∃ s, v = .str s ∧ p s

/-- The number of characters of a text: of the bytes of its UTF-8 form that do not continue a
character. -/
def numChars : List UInt8 → Nat
  | [] => 0
  | b :: s => (if 128 ≤ b ∧ b < 192 then 0 else 1) + numChars s

/-- A text of at least one and at most so many characters. -/
def UpTo (n : Nat) : Val → Prop := Text (fun s => s ≠ [] ∧ numChars s ≤ n)
def NonEmpty : Val → Prop := Text (fun s => s ≠ [])
def Exactly (t : String) (v : Val) : Prop := v = .str (ascii t)
def OneOf (l : List String) (v : Val) : Prop := ∃ t ∈ l, v = .str (ascii t)
def NullOr (p : Val → Prop) (v : Val) : Prop := v = .none ∨ p v
def ListOf (p : Val → Prop) (v : Val) : Prop := ∃ l, v = .list l ∧ ∀ x ∈ l, p x
def AnyDict (v : Val) : Prop := ∃ d, v = .dict d
def DictOf (k : List UInt8 → Prop) (p : Val → Prop) (v : Val) : Prop :=
  ∃ d, v = .dict d ∧ ∀ e ∈ d, k e.1 ∧ p e.2

/-- A text or bytes, not empty. -/
def Serialized (v : Val) : Prop := (∃ s, v = .str s ∧ s ≠ []) ∨ ∃ s, v = .bin s ∧ s ≠ []
/-- A text or bytes or nothing. -/
def SerializedOrNull (v : Val) : Prop := v = .none ∨ (∃ s, v = .str s) ∨ ∃ s, v = .bin s

/-- The number that base58 digits stand for. -/
inductive Digits : List UInt8 → Nat → Prop
  | nil : Digits [] 0
  | snoc (s : List UInt8) (n i : Nat) (b : UInt8) : Digits s n →
      (ascii "123456789ABCDEFGHJKLMNPQRSTUVWXYZabcdefghijkmnopqrstuvwxyz")[i]? = some b →
      Digits (s ++ [b]) (58 * n + i)

/-- The number of bytes a number takes. -/
def Takes (x m : Nat) : Prop := (x = 0 ∧ m = 0) ∨ (0 < m ∧ 256 ^ (m - 1) ≤ x ∧ x < 256 ^ m)

/-- The text is base58 for that many bytes: every leading `1` is a zero byte. -/
def Stands (s : List UInt8) (n : Nat) : Prop :=
  ∃ k t x m, s = List.replicate k 49 ++ t ∧ t.head? ≠ some 49 ∧ Digits t x ∧ Takes x m ∧ n = k + m

def Base58 (n : Nat) : Val → Prop := Text (fun s => Stands s n)
def Root : Val → Prop := Base58 32
def Identifier (v : Val) : Prop := Base58 16 v ∨ Base58 32 v

/-- A full verification key, or an abbreviated one after `~`. -/
def Verkey (v : Val) : Prop := Base58 32 v ∨ ∃ s, v = .str (126 :: s) ∧ Stands s 16

def Hex (b : UInt8) : Prop := (48 ≤ b ∧ b ≤ 57) ∨ (65 ≤ b ∧ b ≤ 70) ∨ (97 ≤ b ∧ b ≤ 102)
/-- 64 hexadecimal digits; a newline may follow. -/
def Sha256 : Val → Prop :=
  Text (fun s => ∃ h, h.length = 64 ∧ (∀ b ∈ h, Hex b) ∧ (s = h ∨ s = h ++ [10]))

def Ip (env : Env) : Val → Prop :=
  Text (fun s => env.isIp s = true ∧ s ≠ ascii "0.0.0.0" ∧ s ≠ ascii "0:0:0:0:0:0:0:0" ∧ s ≠ ascii "::")

/-- A batch id: a list of four items or a dict of four fields. -/
def BatchId (v : Val) : Prop :=
  ∃ a b c e, Natural a ∧ Natural b ∧ Natural c ∧ NonEmpty e ∧
    (v = .list [a, b, c, e] ∨ ∃ d, v = .dict d ∧ d.length = 4 ∧ Field d (ascii "view_no") a ∧
      Field d (ascii "pp_view_no") b ∧ Field d (ascii "pp_seq_no") c ∧ Field d (ascii "pp_digest") e)

/-- A node and the digest of its VIEW_CHANGE. -/
def Vote (v : Val) : Prop := ∃ n d, v = .list [n, d] ∧ NonEmpty n ∧ UpTo 512 d

def LedgerInfo (env : Env) (v : Val) : Prop :=
  ∃ i n r, v = .list [i, n, r] ∧ LedgerId env i ∧ Natural n ∧ Root r

/-- What a multi-signature signs: ledger, root of its state, root of the pool state, root of the
ledger, time. -/
def MultiSigValue (env : Env) (v : Val) : Prop :=
  ∃ i s p t time, v = .list [i, s, p, t, time] ∧ LedgerId env i ∧ Root s ∧ Root p ∧ Root t ∧ Time time

/-- A signature, at least one participant, and what they signed. -/
def MultiSig (env : Env) (v : Val) : Prop :=
  ∃ sig l value, v = .list [sig, .list l, value] ∧ UpTo 512 sig ∧ l ≠ [] ∧ (∀ x ∈ l, NonEmpty x) ∧
    MultiSigValue env value

/-! ### Objects -/

/-- A field of an object: its name, whether it must be there, what may be in it. -/
structure Need where
  name : String
  must : Bool
  form : Val → Prop

/-- The object has the fields it must have, and in every field what may be in it. Other fields
are allowed. -/
def HasForm (t : List Need) (d : List (List UInt8 × Val)) : Prop :=
  ∀ n ∈ t, (n.must = true → ∃ v, Field d (ascii n.name) v) ∧ ∀ v, Field d (ascii n.name) v → n.form v

def must (name : String) (form : Val → Prop) : Need := ⟨name, true, form⟩
def may (name : String) (form : Val → Prop) : Need := ⟨name, false, form⟩

/-! ### Requests of clients -/

def nodeDataTable (env : Env) : List Need := [
  may "node_ip" (Ip env), may "node_port" Port, may "client_ip" (Ip env), may "client_port" Port,
  must "alias" (UpTo 256), may "services" (ListOf (OneOf ["VALIDATOR"])), may "blskey" (Base58 128),
  may "blskey_pop" (Base58 128)]

/-- The data of a node: all four parts of its addresses, or none. -/
def NodeData (env : Env) (v : Val) : Prop :=
  ∃ d, v = .dict d ∧ HasForm (nodeDataTable env) d ∧
    ((∀ k ∈ ["node_ip", "node_port", "client_ip", "client_port"], ∃ x, Field d (ascii k) x) ∨
     ∀ k ∈ ["node_ip", "node_port", "client_ip", "client_port"], NoField d (ascii k))

/-- A text of at most so many characters, or the empty text. -/
def AtMost (n : Nat) : Val → Prop := Text (fun s => numChars s ≤ n)

/-- The operations, by type. -/
def operations (env : Env) : List (String × List Need) := [
  ("0", [must "type" (Exactly "0"), must "data" (NodeData env), must "dest" Identifier, may "verkey" Verkey]),
  ("1", [must "type" (Exactly "1"), may "alias" (UpTo 256), may "verkey" (NullOr Verkey), must "dest" Identifier,
    may "role" (NullOr (Text (fun _ => True)))]),
  ("3", [must "type" (Exactly "3"), may "ledgerId" (LedgerId env), must "data" SeqNo]),
  ("4", [must "type" (Exactly "4"), may "text" (AtMost 129024), must "version" (UpTo 256),
    may "ratification_ts" Natural, may "retirement_ts" Natural]),
  ("8", [must "type" (Exactly "8")]),
  ("5", [must "type" (Exactly "5"), must "version" (UpTo 256), must "aml" AnyDict, may "amlContext" (UpTo 129024)]),
  ("6", [must "type" (Exactly "6"), may "version" NonEmpty, may "digest" NonEmpty, may "timestamp" Natural]),
  ("7", [must "type" (Exactly "7"), may "version" NonEmpty, may "timestamp" Natural]),
  ("9", [must "type" (Exactly "9"), must "ledgers_ids" (ListOf (Whole (fun _ => True)))]),
  ("10", [must "type" (Exactly "10")])]

/-- An operation has a type that is no list and no object; when its type is known, it has the
form for that type. -/
def Operation (env : Env) (v : Val) : Prop :=
  ∃ d t, v = .dict d ∧ Field d (ascii "type") t ∧ t ≠ .none ∧ (∀ l, t ≠ .list l) ∧ (∀ e, t ≠ .dict e) ∧
    ∀ o ∈ operations env, t = .str (ascii o.1) → HasForm o.2 d

def taaTable : List Need := [must "taaDigest" Sha256, must "mechanism" (UpTo 64), must "time" Time]

def requestTable (env : Env) : List Need := [
  may "identifier" (NullOr Identifier), must "reqId" Natural, must "operation" (Operation env),
  may "signature" (NullOr (UpTo 512)), may "digest" (UpTo 512), must "protocolVersion" (· = .int 2),
  may "taaAcceptance" (fun v => ∃ d, v = .dict d ∧ HasForm taaTable d),
  may "signatures" (NullOr (DictOf (fun k => Identifier (.str k)) (NullOr (UpTo 512)))),
  may "endorser" Identifier]

/-- There is an entry for this signer in the field `signatures`. -/
def Signer (d : List (List UInt8 × Val)) (s : List UInt8) : Prop :=
  ∃ e v, Field d (ascii "signatures") (.dict e) ∧ Field e s v

/-- Somebody is named; there is one kind of signature; an author among several signers, and an
endorser, is one of the signers; an endorser needs an author who signs. -/
def Rules (d : List (List UInt8 × Val)) : Prop :=
  ((∃ s, Signer d s) ∨ ∃ i, Field d (ascii "identifier") (.str i)) ∧
  ((∃ s, Signer d s) → ∀ s, ¬ Field d (ascii "signature") (.str s)) ∧
  (∀ i, Field d (ascii "identifier") (.str i) → (∃ s, Signer d s) → Signer d i) ∧
  ∀ e, Field d (ascii "endorser") (.str e) → Signer d e ∧
    ∃ i, Field d (ascii "identifier") (.str i) ∧ Signer d i

def Request (env : Env) (v : Val) : Prop := ∃ d, v = .dict d ∧ HasForm (requestTable env) d ∧ Rules d

/-! ### Messages of nodes -/

def checkpointTable : List Need := [
  must "instId" Natural, must "viewNo" Natural, must "seqNoStart" Natural, must "seqNoEnd" Natural,
  must "digest" (NullOr Root)]

def batchCommittedTable (env : Env) : List Need := [
  must "requests" (ListOf (Request env)), must "ledgerId" (LedgerId env), must "instId" Natural,
  must "viewNo" Natural, must "ppSeqNo" Natural, must "ppTime" Time, must "stateRootHash" Root,
  must "txnRootHash" Root, must "seqNoStart" Natural, must "seqNoEnd" Natural,
  must "auditTxnRootHash" (NullOr Root), must "primaries" (ListOf (UpTo 256)),
  must "nodeReg" (ListOf (UpTo 256)), must "originalViewNo" Natural, must "digest" (UpTo 512)]

def askable : List String := ["LEDGER_STATUS", "CONSISTENCY_PROOF", "PREPREPARE", "PREPARE", "COMMIT",
  "PROPAGATE", "VIEW_CHANGE", "NEW_VIEW"]

/-- The messages, by type. -/
def messages (env : Env) : List (String × List Need) := [
  ("BATCH", [must "messages" (ListOf Serialized), must "signature" (NullOr (UpTo 512))]),
  ("BLACKLIST", [must "suspicionCode" Anything, must "nodeName" Anything]),
  ("REQACK", [must "identifier" Anything, must "reqId" Anything]),
  ("REQNACK", [must "identifier" Anything, must "reqId" Anything, must "reason" Anything,
    may "code" (Whole (fun _ => True))]),
  ("REJECT", [must "identifier" Anything, must "reqId" Anything, must "reason" Anything,
    may "code" (NullOr (Whole (fun _ => True)))]),
  ("POOL_LEDGER_TXNS", [must "txn" Anything]),
  ("ORDERED", [must "instId" Natural, must "viewNo" Natural, must "valid_reqIdr" (ListOf (UpTo 512)),
    must "invalid_reqIdr" (ListOf (UpTo 512)), must "ppSeqNo" Natural, must "ppTime" Time,
    must "ledgerId" (LedgerId env), must "stateRootHash" (NullOr Root), must "txnRootHash" (NullOr Root),
    must "auditTxnRootHash" (NullOr Root), must "primaries" (ListOf (UpTo 256)),
    must "nodeReg" (ListOf (UpTo 256)), must "originalViewNo" Natural, must "digest" (UpTo 512),
    may "plugin_fields" (NullOr AnyDict)]),
  ("PROPAGATE", [must "request" (Request env), must "senderClient" (NullOr (UpTo 256))]),
  ("PREPREPARE", [must "instId" Natural, must "viewNo" Natural, must "ppSeqNo" Natural, must "ppTime" Time,
    must "reqIdr" (ListOf (UpTo 512)), must "discarded" SerializedOrNull, must "digest" (UpTo 512),
    must "ledgerId" (LedgerId env), must "stateRootHash" (NullOr Root), must "txnRootHash" (NullOr Root),
    must "sub_seq_no" Natural, must "final" Flag, may "poolStateRootHash" (NullOr Root),
    may "auditTxnRootHash" (NullOr Root), may "blsMultiSig" (NullOr (MultiSig env)),
    may "blsMultiSigs" (ListOf (NullOr (MultiSig env))), may "originalViewNo" (NullOr Natural),
    may "plugin_fields" (NullOr AnyDict)]),
  ("OLD_VIEW_PREPREPARE_REQ", [must "instId" Natural, must "batch_ids" (ListOf BatchId)]),
  ("OLD_VIEW_PREPREPARE_REP", [must "instId" Natural, must "preprepares" (ListOf Anything)]),
  ("PREPARE", [must "instId" Natural, must "viewNo" Natural, must "ppSeqNo" Natural, must "ppTime" Time,
    must "digest" (UpTo 512), must "stateRootHash" (NullOr Root), must "txnRootHash" (NullOr Root),
    may "auditTxnRootHash" (NullOr Root), may "plugin_fields" (NullOr AnyDict)]),
  ("COMMIT", [must "instId" Natural, must "viewNo" Natural, must "ppSeqNo" Natural, may "blsSig" (UpTo 512),
    may "blsSigs" (DictOf (fun k => ∃ n, env.intOf k = some n ∧ 0 ≤ n) (UpTo 512)),
    may "plugin_fields" (NullOr AnyDict)]),
  ("CHECKPOINT", checkpointTable),
  ("REPLY", [must "result" Anything]),
  ("INSTANCE_CHANGE", [must "viewNo" Natural, must "reason" Natural]),
  ("BACKUP_INSTANCE_FAULTY", [must "viewNo" Natural, must "instancesIdr" (ListOf Natural), must "reason" Natural]),
  ("VIEW_CHANGE", [must "viewNo" Natural, must "stableCheckpoint" Natural, must "prepared" (ListOf BatchId),
    must "preprepared" (ListOf BatchId), must "checkpoints" (ListOf Anything)]),
  ("VIEW_CHANGE_ACK", [must "viewNo" Natural, must "name" (UpTo 256), must "digest" (UpTo 512)]),
  ("NEW_VIEW", [must "viewNo" Natural, must "viewChanges" (ListOf Vote), must "checkpoint" Anything,
    must "batches" (ListOf BatchId), may "primary" (UpTo 256)]),
  ("LEDGER_STATUS", [must "ledgerId" (LedgerId env), must "txnSeqNo" Natural, must "viewNo" (NullOr Natural),
    must "ppSeqNo" (NullOr Natural), must "merkleRoot" Root, must "protocolVersion" (· = .int 2)]),
  ("CONSISTENCY_PROOF", [must "ledgerId" (LedgerId env), must "seqNoStart" Natural, must "seqNoEnd" Natural,
    must "viewNo" Natural, must "ppSeqNo" Natural, must "oldMerkleRoot" Root, must "newMerkleRoot" Root,
    must "hashes" (ListOf (UpTo 256))]),
  ("CATCHUP_REQ", [must "ledgerId" (LedgerId env), must "seqNoStart" Natural, must "seqNoEnd" Natural,
    must "catchupTill" Natural]),
  ("CATCHUP_REP", [must "ledgerId" (LedgerId env), must "txns" Anything, must "consProof" (ListOf (Base58 32))]),
  ("VIEW_CHANGE_DONE", [must "viewNo" Natural, must "name" (NullOr (UpTo 256)),
    must "ledgerInfo" (ListOf (LedgerInfo env))]),
  ("CURRENT_STATE", [must "viewNo" Natural, must "primary" (ListOf Anything)]),
  ("MESSAGE_REQUEST", [must "msg_type" (OneOf askable), must "params" AnyDict]),
  ("MESSAGE_RESPONSE", [must "msg_type" (OneOf askable), must "params" AnyDict, must "msg" Anything]),
  ("BATCH_COMMITTED", batchCommittedTable env),
  ("OBSERVED_DATA", [must "msg_type" (OneOf ["BATCH"]), must "msg" Anything]),
  ("ViewChangeStart", [must "proposed_view_no" (Whole (fun _ => True))]),
  ("ViewChangeContinue", [must "proposed_view_no" (Whole (fun _ => True))])]

/-- A checkpoint inside another message. -/
def Checkpoint (c : List (List UInt8 × Val)) : Prop := HasForm checkpointTable c ∧ NoField c (ascii "self")

/-- What is asked of some messages beyond their fields one by one. -/
def Beyond (env : Env) (op : String) (d : List (List UInt8 × Val)) : Prop :=
  (op = "PREPREPARE" → ∀ l, Field d (ascii "blsMultiSigs") (.list l) → Val.none ∉ l) ∧
  (op = "VIEW_CHANGE" → ∀ l, Field d (ascii "checkpoints") (.list l) → ∀ c, Val.dict c ∈ l → Checkpoint c) ∧
  (op = "NEW_VIEW" → ∀ c, Field d (ascii "checkpoint") (.dict c) → Checkpoint c) ∧
  (op = "OBSERVED_DATA" → ∃ c, Field d (ascii "msg") (.dict c) ∧ HasForm (batchCommittedTable env) c ∧
    NoField c (ascii "self"))

/-- The object has the form that is declared for messages of this type. -/
def Declared (env : Env) (op : String) (d : List (List UInt8 × Val)) : Prop :=
  NoField d (ascii "self") ∧ (∃ t, (op, t) ∈ messages env ∧ HasForm t d) ∧ Beyond env op d

/-- A list that is not of three items, where a multi-signature belongs. -/
def Short (v : Val) : Prop := ∃ l, v = .list l ∧ l.length ≠ 3

/-- A PREPREPARE with all its fields whose first field of a wrong form is a multi-signature that
is a list of another length than 3, alone or among several, the earlier ones being right. -/
def Unpack (env : Env) (d : List (List UInt8 × Val)) : Prop :=
  ∃ t, ("PREPREPARE", t) ∈ messages env ∧ NoField d (ascii "self") ∧
    (∀ n ∈ t, n.must = true → ∃ v, Field d (ascii n.name) v) ∧
    ∃ a k v b, d = a ++ (k, v) :: b ∧ (∀ e ∈ a, ∀ n ∈ t, e.1 = ascii n.name → n.form e.2) ∧
      ((k = ascii "blsMultiSig" ∧ Short v) ∨
       (k = ascii "blsMultiSigs" ∧ ∃ p x q, v = .list (p ++ x :: q) ∧ (∀ y ∈ p, NullOr (MultiSig env) y) ∧ Short x))

/-- An accepted message that cannot be written out again: a VIEW_CHANGE with checkpoints none of
which is an object, a NEW_VIEW whose checkpoint is no object. -/
def Unwritable (op : String) (d : List (List UInt8 × Val)) : Prop :=
  (op = "VIEW_CHANGE" ∧ ∃ l, Field d (ascii "checkpoints") (.list l) ∧ l ≠ [] ∧ ∀ c, Val.dict c ∉ l) ∨
  (op = "NEW_VIEW" ∧ ∃ v, Field d (ascii "checkpoint") v ∧ ∀ c, v ≠ .dict c)

end Spec
end Verif.Schema
