import Verif.Model.Audit
/-!
# Freezing ledgers

A ledger of a plugin can be frozen: no more transactions are added to it, and its last
roots and size are kept in the config state.
-/
namespace Verif.Freeze
open Verif.Audit (Txn Field behind)

/-- plenum/server/request_handlers/ledgers_freeze/ledger_freeze_helper.py:30-34, `create_frozen_ledger_info`.
Each value is what a dictionary has, or `None`. -/
structure Info where
  root : Option (Field String)
  state : Option String
  seqNo : Option Nat
deriving DecidableEq, Repr

/-- What may be raised. -/
inductive Err
  /-- "ledgers can't be frozen" -/
  | baseLedger
  /-- "Only trustee can freeze ledgers" -/
  | notTrustee
  /-- "One or more ledgers have never existed" -/
  | neverExisted
  /-- a `TypeError`: the payload of `None` -/
  | noTxn
deriving DecidableEq, Repr

/-- `VALID_LEDGER_IDS`, plenum/common/constants.py:277. -/
def validLedgerIds : List Nat := [0, 1, 2, 3]

/-- plenum/server/request_handlers/ledgers_freeze/ledgers_freeze_handler.py:71-89,
`_load_hash_roots_from_audit_ledger`. `audit` is the committed audit ledger, `last` its last
transaction, whose sequence number is the length. State roots are never integers in an
audit transaction, so the second branch is not there. -/
def loadRoots (audit : List Txn) (last : Txn) (lid : Nat) : Except Err Info :=
  match last.roots.get? lid with
  | some (.back n) =>
    match behind audit (audit.length - 1) n with
    | none => .error .noTxn
    | some t => .ok ⟨t.roots.get? lid, last.states.get? lid, last.sizes.get? lid⟩
  | r => .ok ⟨r, last.states.get? lid, last.sizes.get? lid⟩

/-- The loop of plenum/server/request_handlers/ledgers_freeze/ledgers_freeze_handler.py:60-69. `none` for the
last transaction makes `get_payload_data` raise. -/
def freezeLoop (audit : List Txn) (last : Option Txn) : Dict Nat Info → List Nat → Except Err (Dict Nat Info)
  | frozen, [] => .ok frozen
  | frozen, lid :: ids =>
    if frozen.has lid then freezeLoop audit last frozen ids
    else match last with
      | none => .error .noTxn
      | some t =>
        match loadRoots audit t lid with
        | .error e => .error e
        | .ok i => freezeLoop audit last (frozen.set lid i) ids

/-- plenum/server/request_handlers/ledgers_freeze/ledgers_freeze_handler.py:54-69, `make_frozen_ledgers_list`:
the record as it is to be stored, from the one in the uncommitted state. Storing and
reading it back (JSON with the ids as texts) is not modelled. -/
def makeList (audit : List Txn) (frozen : Dict Nat Info) (ids : List Nat) : Except Err (Dict Nat Info) :=
  freezeLoop audit audit.getLast? frozen ids

/-- plenum/server/request_handlers/ledgers_freeze/ledgers_freeze_handler.py:22-26, `static_validation`, 38-42,
`authorize`, and 28-36, `additional_dynamic_validation`: an empty audit ledger is false in
Python. -/
def check (audit : List Txn) (trustee : Bool) (ids : List Nat) : Option Err :=
  if ids.any (fun i => validLedgerIds.contains i) then some .baseLedger
  else if !trustee then some .notTrustee
  else match audit.getLast? with
    | none => none
    | some t => if ids.any (fun i => !t.sizes.has i) then some .neverExisted else none

/-- A request to freeze ledgers, on a node with the committed audit ledger `audit` and the
record `frozen`: refused, or applied. -/
def freeze (audit : List Txn) (frozen : Dict Nat Info) (trustee : Bool) (ids : List Nat) : Except Err (Dict Nat Info) :=
  match check audit trustee ids with
  | some e => .error e
  | none => makeList audit frozen ids

/-- plenum/server/request_handlers/handler_interfaces/write_request_handler.py:114-121,
`_validate_ledger_is_not_frozen`: whether a request for a ledger passes. -/
def writable (frozen : Dict Nat Info) (lid : Nat) : Bool := validLedgerIds.contains lid || !frozen.has lid

end Verif.Freeze
