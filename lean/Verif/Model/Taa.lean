import Verif.Model.PyVal
import Verif.Model.Dict
/-!
# The transaction author agreement

The handlers of TXN_AUTHOR_AGREEMENT, its acceptance mechanism list (AML) and
TXN_AUTHOR_AGREEMENT_DISABLE, and the check of acceptances in
plenum/server/request_managers/write_request_manager.py.

The config state is given by what is stored under each kind of path: the latest
agreement's digest, the digest of each version, the record of each digest, the latest
mechanism list and that of each version. `Props/Taa.lean` shows that these paths are
different. Records are stored decoded. Times are integers, as the request schema
demands. `H` is the hexadecimal SHA-256.
-/
namespace Verif.Taa
open Verif

/-- What is stored under the path of a digest: plenum/server/request_handlers/base_taa_handler.py:18-31,
`_set_taa_to_state`, with the sequence number and time of the last change. -/
structure Rec where
  text : Option Bytes
  version : Bytes
  ratified : Int
  retired : Option Int
  seqNo : Nat
  txnTime : Int
deriving Repr, DecidableEq

/-- The part of the config state that concerns the agreement. -/
structure State where
  latest : Option Bytes := none
  versions : Dict Bytes Bytes := []
  taas : Dict Bytes Rec := []
  amlLatest : Option (List Bytes) := none
  amlVersions : Dict Bytes (List Bytes) := []
deriving Repr, DecidableEq

/-- plenum/server/request_handlers/static_taa_helper.py:14-17, `state_path_taa_latest`. -/
def pathLatest : Bytes := ascii "2:latest"
/-- plenum/server/request_handlers/static_taa_helper.py:19-22, `state_path_taa_version`. -/
def pathVersion (version : Bytes) : Bytes := ascii "2:v:" ++ version
/-- plenum/server/request_handlers/static_taa_helper.py:24-27, `state_path_taa_digest`. -/
def pathDigest (digest : Bytes) : Bytes := ascii "2:d:" ++ digest
/-- plenum/server/request_handlers/static_taa_helper.py:33-35, `state_path_taa_aml_latest`. -/
def pathAmlLatest : Bytes := ascii "3:latest"
/-- plenum/server/request_handlers/static_taa_helper.py:37-39, `state_path_taa_aml_version`. -/
def pathAmlVersion (version : Bytes) : Bytes := ascii "3:v:" ++ version

/-- plenum/server/request_handlers/static_taa_helper.py:29-31, `taa_digest`: what is
hashed. An absent text is formatted as `None`. -/
def digestInput (text : Option Bytes) (version : Bytes) : Bytes := version ++ text.getD (ascii "None")

/-- The three kinds of requests. -/
inductive Op where
  | taa (version : Bytes) (text : Option Bytes) (ratified retired : Option Int)
  | aml (version : Bytes) (mechanisms : List Bytes)
  | disable
deriving Repr, DecidableEq

/-- Reasons of refusal. -/
inductive Err where
  | unauthorized
  | amlNotSet
  | noText
  | hasRetirement
  | noRatification
  | ratificationInFuture
  | textChanged
  | ratificationChanged
  | disabled
  | latestCannotBeRetired
  | amlVersionExists
  | notExpected
  | missing
  | notFound
  | retired
  | badTime
  | tooPrecise
  | wrongTime
  | badMechanism
  /-- another exception -/
  | crash
deriving Repr, DecidableEq

/-- plenum/server/request_handlers/static_taa_helper.py:71-79, `authorize`. `trustee`:
`is_trustee` on the uncommitted domain state. -/
def authorize (trustee : Bytes → Bool) (identifier : Bytes) (op : Op) : Bool :=
  match op with
  | .taa _ _ _ _ => trustee identifier
  | .aml _ _ => trustee identifier
  | .disable => true

/-- plenum/server/request_handlers/txn_author_agreement_handler.py:89-109, `_validate_add_taa`. -/
def validateAddTaa (text : Option Bytes) (ratified retired : Option Int) (ppTime : Int) : Except Err Unit :=
  if text = none then .error .noText
  else if retired ≠ none then .error .hasRetirement
  else match ratified with
    | none => .error .noRatification
    | some r => if r > ppTime then .error .ratificationInFuture else .ok ()

/-- plenum/server/request_handlers/txn_author_agreement_handler.py:111-140, `_validate_update_taa`. -/
def validateUpdateTaa (s : State) (text : Option Bytes) (ratified : Option Int) (digest : Bytes) : Except Err Unit :=
  match s.taas.get? digest with
  | none => .error .crash
  | some r =>
    if text ≠ none ∧ text ≠ r.text then .error .textChanged
    else if ratified ≠ none ∧ ratified ≠ some r.ratified then .error .ratificationChanged
    else match s.latest with
      | none => .error .disabled
      | some d => if d = digest then .error .latestCannotBeRetired else .ok ()

/-- `additional_dynamic_validation` of the three handlers:
plenum/server/request_handlers/txn_author_agreement_handler.py:29-43,
plenum/server/request_handlers/txn_author_agreement_aml_handler.py:27-33,
plenum/server/request_handlers/txn_author_agreement_disable_handler.py:30-33. -/
def additionalDynamicValidation (s : State) (op : Op) (ppTime : Int) : Except Err Unit :=
  match op with
  | .taa version text ratified retired =>
    if s.amlLatest = none then .error .amlNotSet
    else match s.versions.get? version with
      | none => validateAddTaa text ratified retired ppTime
      | some digest => validateUpdateTaa s text ratified digest
  | .aml version _ => if s.amlVersions.has version then .error .amlVersionExists else .ok ()
  | .disable => if s.latest = none then .error .disabled else .ok ()

/-- plenum/server/request_handlers/handler_interfaces/write_request_handler.py:34-38,
`dynamic_validation`. The config ledger is never frozen. -/
def dynamicValidation (trustee : Bytes → Bool) (s : State) (identifier : Bytes) (op : Op) (ppTime : Int) : Except Err Unit :=
  if !authorize trustee identifier op then .error .unauthorized
  else additionalDynamicValidation s op ppTime

/-- `if retirement_ts: …`, plenum/server/request_handlers/base_taa_handler.py:26-27. -/
def nonZero : Option Int → Option Int
  | some 0 => none
  | r => r

/-- What TXN_AUTHOR_AGREEMENT_DISABLE does with one agreement,
plenum/server/request_handlers/txn_author_agreement_disable_handler.py:41-49. -/
def retireBy (seqNo : Nat) (txnTime : Int) (r : Rec) : Rec :=
  match r.retired with
  | none => { r with retired := nonZero (some txnTime), seqNo := seqNo, txnTime := txnTime }
  | some t => if t > txnTime then { r with retired := nonZero (some txnTime), seqNo := seqNo, txnTime := txnTime } else r

/-- plenum/server/request_handlers/txn_author_agreement_handler.py:64-69, `_add_taa_to_state`.
A new agreement has its ratification time, which the validation demands. -/
def addTaaToState (s : State) (digest : Bytes) (seqNo : Nat) (txnTime : Int) (text : Option Bytes) (version : Bytes)
    (ratified : Option Int) : State :=
  { s with
    taas := s.taas.set digest ⟨text, version, ratified.getD 0, none, seqNo, txnTime⟩
    versions := s.versions.set version digest
    latest := some digest }

/-- plenum/server/request_handlers/txn_author_agreement_handler.py:71-80, `_update_taa_to_state`. -/
def updateTaaToState (s : State) (digest : Bytes) (seqNo : Nat) (txnTime : Int) (retired : Option Int) : State :=
  match s.taas.get? digest with
  | none => s
  | some r => { s with taas := s.taas.set digest ⟨r.text, r.version, r.ratified, nonZero retired, seqNo, txnTime⟩ }

/-- `update_state` of the three handlers:
plenum/server/request_handlers/txn_author_agreement_handler.py:45-59,
plenum/server/request_handlers/txn_author_agreement_aml_handler.py:35-47,
plenum/server/request_handlers/txn_author_agreement_disable_handler.py:35-50. -/
def updateState (H : Bytes → Bytes) (s : State) (op : Op) (seqNo : Nat) (txnTime : Int) : State :=
  match op with
  | .taa version text ratified retired =>
    match s.versions.get? version with
    | none => addTaaToState s (H (digestInput text version)) seqNo txnTime text version ratified
    | some digest => updateTaaToState s digest seqNo txnTime retired
  | .aml version mechanisms =>
    { s with amlLatest := some mechanisms, amlVersions := s.amlVersions.set version mechanisms }
  | .disable =>
    { s with taas := s.taas.map (fun e => (e.1, retireBy seqNo txnTime e.2)), latest := none }

/-- A submitted request, with the domain state at that time, the time of its batch and
the sequence number it would get. -/
structure Submit where
  trustee : Bytes → Bool
  identifier : Bytes
  op : Op
  ppTime : Int
  seqNo : Nat

/-- A request is validated and, if valid, applied. -/
def step (H : Bytes → Bytes) (s : State) (e : Submit) : State :=
  match dynamicValidation e.trustee s e.identifier e.op e.ppTime with
  | .ok _ => updateState H s e.op e.seqNo e.ppTime
  | .error _ => s

/-- A history from the empty state. -/
def run (H : Bytes → Bytes) (h : List Submit) : State := h.foldl (step H) {}

/-! ## Acceptance -/

/-- `taaAcceptance` of a request. -/
structure Acceptance where
  digest : Bytes
  mechanism : Bytes
  time : Int
deriving Repr, DecidableEq

/-- plenum/config.py:410-411. -/
structure Cfg where
  beforeTaa : Int := 120
  afterPp : Int := 120
deriving Repr, DecidableEq

/-- The times `datetime.utcfromtimestamp` accepts: years 1 to 9999. -/
def inRange (t : Int) : Bool := -62135596800 ≤ t && t ≤ 253402300799

/-- `datetime.utcfromtimestamp(t).date()`, as the number of the day. -/
def day (t : Int) : Int := t / 86400

/-- plenum/server/request_managers/write_request_manager.py:232-246, `get_taa_data`. -/
def getTaaData (s : State) (digest : Option Bytes) : Option Rec :=
  match digest with
  | some d => s.taas.get? d
  | none => match s.latest with
    | some d => s.taas.get? d
    | none => none

/-- The times, plenum/server/request_managers/write_request_manager.py:349-376. -/
def checkTimes (cfg : Cfg) (r : Rec) (time ppTime : Int) : Except Err Unit :=
  if !inRange time then .error .badTime
  else if time % 86400 ≠ 0 then .error .tooPrecise
  else if !inRange (r.ratified - cfg.beforeTaa) || !inRange (ppTime + cfg.afterPp) then .error .crash
  else if day time < day (r.ratified - cfg.beforeTaa) ∨ day time > day (ppTime + cfg.afterPp) then .error .wrongTime
  else .ok ()

/-- The mechanism, plenum/server/request_managers/write_request_manager.py:378-391. The
list is read from the committed state, everything else from the uncommitted one. -/
def checkMechanism (committed : State) (mechanism : Bytes) : Except Err Unit :=
  match committed.amlLatest with
  | none => .error .crash
  | some l => if l.contains mechanism then .ok () else .error .badMechanism

/-- `retired and retired < req_pp_time`, plenum/server/request_managers/write_request_manager.py:341-342. -/
def isRetired (r : Rec) (ppTime : Int) : Bool :=
  match r.retired with
  | some t => t ≠ 0 && t < ppTime
  | none => false

/-- plenum/server/request_managers/write_request_manager.py:297-395, `do_taa_validation`.
`required`: `is_taa_acceptance_required` of the ledger of the request. -/
def doTaaValidation (cfg : Cfg) (committed s : State) (required : Bool) (acceptance : Option Acceptance) (ppTime : Int) :
    Except Err Unit :=
  if !required then
    if acceptance.isSome then .error .notExpected else .ok ()
  else if (getTaaData s none).isNone then .ok ()
  else match acceptance with
    | none => .error .missing
    | some a =>
      match getTaaData s (some a.digest) with
      | none => .error .notFound
      | some r =>
        if isRetired r ppTime then .error .retired
        else match checkTimes cfg r a.time ppTime with
          | .error e => .error e
          | .ok _ => checkMechanism committed a.mechanism

end Verif.Taa
