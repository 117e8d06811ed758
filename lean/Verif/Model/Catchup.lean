import Verif.Model.Ledger
import Verif.Model.Dict
/-!
# Model of `plenum/server/catchup/catchup_rep_service.py`

One `CatchupRepService`, for one ledger. Replies for other ledgers are ignored by
the code (`_can_process_catchup_rep`, first test) and are left out.

The ledger is the list of its transactions; the root of the copy of the tree to
which transactions have been applied (`treeWithAppliedTxns`) is `Spec.mth` of
their serializations, which is what `C01_tree_root` proves of the compact tree.

Sequence numbers arrive as the keys of a JSON object, so they are text, and the
schema of `CATCHUP_REP` does not restrict them (`AnyValueField`). `Env.toInt` is
Python's `int(s)` and `Env.toStr` is `str(n)`. That the transactions are a
dictionary at all is taken for granted.
-/
namespace Verif.Catchup
open Verif.Merkle

abbrev Name := Nat

/-- What the service uses of the rest of the node. -/
structure Env (τ : Type) where
  /-- The hash function. -/
  H : Bytes → Bytes
  /-- `serialize_for_tree`. -/
  ser : τ → Bytes
  /-- `transform_txn_for_ledger` (write_request_manager.py:195-199): `none` when it
  raises because the type of the transaction is unknown. -/
  transform : τ → Option τ
  /-- `Ledger.add` (plenum/common/ledger.py:59-61): a transaction without a sequence
  number is given this one. -/
  fill : Nat → τ → τ
  /-- Python's `int(s)` of a string; `none` is `ValueError`. -/
  toInt : List Char → Option Int
  /-- Python's `str(n)` of an integer. -/
  toStr : Int → List Char

/-- `int(str(n)) == n`. -/
def Env.Sound {τ} (E : Env τ) : Prop := ∀ n, E.toInt (E.toStr n) = some n

/-- utils.py:14-17, `CatchupTill`. The hash is already decoded. -/
structure Till where
  startSize : Nat
  finalSize : Nat
  finalHash : Bytes
  deriving DecidableEq, Repr

/-- node_messages.py:408-417, `CatchupRep`. The hashes of the proof are already decoded. -/
structure Rep (τ : Type) where
  txns : Dict (List Char) τ
  proof : List Bytes

/-- Exceptions that leave `process_catchup_rep`. -/
inductive Err
  | notInt | unknownType | unpackNone
  deriving DecidableEq, Repr

/-- catchup_rep_service.py:19-45, the fields of `CatchupRepService`, the ledger, and three
records that are not in the code: the nodes blacklisted so far, how often
`LedgerCatchupComplete` was sent, and all strings hashed while checking replies. -/
structure State (τ : Type) where
  ledger : List τ
  working : Bool := false
  till : Option Till := none
  waiting : List Name := []
  replies : Dict Name (List (Rep τ)) := []
  pending : List (Int × τ) := []
  blacklisted : List Name := []
  completed : Nat := 0
  hashed : List Bytes := []

section
variable {τ : Type} (E : Env τ)

/-- catchup_rep_service.py:110-124, `_finish`. -/
def State.finish (s : State τ) : State τ :=
  { s with waiting := [], working := false, pending := [], replies := [],
           completed := s.completed + 1 }

/-- catchup_rep_service.py:54-78, `start`; sending the requests is modelled by
`buildReqs` below. `None` instead of a message is the same as no target. -/
def State.start (s : State τ) (till : Option Till) : State τ :=
  let s := { s with working := true, till := till }
  match till with
  | none => s.finish
  | some t => if s.ledger.length ≥ t.finalSize then s.finish else s

/-- The first `zip` test of `_get_interesting_txns_from_catchup_rep`: every number is
one more than the one before. -/
def consecutive : List (Int × τ) → Bool
  | a :: b :: l => b.1 == a.1 + 1 && consecutive (b :: l)
  | _ => true

/-- `sorted(..., key=lambda v: v[0])`. -/
def le (a b : Int × τ) : Bool := a.1 ≤ b.1

/-- `((int(s), t) for s, t in rep.txns.items())`; `none`: `int` raised. -/
def numbered (rep : Dict (List Char) τ) : Option (List (Int × τ)) :=
  rep.mapM (fun e => (E.toInt e.1).map (fun n => (n, e.2)))

/-- catchup_rep_service.py:301-316, `_get_interesting_txns_from_catchup_rep`. -/
def interesting (size : Nat) (txns : List (Int × τ)) : List (Int × τ) :=
  let txns := txns.mergeSort le
  if ¬ txns.any (fun e => decide (e.1 > (size : Int))) then []
  else if ¬ consecutive txns then []
  else txns

/-- catchup_rep_service.py:318-339, `_merge_catchup_txns`. `new_txns` is consecutive, so
popping index `seq_no - start_seq_no` removes the transaction numbered `seq_no`. -/
def mergeTxns (existing new : List (Int × τ)) : List (Int × τ) :=
  existing.merge (new.filter (fun e => ¬ existing.any (fun x => x.1 == e.1))) le

/-- `str(seq_no) in rep.txns`. -/
def Rep.holds (rep : Rep τ) (n : Int) : Bool := rep.txns.has (E.toStr n)

/-- catchup_rep_service.py:428-434, `_find_catchup_reply_for_seq_no`; `none` is the `None`
returned when no reply has the key. -/
def findReply (replies : Dict Name (List (Rep τ))) (n : Int) : Option (Name × Rep τ) :=
  replies.findSome? (fun e => (e.2.find? (fun r => r.holds E n)).map (fun r => (e.1, r)))

/-- catchup_rep_service.py:440-444, `_remove_processed_catchup_reply`: the first reply of
the node that has the key. (Without one the code would remove the last reply, or
fail on an empty list; it is only called for the node `findReply` returned.) -/
def removeReply (replies : Dict Name (List (Rep τ))) (node : Name) (n : Int) : Dict Name (List (Rep τ)) :=
  match replies.get? node with
  | none => replies
  | some reps => replies.set node (reps.eraseP (fun r => r.holds E n))

/-- The transactions of `_has_valid_catchup_replies` that are put into the temporary
tree: catchup_rep_service.py:397-399. -/
def toCheck (rep : Rep τ) (txns : List (Int × τ)) : List (Int × τ) :=
  (txns.take rep.txns.length).filter (fun e => rep.holds E e.1)

/-- The entries of the temporary tree, `treeWithAppliedTxns`: plenum/common/ledger.py:129-144. -/
def tempLeaves (s : State τ) (txns : List τ) : List Bytes := (s.ledger ++ txns).map E.ser

/-- The verdict of `_has_valid_catchup_replies`: catchup_rep_service.py:406-426. Any
exception of the verifier means no. -/
def verified (t : Till) (leaves : List Bytes) (proof : List Bytes) : Bool :=
  match verifyTreeConsistency (TreeHasher.ofHash E.H) leaves.length t.finalSize
      (Spec.mth E.H leaves) t.finalHash proof with
  | .ok b => b
  | .error _ => false

/-- The strings hashed to build the temporary tree and to verify the proof. -/
def hashedBy (t : Till) (leaves : List Bytes) (proof : List Bytes) : List Bytes :=
  consistencyLog E.H leaves.length t.finalSize (Spec.mth E.H leaves) proof ++ Spec.mthInputs E.H leaves

/-- catchup_rep_service.py:436-438, `_add_txn`, for transactions whose transformation
succeeded. -/
def addTxns (s : State τ) (txns : List τ) : State τ :=
  { s with ledger := txns.foldl (fun l t => l ++ [E.fill (l.length + 1) t]) s.ledger }

/-- catchup_rep_service.py:355-376, the loop of `_process_catchup_txns`. Returns how many
transactions were processed, or the exception raised. The test `k = 0` is not in
the code: `k` is never 0, because the reply found holds the first transaction. -/
def processLoop (s : State τ) (t : Till) (txns : List (Int × τ)) (done : Nat) : State τ × Except Err Nat :=
  match txns with
  | [] => (s, .ok done)
  | (n, x) :: rest =>
    if n - s.ledger.length ≠ 1 then (s, .ok done)
    else
      match findReply E s.replies n with
      | none => (s, .error .unpackNone)
      | some (node, rep) =>
        let txns := (n, x) :: rest
        match (toCheck E rep txns).mapM (fun e => E.transform e.2) with
        | none => (s, .error .unknownType)
        | some checked =>
          let k := checked.length
          let leaves := tempLeaves E s checked
          let s := { s with hashed := s.hashed ++ hashedBy E t leaves rep.proof }
          if verified E t leaves rep.proof then
            match (txns.take k).mapM (fun e => E.transform e.2) with
            | none => (s, .error .unknownType)
            | some added =>
              let s := addTxns E s added
              let s := { s with replies := removeReply E s.replies node n }
              if k = 0 then (s, .ok done)
              else processLoop s t (txns.drop k) (done + k)
          else
            let s := { s with blacklisted := s.blacklisted ++ [node],
                              replies := removeReply E s.replies node n }
            (s, .ok (done + k))
termination_by txns.length
decreasing_by simp only [List.length_drop, List.length_cons]; omega

/-- catchup_rep_service.py:341-373, `_process_catchup_txns`. -/
def processTxns (s : State τ) (t : Till) (txns : List (Int × τ)) : State τ × Except Err Nat :=
  let done := (txns.filter (fun e => decide (e.1 ≤ (s.ledger.length : Int)))).length
  processLoop E s t (txns.drop done) done

/-- catchup_rep_service.py:80-108, `process_catchup_rep`. When an exception leaves it the
assignment to `_received_catchup_txns` does not happen. `_catchup_till` is set
whenever the service is working and has not just finished. -/
def State.processRep (s : State τ) (rep : Rep τ) (frm : Name) : State τ × Option Err :=
  match s.working, s.till with
  | true, some t =>
    let s := { s with waiting := s.waiting.filter (· ≠ frm) }
    match numbered E rep.txns with
    | none => (s, some .notInt)
    | some ns =>
      let txns := interesting s.ledger.length ns
      if txns.isEmpty then (s, none)
      else
        let s := { s with replies := s.replies.set frm ((s.replies.get? frm).getD [] ++ [rep]) }
        let merged := mergeTxns s.pending txns
        match processTxns E s t merged with
        | (s, .error e) => (s, some e)
        | (s, .ok done) =>
          let s := { s with pending := merged.drop done }
          (if s.ledger.length ≥ t.finalSize then s.finish else s, none)
  | _, _ => (s, none)

/-- What can happen to the service. Timeouts only send requests. -/
inductive Event (τ : Type)
  | start (till : Option Till)
  | rep (r : Rep τ) (frm : Name)

/-- One event. -/
def State.step (s : State τ) : Event τ → State τ
  | .start till => s.start till
  | .rep r frm => (s.processRep E r frm).1

def State.run (s : State τ) (es : List (Event τ)) : State τ := es.foldl (fun s e => s.step E e) s

end
end Verif.Catchup

/-! ## The seeder: `plenum/server/catchup/seeder_service.py` -/
namespace Verif.Catchup
open Verif.Merkle

section
variable {τ : Type} (E : Env τ)

/-- The transactions `start..end` as they are after JSON encoding: the keys are text.
`seeder_service.py:88-92` with `getAllTxn` (ledger.py:248-253). -/
def txnRange (log : List τ) (start stop : Nat) : Dict (List Char) τ :=
  (((log.take stop).drop (start - 1)).zipIdx start).map (fun e => (E.toStr e.2, e.1))

/-- seeder_service.py:49-95, `process_catchup_req`; `none`: the request is discarded
(or the consistency proof could not be made, which is an exception).
`update_txn_with_extra_data` returns the transaction (node.py:3017-3026). -/
def seederReply (l : Ledger τ) (start stop till : Nat) : Option (Rep τ) :=
  if start < 1 then none
  else if start > stop then none
  else if stop > till then none
  else if till > l.mem.tree.size then none
  else match consistencyProof (TreeHasher.ofHash E.H) l.disk.store stop till with
    | .error _ => none
    | .ok proof => some ⟨txnRange E l.disk.log start stop, proof⟩

/-- seeder_service.py:152-177, `_make_splitter_for_catchup_rep`: a reply that is too long is
cut in two, each half with its own proof. `none`: too short to split, or no proof. -/
def splitReply (l : Ledger τ) (till : Nat) (start stop : Nat) : Option (Rep τ × Rep τ) :=
  let n := stop + 1 - start
  if n < 2 then none
  else
    let leftLast := start + n / 2 - 1
    match consistencyProof (TreeHasher.ofHash E.H) l.disk.store leftLast till,
          consistencyProof (TreeHasher.ofHash E.H) l.disk.store stop till with
    | .ok p, .ok q => some (⟨txnRange E l.disk.log start leftLast, p⟩,
                            ⟨txnRange E l.disk.log (leftLast + 1) stop, q⟩)
    | _, _ => none

end
end Verif.Catchup
