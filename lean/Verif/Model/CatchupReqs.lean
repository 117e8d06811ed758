import Verif.Model.Catchup
/-!
# Model of how catchup requests are made

`plenum/server/catchup/catchup_rep_service.py`: `_send_catchup_reqs`,
`_build_catchup_reqs`, `_request_txns_if_needed`.
-/
namespace Verif.Catchup

/-- One `CATCHUP_REQ` and whom it is sent to: `seqNoStart` and `seqNoEnd`. -/
structure Req where
  node : Name
  lo : Nat
  hi : Nat
  deriving DecidableEq, Repr

/-- The largest ledger among the other nodes: catchup_rep_service.py:163-167, `find_next_best_node_idx`
and the lookup of its size. -/
def bestSize (l : List (Name × Nat)) : Nat := (l.map Prod.snd).foldr max 0

/-- catchup_rep_service.py:180-209, the loop of `_build_catchup_reqs` on the nodes
after filtering and shuffling. `none`: `find_node_idx` (catchup_rep_service.py:158-161)
found no node with a ledger that long and its `None` is used as an index, a `TypeError`. -/
def reqLoop (start batch : Nat) (nodes : List (Name × Nat)) (pos : Nat) : Option (List Req) :=
    if nodes = [] then some []
    else if pos < start then some []
    else
      let left := pos - start + 1
      let c := min left (max batch (left / nodes.length))
      match _hi : nodes.findIdx? (fun e => decide (e.2 ≥ pos)) with
      | none => none
      | some i =>
        let rest := nodes.eraseIdx i
        let c := if nodes.length > 1 ∧ pos - c > bestSize rest then pos - bestSize rest else c
        let node := (nodes[i]?.getD (0, 0)).1
        match reqLoop start batch rest (pos - c) with
        | none => none
        | some reqs => some (if c > 0 then ⟨node, pos - c + 1, pos⟩ :: reqs else reqs)
termination_by nodes.length
decreasing_by
  have hlt := (List.findIdx?_eq_some_iff_getElem.1 _hi).1
  simp only [List.length_eraseIdx_of_lt hlt]
  omega

/-- catchup_rep_service.py:152-208, `_build_catchup_reqs`. `shuffle` is any reordering. -/
def buildReqs (shuffle : List (Name × Nat) → List (Name × Nat)) (start stop batch : Nat)
    (sizes : Dict Name Nat) : Option (List Req) :=
  reqLoop start batch
    (shuffle ((sizes.filter (fun e => decide (e.2 ≥ start))).map (fun e => (e.1, min e.2 stop)))) stop

/-- catchup_rep_service.py:126-149, `_send_catchup_reqs`: the nodes that reported a ledger
of the final size, or else all eligible nodes. -/
def sendReqs (shuffle : List (Name × Nat) → List (Name × Nat)) (eligible : List Name)
    (reported : Dict Name Nat) (final batch start stop : Nat) : Option (List Req) :=
  let sizes := reported.filter (fun e => decide (e.1 ∈ eligible ∧ e.2 ≥ final))
  let sizes := if sizes.isEmpty then eligible.map (fun n => (n, stop)) else sizes
  buildReqs shuffle start stop batch sizes

/-- catchup_rep_service.py:213-218, `_num_missing_txns`. -/
def numMissing (final size pendingLen : Nat) : Nat := final - size - pendingLen

/-- The loop of `_request_txns_if_needed` over the transactions received:
the ranges to ask for and the last number seen. -/
def gapLoop : Int → List Int → List (Int × Int) × Int
  | last, [] => ([], last)
  | last, n :: l =>
    let r := gapLoop n l
    (if n - last ≠ 1 then (last + 1, n - 1) :: r.1 else r.1, r.2)

/-- catchup_rep_service.py:223-289, `_request_txns_if_needed`, when there are nodes to ask:
the ranges passed to `send_reqs_for_missing`. `none`: nothing is missing, nothing is
requested and the timer is not set again. -/
def missingRanges (final size : Nat) (pending : List Int) : Option (List (Int × Int)) :=
  if numMissing final size pending.length = 0 then none
  else
    let (gaps, last) := gapLoop size pending
    let left : Int := (numMissing final size pending.length : Int) - (gaps.map (fun g => g.2 - g.1 + 1)).sum
    some (gaps ++
      (if left > 0 then
        (if last = size then [((size : Int) + 1, (final : Int))]
         else if last ≠ final then [(last + 1, (final : Int))] else [])
       else []))

end Verif.Catchup
