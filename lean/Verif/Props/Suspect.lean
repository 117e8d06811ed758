import Verif.Proofs.SuspectPool
/-!
# C101: which PRE-PREPARE makes a node vote for a view change

A vote for a view change takes the primary out. It should rest on something the primary did. In the code the digest of a
PRE-PREPARE is checked before its sender, and a wrong digest is held against the primary whoever sent it.
-/
namespace Verif.Props

open Verif.TPC (Replica PrePrepare)
open Verif.Suspect
open Verif.Spec.Suspect

/-! ## One node -/

/-- The checks, with their reasons, are those under which a PRE-PREPARE is taken in the model of the three phases. -/
theorem C101_same_checks (cfg : TPC.Cfg) (r : Replica) (pp : PrePrepare) (sender : Node) (env : Env) (a : Bool) :
    whyNot cfg r pp sender env = none ↔
      r.canProcessPP cfg pp sender ⟨env.timeOk, !env.unknown pp, env.poolRootOk, env.multiSigOk, a⟩ = true :=
  su_refines cfg r pp sender env a

/-- **C101**, the code. On a PRE-PREPARE of the master instance a node sends an InstanceChange for the next view if and only
if it works on that place now, and the digest is wrong - whoever sent it - or the sender is the primary and the message proves
a fault of the primary. Otherwise its votes stay as they are. -/
theorem C101_exact (p : Pool) (i : Node) (d : Nd) (pp : PrePrepare) (sender : Node) (env : Env) :
    ((d.step p i (.pp true pp sender env)).ic.sent = d.ic.sent ++ [d.ic.view + 1] ↔
      Current d.replica pp ∧ (¬ DigestRight p pp ∨ PrimaryAtFault p d.replica pp sender env)) ∧
    ((d.step p i (.pp true pp sender env)).ic.sent = d.ic.sent ++ [d.ic.view + 1] ∨ d.step p i (.pp true pp sender env) = d) := by
  rw [← su_exact p i d pp sender env]
  unfold Nd.step
  dsimp only
  cases hr : report true (suspicion (p.tpc i) d.replica pp sender env) with
  | none => simp
  | some c =>
    have : (d.ic.processVote (p.ic i) false c none).sent = d.ic.sent ++ [d.ic.view + 1] := su_sendIC_sent ..
    simp [this]

/-- **C101 does not hold of the code**, one node: a PRE-PREPARE with a wrong digest, sent by any node at all, makes a node that
works on its place vote against the primary. -/
theorem C101_any_sender (p : Pool) (i : Node) (d : Nd) (pp : PrePrepare) (sender : Node) (env : Env)
    (hc : Current d.replica pp) (hd : ¬ DigestRight p pp) :
    (d.step p i (.pp true pp sender env)).ic.sent = d.ic.sent ++ [d.ic.view + 1] :=
  (C101_exact p i d pp sender env).1.2 ⟨hc, .inl hd⟩

/-- **C101**, messages with the right digest: a node that votes on one has it from the primary, and the message proves that the
primary is at fault. Missing for the full claim: messages with a wrong digest (`C101_any_sender`). -/
theorem C101_evidence_partial (p : Pool) (i : Node) (d : Nd) (pp : PrePrepare) (sender : Node) (env : Env)
    (hd : DigestRight p pp) (hv : d.step p i (.pp true pp sender env) ≠ d) :
    sender = p.primary d.ic.view ∧ PrimaryAtFault p d.replica pp sender env := by
  obtain ⟨h1, h2⟩ := C101_exact p i d pp sender env
  rcases h2 with h2 | h2
  · obtain ⟨_, h⟩ := h1.1 h2
    rcases h with h | h
    · exact absurd hd h
    · exact ⟨h.1, h⟩
  · exact absurd h2 hv

/-- The backup instances bring no votes. -/
theorem C101_backups (p : Pool) (i : Node) (d : Nd) (pp : PrePrepare) (sender : Node) (env : Env) :
    d.step p i (.pp false pp sender env) = d := by
  unfold Nd.step report
  dsimp only
  cases suspicion (p.tpc i) d.replica pp sender env <;> simp

/-- **C101**, the other way, is not so either: there are wrong messages of a primary on which no node votes. With a wrong root
of the pool state, or not marked as final, a PRE-PREPARE is never kept, and never a reason to vote. -/
theorem C101_no_vote (p : Pool) (i : Node) (d : Nd) (pp : PrePrepare) (sender : Node) (env : Env)
    (hd : DigestRight p pp) (hf : env.timeOk = true) (hk : Known env pp)
    (hw : env.poolRootOk = false ∨ (env.final = false ∧ env.subSeqNo = 0 ∧ env.multiSigOk = true)) :
    d.step p i (.pp true pp sender env) = d ∧
      (d.replica.alreadyOrdered pp.seqNo = true ∨ whyNot (p.tpc i) d.replica pp sender env ≠ none ∨
        whyNotApplied env ≠ none) := by
  constructor
  · rcases (C101_exact p i d pp sender env).2 with h | h
    · obtain ⟨_, h⟩ := (C101_exact p i d pp sender env).1.1 h
      rcases h with h | ⟨_, _, h⟩
      · exact absurd hd h
      · rcases h with h | ⟨_, h⟩
        · rw [hf] at h; exact (nomatch h)
        · rcases h with ⟨h, _⟩ | ⟨_, _, h1, h2⟩
          · exact absurd hk h
          · rcases hw with hw | ⟨w1, w2, w3⟩
            · rw [hw] at h1; exact (nomatch h1)
            · rcases h2 with h2 | h2 | h2
              · rw [w3] at h2; exact (nomatch h2)
              · exact absurd w2 h2
              · rw [w1] at h2; exact (nomatch h2.1)
    · exact h
  · by_cases ho : d.replica.alreadyOrdered pp.seqNo = true
    · exact .inl ho
    · right
      rcases hw with hw | ⟨w1, w2, w3⟩
      · left
        intro h
        rw [su_refines _ _ _ _ _ true] at h
        simp [TPC.Replica.canProcessPP, ho, hw] at h
      · right
        unfold whyNotApplied
        rw [w1, w2]
        simp

/-! ## The pool -/

/-- **C101**, the pool. Of at most `f` faulty nodes, none is the primary of the view (or, if it is, it sends nothing wrong); the
primary's messages are in order and no message has a wrong digest. Then whatever else is sent, in any order and any number
of times - InstanceChange messages of the faulty nodes, PRE-PREPAREs of nodes that are not primary, restarts - no node that is
not faulty leaves the view or votes. Missing for the full claim: messages with a wrong digest of nodes that are not primary
(`C101_one_node_moves_all`). -/
theorem C101_stable_partial (p : Pool) (v : Nat) (F : List Node) (hn : 0 < p.n) (hF : F.length ≤ getMaxFailures p.n)
    (es : List (Node × Ev)) (hal : AllowedRun (fun i => i ∈ F) p (start v p) es)
    (hpp : ∀ i m pp sender env, (i, Ev.pp m pp sender env) ∈ es → DigestRight p pp ∧ (sender = p.primary v → Fine env pp))
    (i : Node) (hi : i ∉ F) :
    (run p (start v p) es i).ic.view = v ∧ (run p (start v p) es i).ic.started = [] ∧ (run p (start v p) es i).ic.sent = [] := by
  have := su_stable p v F hn hF es (start v p) (fun i _ => Calm.start p v F i) hal hpp i hi
  exact ⟨this.view, this.started, this.sent⟩

/-- **C101 does not hold of the code**, the pool. In a pool of at least four nodes, one faulty node `b` moves all the others
through any number of views, whoever the primaries are: the only PRE-PREPAREs are its own, with a wrong digest, one to each
node and view; no InstanceChange is its own; all else is what the nodes do by themselves. -/
theorem C101_one_node_moves_all (p : Pool) (hn : 4 ≤ p.n) (b : Node) (hb : b < p.n) (v k : Nat) :
    ∃ es : List (Node × Ev), AllowedRun (fun i => i = b) p (start v p) es ∧
      (∀ e ∈ es, (∃ pp, e.2 = .pp true pp b {} ∧ ¬ DigestRight p pp) ∨
        (∃ u r w, w ≠ b ∧ e.2 = .other (.ic u r w)) ∨ e.2 = .other .newViewAccepted) ∧
      ∀ i, i < p.n → i ≠ b →
        (run p (start v p) es i).ic.view = v + k ∧ (run p (start v p) es i).ic.waiting = false ∧
        (run p (start v p) es i).ic.started = (List.range k).map (fun j => v + j + 1) := by
  obtain ⟨h1, h2⟩ := su_rounds p b v hn hb k
  refine ⟨rounds p b v k, h2, ?_, ?_⟩
  · intro e he
    rcases su_mem_rounds p b v k e he with ⟨u, h⟩ | ⟨u, w, hw, h⟩ | h
    · refine .inl ⟨_, h, ?_⟩
      show p.digest [] u 0 ≠ p.digest [] u 0 + 1
      omega
    · exact .inr (.inl ⟨u, 11, w, hw, h⟩)
    · exact .inr (.inr h)
  · intro i hi hib
    rw [h1 i (su_honest.2 ⟨hi, hib⟩)]
    exact ⟨rfl, rfl, rfl⟩

/-! ## Cases -/

/-- Four nodes; the primary goes round; a digest is the sum of what it is of. -/
def suPool : Pool := { n := 4, primary := fun v => v % 4, digest := fun l v t => l.sum + v + t }

/-- A PRE-PREPARE with a right digest. -/
def suPP (v : Nat) : PrePrepare :=
  { viewNo := v, seqNo := 1, origView := v, time := 5, reqs := [7, 8], ledger := 1, poolRoot := 0, content := ⟨20 + v, 0, 0, 0⟩ }

example : DigestRight suPool (suPP 0) ∧ Current (start 0 suPool 1).replica (suPP 0) :=
  ⟨rfl, ⟨rfl, ⟨rfl, rfl⟩, by decide, by decide, by decide, .inl rfl⟩⟩
/-- From the primary, all in order: no vote. A wrong state root: a vote. The same from another node: none. -/
example : ((start 0 suPool 1).step suPool 1 (.pp true (suPP 0) 0 {})).ic.sent = [] := by decide
example : ((start 0 suPool 1).step suPool 1 (.pp true (suPP 0) 0 { stateOk := false })).ic.sent = [1] := by decide
example : ((start 0 suPool 1).step suPool 1 (.pp true (suPP 0) 2 { stateOk := false })).ic.sent = [] := by decide
example : ((start 0 suPool 1).step suPool 1 (.pp false (suPP 0) 0 { stateOk := false })).ic.sent = [] := by decide
example : PrimaryAtFault suPool (start 0 suPool 1).replica (suPP 0) 0 { stateOk := false } :=
  ⟨rfl, by decide, .inr ⟨by decide, .inr ⟨(fun _ _ h => nomatch h), .inl rfl, rfl, .inr (.inr ⟨rfl, .inr (.inr (.inl rfl))⟩)⟩⟩⟩
/-- A request that is not known any more, but recorded as ordered. -/
example : ((start 0 suPool 1).step suPool 1 (.pp true (suPP 0) 0 { request := fun _ => none, fullOrdered := fun k => k == 8 })).ic.sent = [1] := by
  decide
example : ((start 0 suPool 1).step suPool 1 (.pp true (suPP 0) 0 { request := fun _ => none })).ic.sent = [] := by decide
/-- A wrong digest, from a node that is not the primary. -/
example : ((start 0 suPool 1).step suPool 1 (.pp true { suPP 0 with time := 6 } 2 {})).ic.sent = [1] := by decide
/-- The wrong root of the pool state. -/
example : ((start 0 suPool 1).step suPool 1 (.pp true (suPP 0) 0 { poolRootOk := false })).ic.sent = [] ∧
    whyNot (suPool.tpc 1) (start 0 suPool 1).replica (suPP 0) 0 { poolRootOk := false } = some .wrongPoolRoot := by decide

/-- A run of the pool with a faulty node: its PRE-PREPARE, as not the primary, and its votes; a message of the primary. -/
def suRun : List (Node × Ev) :=
  [(1, .pp true (suPP 0) 0 {}), (1, .pp true (suPP 0) 3 { stateOk := false }), (1, .other (.ic 1 25 3)), (2, .other (.ic 1 25 3)),
   (1, .other (.restart 5)), (1, .other (.ic 1 25 3)), (0, .other (.ic 2 25 3))]

example : (∀ i, i ∉ [3] → (run suPool (start 0 suPool) suRun i).ic.view = 0) := by
  intro i hi
  refine (C101_stable_partial suPool 0 [3] (by decide) (by decide) suRun ?_ ?_ i hi).1
  · simp [AllowedRun, suRun, Allowed]
  · intro i m pp sender env h
    simp only [suRun, List.mem_cons, Prod.mk.injEq, Ev.pp.injEq, List.not_mem_nil, or_false, reduceCtorEq, and_false] at h
    have fine : Fine {} (suPP 0) :=
      ⟨rfl, rfl, by simp [WrongBatch], by simp [Repeats]⟩
    rcases h with ⟨rfl, rfl, rfl, rfl, rfl⟩ | ⟨rfl, rfl, rfl, rfl, rfl⟩
    · exact ⟨rfl, fun _ => fine⟩
    · exact ⟨rfl, fun h => nomatch h⟩

/-- Two views, moved by node 3, which is the primary of neither. -/
example : (run suPool (start 0 suPool) (rounds suPool 3 0 2) 1).ic.started = [1, 2] ∧
    (rounds suPool 3 0 2).length = 24 ∧ suPool.primary 0 ≠ 3 ∧ suPool.primary 1 ≠ 3 := by decide

end Verif.Props
