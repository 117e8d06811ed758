import Verif.Model.ThreePC
/-!
# A pool of replicas

Every honest node runs the replica of `Verif.Model.ThreePC` on its own list of
events; a Byzantine node is no more than a source of messages. A pool is given
by the event list of each honest node. The network condition (`Pool.Ok.net`)
says only that what is delivered in the name of an honest node was sent by it:
messages are authenticated, and may be delivered in every order, any number of
times, late or never. No clock or global order is needed, so every schedule is
covered.
-/
namespace Verif.TPC

structure Pool where
  n : Nat
  primary : Nat → Node
  digest : List Nat → Nat → Nat → Nat
  bls : Bool
  maxInFlight : Option Nat
  /-- per node and view, the sequence number of the NEW_VIEW's last batch -/
  cert : Node → Nat → Nat
  /-- per node and view, how far its highest batch is above that -/
  above : Node → Nat → Nat := fun _ _ => 0
  /-- the Byzantine nodes -/
  bad : List Node
  /-- what happened to each node, oldest first -/
  hist : Node → List Event

def Pool.cfg (P : Pool) (w : Node) : Cfg :=
  { name := w, n := P.n, primary := P.primary, cert := P.cert w, above := P.above w, digest := P.digest, bls := P.bls
    maxInFlight := P.maxInFlight }

/-- The state of a node after its events. -/
def Pool.node (P : Pool) (w : Node) : Replica := run (P.cfg w) (P.hist w)

/-- What a node sent and what it ordered. -/
def Pool.sent (P : Pool) (w : Node) : List Msg := (P.node w).out
def Pool.orderedBy (P : Pool) (w : Node) : List PrePrepare := (P.node w).ordLog

def Pool.Honest (P : Pool) (w : Node) : Prop := w < P.n ∧ w ∉ P.bad

/-- A pool of `n` nodes with at most `f` Byzantine ones and an authenticated
network. -/
structure Pool.Ok (P : Pool) : Prop where
  pos : 0 < P.n
  few : P.bad.length ≤ getMaxFailures P.n
  prim : ∀ v, P.primary v < P.n
  cert0 : ∀ w, P.Honest w → P.cert w 0 = 0
  net : ∀ i, P.Honest i → ∀ w m, Delivered (P.hist i) w m →
    w < P.n ∧ w ≠ i ∧ (w ∉ P.bad → m ∈ P.sent w)

/-- Node `i` has seen message `m` of node `w`: its own, or delivered to it. -/
def Pool.Seen (P : Pool) (i w : Node) (m : Msg) : Prop :=
  (w = i ∧ m ∈ P.sent i) ∨ Delivered (P.hist i) w m

/-- Node `i` holds a prepare certificate for `pp`: the PRE-PREPARE of the view's
primary and PREPAREs with the same digest and roots of `n - f - 1` other
nodes. -/
def Pool.Prepared (P : Pool) (i : Node) (pp : PrePrepare) : Prop :=
  P.Seen i (P.primary pp.viewNo) (.prePrepare pp) ∧
  ∃ Q : List Node, Q.Nodup ∧ P.n - getMaxFailures P.n - 1 ≤ Q.length ∧
    ∀ q ∈ Q, q ≠ P.primary pp.viewNo ∧
      ∃ p : Prepare, p.key = pp.key ∧ p.content = pp.content ∧ P.Seen i q (.prepare p)

/-- The highest batch of the NEW_VIEW a node accepted for a view. -/
def Pool.top (P : Pool) (w : Node) (v : Nat) : Nat := P.cert w v + P.above w v

/-- The batch is above what the NEW_VIEW of its view brought over, at every
honest node. -/
def Pool.Fresh (P : Pool) (k : Key) : Prop := ∀ w, P.Honest w → P.top w k.1 < k.2

/-! ### Deciding the network condition of a concrete pool -/

def Pool.okB (P : Pool) : Bool :=
  (List.range P.n).all (fun i => P.bad.contains i || (P.hist i).all (fun e =>
    match e with
    | .deliver m w _ => w < P.n && w != i && (P.bad.contains w || (P.sent w).contains m)
    | _ => true))

theorem Pool.net_of_okB {P : Pool} (h : P.okB = true) (i : Node) (hi : P.Honest i) (w : Node) (m : Msg)
    (hd : Delivered (P.hist i) w m) : w < P.n ∧ w ≠ i ∧ (w ∉ P.bad → m ∈ P.sent w) := by
  obtain ⟨env, hm⟩ := hd
  have h1 := List.all_eq_true.1 h i (List.mem_range.2 hi.1)
  have hb : P.bad.contains i = false := by
    rw [Bool.eq_false_iff]; intro x; exact hi.2 (List.contains_iff_mem.1 x)
  rw [hb, Bool.false_or] at h1
  have h2 := List.all_eq_true.1 h1 _ hm
  simp only [Bool.and_eq_true, decide_eq_true_eq, bne_iff_ne, Bool.or_eq_true, List.contains_iff_mem] at h2
  exact ⟨h2.1.1, h2.1.2, fun hw => h2.2.resolve_left hw⟩

end Verif.TPC
